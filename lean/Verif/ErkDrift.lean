import Verif.ErkFloat

/-!
# Linear invariants of the explicit integrator in arithmetic with rounding errors
-/

set_option autoImplicit false

namespace Verif
open Spec Set

/-- `float_step` together with the distance of the computed step from the exact step with the computed step size. -/
theorem float_step_local {n p : ℕ} {f : ℝ → Vec ℝ n → Vec ℝ n} (hp : 1 ≤ p) (hf : ContDiff ℝ p fun q : ℝ × (Fin n → ℝ) => f q.1 q.2)
    {U : ℝ → Vec ℝ n} {a b δ : ℝ} (hδ : 0 < δ) (hU : ∀ t ∈ Icc a b, HasDerivWithinAt U (f t (U t)) (Icc a b) t)
    {sr : SolverCoeffs ℝ} (hex : Explicit sr) (hfs : sr.fsal = true → FsalOK sr) (hrs : ∀ i : Fin sr.ns, ∑ j : Fin sr.ns, sr.a i j = sr.cn i)
    (ho : HasOrder (fun i j : Fin sr.ns => sr.a i j) (fun i => sr.bw i) p) :
    ∃ Λ κ h0 ν0 g0 B0 : ℝ, 0 ≤ Λ ∧ 1 ≤ κ ∧ 0 < h0 ∧ 0 < ν0 ∧ 1 ≤ g0 ∧
      ∀ (F : Type) [Add F] [Sub F] [Mul F] [Div F] [Neg F] [Scalar F] (u B ε : ℝ) (A : FloatArith F u B) (sc : SolverCoeffs F)
        (fF : F → Vec F n → Vec F n), NearTableau A sc sr → 0 ≤ u → 0 ≤ ε → u + ε ≤ ν0 → B0 ≤ B → RhsAccurate A f U a b ε fF →
        ∀ (t dt : F) (y : Vec F n) (K : ℕ → Vec F n), isFin t = true → isFin dt = true → (∀ k, isFin (y k) = true) →
          a + δ ≤ A.val t → A.val t ≤ b - δ → 0 ≤ A.val dt → A.val dt ≤ h0 → ‖A.vec y - U (A.val t)‖ ≤ 1 →
          (∀ i, stageStart sc ≤ i → i < sc.ns →
            K i = fF (t + sc.cn i * dt) (stageArg sc dt y K i)) →
          (sc.fsal = true → ∀ k, Near A (K 0 k) (f (A.val t) (A.vec y) k) (g0 * (u + ε))) →
          ∀ yn : Vec F n, (yn = fun k => y k + dt * combine sc K sc.bw k) →
          isFin (t + dt) = true ∧ |A.val (t + dt) - (A.val t + A.val dt)| ≤ κ * u ∧ (∀ k, isFin (yn k) = true) ∧
          ‖A.vec yn - U (A.val (t + dt))‖ ≤ (1 + Λ * A.val dt) * ‖A.vec y - U (A.val t)‖ +
            κ * (A.val dt * (A.val dt ^ p + (u + ε)) + u) ∧
          (sc.fsal = true →
            ∀ k, Near A (K (sc.ns - 1) k) (f (A.val (t + dt)) (A.vec yn) k) (g0 * (u + ε))) ∧
          ∃ kr : ℕ → Vec ℝ n, (∀ i < sr.ns, ∃ t' y', kr i = f t' y') ∧
            ∀ k, |A.vec yn k - (A.vec y k + A.val dt * combine sr kr sr.bw k)| ≤ κ * (u + A.val dt * (u + ε)) := by
  have hA : ∀ i j : Fin sr.ns, i ≤ j → sr.a i j = 0 := fun i j hij => hex i j i.isLt j.isLt hij
  obtain ⟨Λ, C, M, h1, hΛ, hC, hM, hh1, hstep⟩ := rkStep_error hp hf hU ho hA hrs
  have hcu : ContinuousOn U (Icc a b) := fun t ht => (hU t ht).continuousWithinAt
  obtain ⟨R, hR, hub⟩ := solution_bounded hcu
  obtain ⟨V, hV, hUl⟩ := solution_lipschitz hf.continuous hU
  obtain ⟨α, hα1, hαa, hαb, hαc⟩ := tableau_bound sr
  obtain ⟨s, hs⟩ : ∃ s : ℕ, sr.ns = s := ⟨_, rfl⟩
  obtain ⟨G, hG⟩ : ∃ G : ℝ, G = 4 + (R + 1) + s * (α * M) + α + M + (|a| + |b|) := ⟨_, rfl⟩
  obtain ⟨L, hL, hlip⟩ := lipschitz_ball hp (autonomize_contDiff hf) (R + 2 + (|a| + |b|))
  obtain ⟨Q, hQ⟩ : ∃ Q : ℝ, Q = 1 + L * (18 * s * big G ^ 3 + 7 * big G ^ 2) := ⟨_, rfl⟩
  obtain ⟨P, hP⟩ : ∃ P : ℝ, P = 9 * s * big G ^ 3 + 4 * (s + 3) * big G ^ 2 := ⟨_, rfl⟩
  obtain ⟨g0, hg0⟩ : ∃ g0 : ℝ, g0 = 2 * (1 + L * (14 * big G ^ 2 + 9 * s * big G ^ 3 + 4 * (s + 3) * big G ^ 2)) := ⟨_, rfl⟩
  obtain ⟨g, hg⟩ : ∃ g : ℝ, g = g0 * Q ^ s := ⟨_, rfl⟩
  obtain ⟨η, hη⟩ : ∃ η : ℝ, η = min (δ / 2) (1 / (8 * (V + 1))) := ⟨_, rfl⟩
  have hα0 : 0 < α := by linarith
  have hη0 : 0 < η := by rw [hη]; exact lt_min (by linarith) (by positivity)
  have hη1 : η ≤ δ / 2 := by rw [hη]; exact min_le_left _ _
  have hη2 : (V + 1) * η ≤ 1 / 8 := by
    have : η ≤ 1 / (8 * (V + 1)) := by rw [hη]; exact min_le_right _ _
    rw [le_div_iff₀ (by positivity)] at this
    linarith
  -- with vanishing errors and step size the constants are admissible
  have cz : StepConsts f U sr a b δ 0 0 0 R V α M G L Q P g0 g η s := ⟨hs, hα1, hαa, hαb, hαc, hR, hub, hV, hUl, hM, hG, hL, hlip, hQ, hP, hg0, hg,
    hη0, hη1, hη2, le_rfl, le_rfl, le_rfl, zero_le_one, by simp, by simpa using hη0.le, by simp, by simpa using hη0.le, by simp⟩
  obtain ⟨hG1, Γ1, hP0, hQ1, hg01, hg1, -⟩ := cz.basic
  obtain ⟨ν0, hν0⟩ : ∃ ν0 : ℝ, ν0 = min (η / (2 * (P + 7 * big G ^ 2) * g)) (1 / (20 * (s + 1) * big G ^ 3 * g)) := ⟨_, rfl⟩
  obtain ⟨h0, hh0⟩ : ∃ h0 : ℝ, h0 = min (min h1 1) (min (1 / (2 * (L * P * Q ^ s) + 1)) (min (η / α) (1 / (8 * (s * (α * M) + 1))))) := ⟨_, rfl⟩
  obtain ⟨X, hX⟩ : ∃ X : ℝ, X = 4 * ((s : ℝ) + 3) * big G ^ 2 * g := ⟨_, rfl⟩
  obtain ⟨κ, hκ⟩ : ∃ κ : ℝ, κ = 1 + 7 * big G ^ 2 + 7 * big G ^ 2 * V + X + C := ⟨_, rfl⟩
  have hX0 : 0 ≤ X := by rw [hX]; positivity
  have hV7 : 0 ≤ 7 * big G ^ 2 * V := by positivity
  have hΓ7 : 0 ≤ 7 * big G ^ 2 := by positivity
  refine ⟨Λ, κ, h0, ν0, g0, big G, hΛ, by linarith, ?_, ?_, hg01, ?_⟩
  · rw [hh0]; exact lt_min (lt_min hh1 one_pos) (lt_min (by positivity) (lt_min (by positivity) (by positivity)))
  · rw [hν0]; exact lt_min (by positivity) (by positivity)
  intro F _ _ _ _ _ _ u B ε A sc fF hnt hu hε hν hB hacc t dt y K ht hdt hy hta htb hd0 hdh hyU hK hK0 yn hyn
  rw [hh0] at hdh
  rw [hν0] at hν
  generalize hH : A.val dt = H at *
  have hH1 : H ≤ h1 := hdh.trans ((min_le_left _ _).trans (min_le_left _ _))
  have c : StepConsts f U sr a b δ u ε H R V α M G L Q P g0 g η s := by
    refine ⟨hs, hα1, hαa, hαb, hαc, hR, hub, hV, hUl, hM, hG, hL, hlip, hQ, hP, hg0, hg, hη0, hη1, hη2, hu, hε, hd0, ?_, ?_, ?_, ?_, ?_, ?_⟩
    · exact hdh.trans ((min_le_left _ _).trans (min_le_right _ _))
    · have : H ≤ 1 / (2 * (L * P * Q ^ s) + 1) := hdh.trans ((min_le_right _ _).trans (min_le_left _ _))
      rw [le_div_iff₀ (by positivity)] at this
      linarith
    · have : H ≤ η / α := hdh.trans ((min_le_right _ _).trans ((min_le_right _ _).trans (min_le_left _ _)))
      rw [le_div_iff₀ (by linarith)] at this
      linarith
    · have : H ≤ 1 / (8 * (s * (α * M) + 1)) := hdh.trans ((min_le_right _ _).trans ((min_le_right _ _).trans (min_le_right _ _)))
      rw [le_div_iff₀ (by positivity)] at this
      linarith
    · have : u + ε ≤ η / (2 * (P + 7 * big G ^ 2) * g) := hν.trans (min_le_left _ _)
      rw [le_div_iff₀ (by positivity)] at this
      linarith
    · have : u + ε ≤ 1 / (20 * (s + 1) * big G ^ 3 * g) := hν.trans (min_le_right _ _)
      rw [le_div_iff₀ (by positivity)] at this
      linarith
  obtain ⟨-, -, -, -, -, -, hgν, hHg, hd1⟩ := c.basic
  have hH4 := c.hH4
  have hαH : H ≤ α * H := le_mul_of_one_le_left hd0 hα1
  have hTm : A.val t ∈ Icc a b := ⟨by linarith, by linarith⟩
  obtain ⟨kr, hkr⟩ := exists_stages f sr (A.val t) H (A.vec y)
  have hrk := stages_isRKStep hex hkr
  obtain ⟨hst, hkM⟩ := hstep (A.val t) H (A.vec y) _ _ hTm.1 hd0 hH1 (by linarith) hyU hrk
  have hkM' : ∀ j < s, ∀ k, |kr j k| ≤ M := fun j hj k => (norm_le_pi_norm (kr j) k).trans (hkM ⟨j, by rw [hs]; exact hj⟩)
  obtain ⟨htime, hyn', hlast⟩ := step_core c hex hfs hacc hnt hB ht hdt hy hH hta htb hyU hK hK0 hkr hkM' hyn
  have q0 : 0 ≤ P * (u + H * (g * (u + ε))) := by positivity
  refine ⟨htime.1, htime.2.trans (mul_le_mul_of_nonneg_right (by linarith) hu), fun k => (hyn' k).1, ?_, hlast, kr, fun i hi => ⟨_, _, hkr i hi⟩, ?_⟩
  rotate_left
  · intro k
    refine (hyn' k).2.trans ?_
    have k0 : 0 ≤ H * (u + ε) := mul_nonneg hd0 (by linarith)
    have k1 : 4 * ((s : ℝ) + 3) * big G ^ 2 * u ≤ X * u := by
      refine mul_le_mul_of_nonneg_right ?_ hu
      rw [hX]; exact le_mul_of_one_le_right (by positivity) hg1
    have k2 : X * (u + H * (u + ε)) ≤ κ * (u + H * (u + ε)) := mul_le_mul_of_nonneg_right (by linarith) (by linarith)
    have k3 : X * (H * (u + ε)) = 4 * ((s : ℝ) + 3) * big G ^ 2 * g * (H * (u + ε)) := by rw [hX]
    have k4 : ((s : ℝ) + 3) * (4 * big G ^ 2 * (u + H * (g * (u + ε)))) =
        4 * ((s : ℝ) + 3) * big G ^ 2 * u + 4 * ((s : ℝ) + 3) * big G ^ 2 * g * (H * (u + ε)) := by ring
    rw [k4]
    linarith
  have t1' : A.val (t + dt) ∈ Icc a b := by
    have := abs_le.mp htime.2
    constructor <;> linarith
  have t2 : A.val t + H ∈ Icc a b := ⟨by linarith [hTm.1], by linarith⟩
  have n0 := hUl (A.val t + H) t2 _ t1'
  rw [abs_sub_comm] at n0
  have n1 : ‖A.vec yn - fun k => A.vec y k + H * combine sr kr sr.bw k‖ ≤ (s + 3) * (4 * big G ^ 2 * (u + H * (g * (u + ε)))) :=
    (pi_norm_le_iff_of_nonneg (by positivity)).mpr fun k => (hyn' k).2
  have n2 : V * |A.val (t + dt) - (A.val t + H)| ≤ V * (7 * big G ^ 2 * u) := mul_le_mul_of_nonneg_left htime.2 hV
  have n3 := norm_add_le (A.vec yn - fun k => A.vec y k + H * combine sr kr sr.bw k)
    (((fun k => A.vec y k + H * combine sr kr sr.bw k) - U (A.val t + H)) + (U (A.val t + H) - U (A.val (t + dt))))
  have n4 := norm_add_le ((fun k => A.vec y k + H * combine sr kr sr.bw k) - U (A.val t + H)) (U (A.val t + H) - U (A.val (t + dt)))
  rw [sub_add_sub_cancel, sub_add_sub_cancel] at n3
  rw [sub_add_sub_cancel] at n4
  have c1 : ((s : ℝ) + 3) * (4 * big G ^ 2 * (u + H * (g * (u + ε)))) ≤ X * u + X * (H * (u + ε)) := by
    have : 4 * ((s : ℝ) + 3) * big G ^ 2 * u ≤ X * u := by
      refine mul_le_mul_of_nonneg_right ?_ hu
      rw [hX]; exact le_mul_of_one_le_right (by positivity) hg1
    rw [hX] at this ⊢; linarith
  have c2 : C * H ^ (p + 1) = C * (H * H ^ p) := by rw [pow_succ']
  have c3 : 0 ≤ H * H ^ p := mul_nonneg hd0 (pow_nonneg hd0 _)
  have c4 : 0 ≤ H * (u + ε) := mul_nonneg hd0 (by linarith)
  have d1 : C * (H * H ^ p) ≤ κ * (H * H ^ p) := mul_le_mul_of_nonneg_right (by linarith) c3
  have d2 : X * (H * (u + ε)) ≤ κ * (H * (u + ε)) := mul_le_mul_of_nonneg_right (by linarith) c4
  have d3 : (X + 7 * big G ^ 2 * V) * u ≤ κ * u := mul_le_mul_of_nonneg_right (by linarith) hu
  linarith

/-! ### the loop -/

/-- an invariant that may be shown using that the state is reachable -/
theorem reach_inv {S R : Type} {body : S → LoopStep S R} {s s' : S} (h : Reach body s s') {Inv : S → Prop} (h0 : Inv s)
    (hstep : ∀ a b, Reach body s a → Inv a → body a = .next b → Inv b) : Inv s' := by
  induction h with
  | refl => exact h0
  | tail hr hb ih => exact hstep _ _ hr ih hb

section
variable {F : Type} [Add F] [Sub F] [Mul F] [Div F] [Neg F] [Scalar F] {u B : ℝ} {n p : ℕ} {A : FloatArith F u B}
  {f : ℝ → Vec ℝ n → Vec ℝ n} {U : ℝ → Vec ℝ n} {fF : F → Vec F n → Vec F n} {sc : SolverCoeffs F} {a b δ Λ κ h0 g0 ε : ℝ}

/-- the change of `w·y` in one step is of the size of the rounding errors -/
def StepDrift (A : FloatArith F u B) (f : ℝ → Vec ℝ n → Vec ℝ n) (U : ℝ → Vec ℝ n) (fF : F → Vec F n → Vec F n) (sc : SolverCoeffs F)
    (w : Fin n → ℝ) (a b δ c h0 g0 ε : ℝ) : Prop :=
  ∀ (t dt : F) (y : Vec F n) (K : ℕ → Vec F n), isFin t = true → isFin dt = true → (∀ k, isFin (y k) = true) →
    a + δ ≤ A.val t → A.val t ≤ b - δ → 0 ≤ A.val dt → A.val dt ≤ h0 → ‖A.vec y - U (A.val t)‖ ≤ 1 →
    (∀ i, stageStart sc ≤ i → i < sc.ns → K i = fF (t + sc.cn i * dt) (stageArg sc dt y K i)) →
    (sc.fsal = true → ∀ k, Near A (K 0 k) (f (A.val t) (A.vec y) k) (g0 * (u + ε))) →
    ∀ yn : Vec F n, (yn = fun k => y k + dt * combine sc K sc.bw k) →
    |∑ k, w k * A.val (yn k) - ∑ k, w k * A.val (y k)| ≤ c * (u + A.val dt * (u + ε))

/-- a combination of values orthogonal to `w` is orthogonal to `w` -/
theorem combine_orth {sr : SolverCoeffs ℝ} {w : Fin n → ℝ} (hw : ∀ t y, ∑ k, w k * f t y k = 0) {kr : ℕ → Vec ℝ n}
    (hkr : ∀ i < sr.ns, ∃ t' y', kr i = f t' y') : ∑ k, w k * combine sr kr sr.bw k = 0 := by
  simp only [combine_real, Finset.mul_sum]
  rw [Finset.sum_comm]
  refine Finset.sum_eq_zero fun i hi => ?_
  obtain ⟨t', y', e⟩ := hkr i (Finset.mem_range.mp hi)
  rw [e]
  calc ∑ k, w k * (f t' y' k * sr.bw i) = sr.bw i * ∑ k, w k * f t' y' k := by
        rw [Finset.mul_sum]; exact Finset.sum_congr rfl fun k _ => by ring
    _ = 0 := by rw [hw, mul_zero]

theorem drift_of_local {w : Fin n → ℝ} {Y Y' Z : Fin n → ℝ} {H e : ℝ} (hz : ∑ k, w k * Z k = 0) (h : ∀ k, |Y' k - (Y k + H * Z k)| ≤ e) :
    |∑ k, w k * Y' k - ∑ k, w k * Y k| ≤ (∑ k, |w k|) * e := by
  have e1 : ∑ k, w k * Y' k - ∑ k, w k * Y k = ∑ k, w k * (Y' k - (Y k + H * Z k)) := by
    have : ∑ k, w k * (Y' k - (Y k + H * Z k)) = ∑ k, w k * Y' k - ∑ k, w k * Y k - H * ∑ k, w k * Z k := by
      rw [Finset.mul_sum, ← Finset.sum_sub_distrib, ← Finset.sum_sub_distrib]
      exact Finset.sum_congr rfl fun k _ => by ring
    rw [this, hz]; ring
  rw [e1, Finset.sum_mul]
  refine (Finset.abs_sum_le_sum_abs _ _).trans (Finset.sum_le_sum fun k _ => ?_)
  rw [abs_mul]
  exact mul_le_mul_of_nonneg_left (h k) (abs_nonneg _)

variable {τ0 τ1 h e0 D W E : ℝ} {N : ℕ} {w : Fin n → ℝ} {c m0 : ℝ}

/-- the invariant of the loop: the drift so far -/
structure DInv (A : FloatArith F u B) (w : Fin n → ℝ) (ε κ c τ0 m0 X : ℝ) (s : ErkState F n) : Prop where
  now : |∑ k, w k * A.val (s.y k) - m0| ≤ c * (s.step * u + (A.val s.t + s.step * (κ * u) - τ0) * (u + ε))
  smp : ∀ y ∈ s.sol.yVals, |∑ k, w k * A.val (y k) - m0| ≤ X

theorem dinv_next (r : RunNumbers p u ε a b δ Λ κ h0 τ0 τ1 h e0 D W E N) (hst : StepOK A f U fF sc p a b δ Λ κ h0 g0 ε)
    (hdr : StepDrift A f U fF sc w a b δ c h0 g0 ε) (hc0 : 0 ≤ c) {X V : ℝ} (hV : τ1 - τ0 + 1 ≤ V) (hX : c * (N * u + V * (u + ε)) ≤ X)
    (hB : 100 ≤ B) (hBW : 2 * (|a| + |b| + 1) + 2 ≤ B) {nd : Bool} {o : ErkOpts F} {oo : OutOpts} {mo : ℕ} {t1 : F} (ht1 : isFin t1 = true)
    (hτ1 : A.val t1 = τ1) (hopt : o.adaptive = true → isFin o.maxDt = true ∧ 0 < A.val o.maxDt ∧ A.val o.maxDt ≤ h)
    {s s' : ErkState F n} (i : FInv A f U sc ε Λ κ g0 τ0 τ1 h e0 D E s) (d : DInv A w ε κ c τ0 m0 X s)
    (hb : erkBody nd fF t1 o oo sc mo s = .next s') (hN : s'.step < N) : DInv A w ε κ c τ0 m0 X s' := by
  have hκu : 0 ≤ κ * u := mul_nonneg (by linarith [r.κ1]) r.u0
  have hc := bodyCase nd fF t1 o oo sc mo s
  rw [hb] at hc
  -- the clipped step
  have hstep : s.step ≤ s'.step ∧ ltb s.t t1 = true := by
    cases hc with
    | accepted h => exact ⟨Nat.le_succ _, h⟩
    | rejected h => exact ⟨le_rfl, h⟩
  have hsN : s.step < N := lt_of_le_of_lt hstep.1 hN
  have hlt : A.val s.t < τ1 := by rw [← hτ1]; exact (A.lt _ _ i.ft ht1).mp hstep.2
  have hjN : (s.step : ℝ) + 1 ≤ N := by exact_mod_cast hsN
  have hjκ : (s.step : ℝ) * (κ * u) + κ * u ≤ N * (κ * u) := by have := mul_le_mul_of_nonneg_right hjN hκu; linarith
  have hj0 : 0 ≤ (s.step : ℝ) * (κ * u) := by positivity
  have hlo := i.lo
  have Tab : a + δ ≤ A.val s.t ∧ A.val s.t ≤ b - δ := ⟨by linarith [r.lo], by linarith [r.hi]⟩
  have habs : ∀ x : ℝ, a ≤ x → x ≤ b → |x| ≤ |a| + |b| + 1 := fun x h1 h2 =>
    abs_le.mpr ⟨by linarith [neg_abs_le a, abs_nonneg b], by linarith [le_abs_self b, abs_nonneg a]⟩
  have hδ := r.δ0
  obtain ⟨c1, c2, c3, c4⟩ := clip_float (t1 := t1) (dt := s.dt) (W := |a| + |b| + 1) r.u0 (by linarith [abs_nonneg a, abs_nonneg b]) hBW
    (by
      have := mul_le_mul_of_nonneg_right r.κW r.u0
      have : 0 ≤ u * (2 * (|a| + |b| + 1) + 3) := mul_nonneg r.u0 (by linarith [abs_nonneg a, abs_nonneg b])
      linarith [r.κu]) i.ft ht1 i.fd (by rw [hτ1]; exact hlt.le)
    (habs _ (by linarith) (by linarith)) (habs _ (by rw [hτ1]; linarith [r.le, r.lo]) (by rw [hτ1]; linarith [r.hi])) i.d0
    (by linarith [i.d1, r.hone])
  have hκW := mul_le_mul_of_nonneg_right r.κW r.u0
  rw [hτ1] at c4
  have c3' : A.val (clipDt s.t t1 s.dt) ≤ h + ((s.step : ℝ) + 2) * (κ * u) := by linarith [i.d1]
  have hx1 : h + ((s.step : ℝ) + 2) * (κ * u) ≤ h + (N + 1) * (κ * u) := by linarith
  have hx2 : h + ((s.step : ℝ) + 2) * (κ * u) ≤ 1 := hx1.trans r.hone
  have herr := FInv.err_le r i hsN
  obtain ⟨nd1, nd2, nd3, nd4⟩ := attempt_newDt_float (A := A) (fF := fF) (sc := sc) (mo := mo) r hB hopt c1 c2 c3' (by positivity) hx2
  obtain ⟨L, hsol, -, -, hadt, hold, hnew, hyn, -⟩ := attempt_sol fF o sc mo s (clipDt s.t t1 s.dt) s.sol.bump
  change (attemptAt fF t1 o sc mo s).sol = _ at hsol
  change (attemptAt fF t1 o sc mo s).dt = _ at hadt
  change ∀ i, _ → (attemptAt fF t1 o sc mo s).Ks i = _ at hold
  change ∀ i, _ → _ → (attemptAt fF t1 o sc mo s).Ks i = fF _ (stageArg sc _ s.y (attemptAt fF t1 o sc mo s).Ks i) at hnew
  change (attemptAt fF t1 o sc mo s).yn = fun k => s.y k + clipDt s.t t1 s.dt * combine sc (attemptAt fF t1 o sc mo s).Ks sc.bw k at hyn
  have hline : ∀ (sol : ErkOutput F n) (x : F) (z : Vec F n), (sol.line oo x z).tVals = sol.tVals ∧ (sol.line oo x z).yVals = sol.yVals := by
    intro sol x z; unfold ErkOutput.line; split_ifs <;> simp
  have hK0 : sc.fsal = true → ∀ k, Near A ((attemptAt fF t1 o sc mo s).Ks 0 k) (f (A.val s.t) (A.vec s.y) k) (g0 * (u + ε)) := by
    intro hf k
    rw [hold 0 (by unfold stageStart; rw [if_pos hf]; norm_num)]
    exact i.fs hf k
  have huε : 0 ≤ u + ε := by linarith [r.u0, r.ε0]
  cases hc with
  | accepted _ _ _ x hA =>
    subst hA
    generalize attemptAt fF t1 o sc mo s = x at *
    obtain ⟨q1, q2, q3, q4, q5⟩ := hst s.t (clipDt s.t t1 s.dt) s.y x.Ks i.ft c1 i.fy Tab.1 Tab.2 c2 (by linarith [r.hh]) (herr.trans r.E1) hnew hK0 x.yn hyn
    have hd := hdr s.t (clipDt s.t t1 s.dt) s.y x.Ks i.ft c1 i.fy Tab.1 Tab.2 c2 (by linarith [r.hh]) (herr.trans r.E1) hnew hK0 x.yn hyn
    have q2' := abs_le.mp q2
    have hnow : |∑ k, w k * A.val (x.yn k) - m0| ≤
        c * (((s.step + 1 : ℕ) : ℝ) * u + (A.val (s.t + clipDt s.t t1 s.dt) + ((s.step + 1 : ℕ) : ℝ) * (κ * u) - τ0) * (u + ε)) := by
      have z1 := abs_sub_le (∑ k, w k * A.val (x.yn k)) (∑ k, w k * A.val (s.y k)) m0
      have t2 : (A.val s.t + s.step * (κ * u) - τ0 + A.val (clipDt s.t t1 s.dt)) * (u + ε) ≤
          (A.val (s.t + clipDt s.t t1 s.dt) + ((s.step + 1 : ℕ) : ℝ) * (κ * u) - τ0) * (u + ε) :=
        mul_le_mul_of_nonneg_right (by push_cast; linarith) huε
      have t3 := mul_le_mul_of_nonneg_left t2 hc0
      push_cast at t3 ⊢
      linarith [d.now]
    refine ⟨?_, ?_⟩
    · show |∑ k, w k * A.val (x.yn k) - m0| ≤ c * (((s.step + 1 : ℕ) : ℝ) * u + (A.val (s.t + x.dt) + ((s.step + 1 : ℕ) : ℝ) * (κ * u) - τ0) * (u + ε))
      rw [hadt]; exact hnow
    · intro y hy
      change y ∈ (x.sol.line oo s.t x.yn).yVals ++ [x.yn] at hy
      rw [(hline _ _ _).2, hsol] at hy
      rcases List.mem_append.mp hy with hy | hy
      · exact d.smp y hy
      · rw [List.mem_singleton] at hy
        rw [hy]
        refine hnow.trans (le_trans (mul_le_mul_of_nonneg_left ?_ hc0) hX)
        have hN' : ((s.step + 1 : ℕ) : ℝ) ≤ N := by exact_mod_cast hsN
        have z1 := mul_le_mul_of_nonneg_right hN' r.u0
        have t2 : (A.val (s.t + clipDt s.t t1 s.dt) + ((s.step + 1 : ℕ) : ℝ) * (κ * u) - τ0) * (u + ε) ≤ V * (u + ε) := by
          refine mul_le_mul_of_nonneg_right ?_ huε
          have := mul_le_mul_of_nonneg_right hN' hκu
          linarith [r.hone, r.h1]
        linarith
  | rejected _ _ _ x hA _ had =>
    subst hA
    generalize attemptAt fF t1 o sc mo s = x at *
    refine ⟨d.now, ?_⟩
    intro y hy
    change y ∈ (x.sol.line oo s.t x.yn).yVals at hy
    rw [(hline _ _ _).2, hsol] at hy
    exact d.smp y hy

end

/-- **Linear invariants in arithmetic with rounding errors** (C134). -/
theorem float_drift {n p : ℕ} {f : ℝ → Vec ℝ n → Vec ℝ n} (hp : 1 ≤ p) (hf : ContDiff ℝ p fun q : ℝ × (Fin n → ℝ) => f q.1 q.2)
    {U : ℝ → Vec ℝ n} {a b δ : ℝ} (hδ : 0 < δ) (hU : ∀ t ∈ Icc a b, HasDerivWithinAt U (f t (U t)) (Icc a b) t)
    {m : ℤ} (hm : m ∈ erkImplemented) {w : Fin n → ℝ} (hw : ∀ t y, ∑ k, w k * f t y k = 0)
    (ho : HasOrder (fun i j : Fin (erkCoeffs m : SolverCoeffs ℝ).ns => (erkCoeffs m : SolverCoeffs ℝ).a i j)
      (fun i => (erkCoeffs m : SolverCoeffs ℝ).bw i) p) :
    ∃ C C' h0 : ℝ, 0 < C ∧ 0 < C' ∧ 0 < h0 ∧
      ∀ (F : Type) [Add F] [Sub F] [Mul F] [Div F] [Neg F] [Scalar F] (u B ε : ℝ) (A : FloatArith F u B) (fF : F → Vec F n → Vec F n),
        0 ≤ u → 0 ≤ ε → C ≤ B → RhsAccurate A f U a b ε fF →
        ∀ (nd : Bool) (o : ErkOpts F) (oo : OutOpts) (t0 t1 : F) (y0 : Vec F n) (dt : F) (fuel : ℕ) (out : ErkOutput F n) (h e0 : ℝ),
          isFin t0 = true → isFin t1 = true → (∀ k, isFin (y0 k) = true) → isFin dt = true →
          a + δ ≤ A.val t0 → A.val t0 ≤ A.val t1 → A.val t1 ≤ b - δ → ‖A.vec y0 - U (A.val t0)‖ ≤ e0 → 0 ≤ A.val dt → A.val dt ≤ h → h ≤ h0 →
          (o.adaptive = true → (erkCoeffs m : SolverCoeffs F).b2 ≠ [] → isFin o.maxDt = true ∧ 0 < A.val o.maxDt ∧ A.val o.maxDt ≤ h) →
          erkOdeint nd fF t0 t1 y0 o oo m dt fuel = some (.ret out) → C * (h ^ p + ε + e0 + out.tVals.length * u) ≤ 1 →
          ∀ y ∈ out.yVals, |∑ k, w k * A.val (y k) - ∑ k, w k * A.val (y0 k)| ≤ C' * (out.tVals.length * u + ε) := by
  obtain ⟨hex, hfs, -, -, -⟩ := shipped_facts hm
  obtain ⟨Λ, κ1, h1, ν0, g0, B0, hΛ, hκ1, hh1, hν0, hg0, hall⟩ :=
    float_step_local (δ := δ / 2) hp hf (by linarith) hU hex hfs (shipped_row_sums hm) ho
  obtain ⟨κ, hκ⟩ : ∃ κ : ℝ, κ = max κ1 (2 * (2 * (|a| + |b| + 1) + 3)) := ⟨_, rfl⟩
  have hκκ1 : κ1 ≤ κ := by rw [hκ]; exact le_max_left _ _
  have hκW : 2 * (2 * (|a| + |b| + 1) + 3) ≤ κ := by rw [hκ]; exact le_max_right _ _
  obtain ⟨C, hC0, hC1, hC2, hC3, hnum⟩ := runNumbers_of (B0 := B0) hp hδ hΛ (hκ1.trans hκκ1) hκW hh1 hν0
  have hw0 : 0 ≤ ∑ k, |w k| := Finset.sum_nonneg fun k _ => abs_nonneg _
  obtain ⟨V, hV⟩ : ∃ V : ℝ, V = |b - a| + 1 := ⟨_, rfl⟩
  have hV1 : 1 ≤ V := by rw [hV]; linarith [abs_nonneg (b - a)]
  obtain ⟨c, hc⟩ : ∃ c : ℝ, c = (∑ k, |w k|) * κ1 := ⟨_, rfl⟩
  have hc0 : 0 ≤ c := by rw [hc]; exact mul_nonneg hw0 (by linarith)
  refine ⟨C, c * (1 + V) + 1, min (h1 / 2) (1 / 2), hC0, by positivity, lt_min (by linarith) (by norm_num), ?_⟩
  intro F _ _ _ _ _ _ u B ε A fF hu hε hCB hacc nd o oo t0 t1 y0 dt fuel out h e0 ft0 ft1 fy0 fdt ha h01 hb' hy0 hdt0 hdth hh0 hopt hrun hsmall
  have hN1 := nearTableau_shipped A (by linarith) hm
  have hopt' : (effOpts o (erkCoeffs m : SolverCoeffs F)).adaptive = true →
      isFin (effOpts o (erkCoeffs m : SolverCoeffs F)).maxDt = true ∧ 0 < A.val (effOpts o (erkCoeffs m : SolverCoeffs F)).maxDt ∧
        A.val (effOpts o (erkCoeffs m : SolverCoeffs F)).maxDt ≤ h := by
    intro had
    obtain ⟨-, -, f3, -⟩ := effOpts_fields o (erkCoeffs m : SolverCoeffs F)
    obtain ⟨h1, h2⟩ := effOpts_adaptive.mp had
    rw [f3]
    exact hopt h1 (fun hc => h2 (by rw [hc]; rfl))
  obtain ⟨-, hG⟩ := erkOdeint_ret hrun
  generalize (erkCoeffs m : SolverCoeffs F) = sc at hN1 hopt' hG
  obtain ⟨mo, s, hmo, -, hreach, hout⟩ := erkGuts_ret hG
  have htv : out.tVals = s.sol.tVals ∧ out.yVals = s.sol.yVals := by
    rcases hout with ⟨-, rfl⟩ | ⟨-, -, -, rfl⟩ <;> exact ⟨rfl, rfl⟩
  obtain ⟨-, -, -, z4, z5, -⟩ := erkInit_flds fF sc t0 (clipDt t0 t1 dt) y0
  have hlen := erk_len (by rw [z4, z5]; rfl) hreach
  rw [htv.1] at hsmall ⊢
  rw [htv.2]
  obtain ⟨hν, D, W, E, hEC, r⟩ := hnum u ε (A.val t0) (A.val t1) h e0 s.sol.tVals.length hu hε ((norm_nonneg _).trans hy0) (by omega)
    (hdt0.trans hdth) hh0 ha h01 hb' hsmall
  have hloc := hall F u B ε A sc fF hN1 hu hε hν (by linarith) hacc
  have hst : StepOK A f U fF sc p a b (δ / 2) Λ κ h1 g0 ε := by
    refine StepOK.mono hκκ1 hu hε ?_
    intro t dt y K q1 q2 q3 q4 q5 q6 q7 q8 q9 q10 yn q11
    obtain ⟨w1, w2, w3, w4, w5, -⟩ := hloc t dt y K q1 q2 q3 q4 q5 q6 q7 q8 q9 q10 yn q11
    exact ⟨w1, w2, w3, w4, w5⟩
  have hdr : StepDrift A f U fF sc w a b (δ / 2) c h1 g0 ε := by
    intro t dt y K q1 q2 q3 q4 q5 q6 q7 q8 q9 q10 yn q11
    obtain ⟨-, -, -, -, -, kr, k1, k2⟩ := hloc t dt y K q1 q2 q3 q4 q5 q6 q7 q8 q9 q10 yn q11
    rw [hc, mul_assoc]
    exact drift_of_local (combine_orth hw k1) k2
  have hinit := finv_init (sc := sc) r hacc hg0 (by omega) (by linarith) ft0 ft1 fy0 fdt rfl rfl hy0 hdt0 hdth
  obtain ⟨X, hX⟩ : ∃ X : ℝ, X = c * (s.sol.tVals.length * u + V * (u + ε)) := ⟨_, rfl⟩
  have hVb : A.val t1 - A.val t0 + 1 ≤ V := by rw [hV]; linarith [le_abs_self (b - a)]
  obtain ⟨z1, -, z3, -, -, z6, -⟩ := erkInit_flds fF sc t0 (clipDt t0 t1 dt) y0
  have hX0 : 0 ≤ X := by rw [hX]; positivity
  have key : s.step < s.sol.tVals.length → DInv A w ε κ c (A.val t0) (∑ k, w k * A.val (y0 k)) X s := by
    refine reach_inv hreach (Inv := fun q => q.step < s.sol.tVals.length → DInv A w ε κ c (A.val t0) (∑ k, w k * A.val (y0 k)) X q) ?_ ?_
    · intro _
      refine ⟨?_, ?_⟩
      · rw [z1, z3, z4]; simp
      · intro y hy
        rw [z6, List.mem_singleton] at hy
        rw [hy, sub_self, abs_zero]; exact hX0
    · intro q q' hq hd hb hN'
      have hqs : q.step ≤ q'.step := by
        have hc := bodyCase nd fF t1 (effOpts o sc) oo sc mo q
        rw [hb] at hc
        cases hc with
        | accepted => exact Nat.le_succ _
        | rejected => exact le_rfl
      have hq' := lt_of_le_of_lt hqs hN'
      exact dinv_next r hst hdr hc0 hVb hX.ge (by linarith) (by linarith) ft1 rfl hopt'
        (finv_reach r hst (by linarith) (by linarith) ft1 rfl hopt' hinit hq hq') (hd hq') hb hN'
  intro y hy
  refine ((key (by omega)).smp y hy).trans ?_
  have hL1 : (1 : ℝ) ≤ s.sol.tVals.length := by rw [hlen]; push_cast; linarith [Nat.cast_nonneg (α := ℝ) s.step]
  have hLu : u ≤ s.sol.tVals.length * u := le_mul_of_one_le_left hu hL1
  have e1 : V * (u + ε) ≤ V * (s.sol.tVals.length * u + ε) := mul_le_mul_of_nonneg_left (by linarith) (by linarith)
  have e2 := mul_le_mul_of_nonneg_left (show s.sol.tVals.length * u + V * (u + ε) ≤ (1 + V) * (s.sol.tVals.length * u + ε) by linarith) hc0
  rw [hX]
  linarith

end Verif
