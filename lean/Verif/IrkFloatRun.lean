import Verif.IrkFloatStep
import Verif.IrkLemmas

/-!
# Runs of the implicit integrators in arithmetic with rounding errors

The invariant of the loop of `irk_guts` (irk.hpp 604-860): times and values are finite, and the error of the current value is bounded by a discrete
Gronwall sum of the errors of the steps (`irk_float_step`).
-/

namespace Verif

open Spec Set

/-- a slightly longer step -/
theorem newtonLeft_le {u H h x xt Rt : ℝ} (hH : 0 ≤ H) (hHh : H ≤ h + x) (hh1 : h ≤ 1) (hx : 0 ≤ x) (hx1 : x ≤ 1) (hxt : 0 ≤ xt) (hxt1 : xt ≤ 1) :
    newtonLeft u H xt Rt ≤ newtonLeft u h xt Rt + 3 * x := by
  unfold newtonLeft
  rw [← min_add_add_right]
  refine min_le_min ?_ ?_
  · have h1 : H ^ 2 ≤ (h + x) ^ 2 := pow_le_pow_left₀ hH hHh 2
    have h2 : h * x ≤ x := mul_le_of_le_one_left hx hh1
    have h3 : x * x ≤ x := mul_le_of_le_one_left hx hx1
    nlinarith
  · have h1 : H * xt ≤ (h + x) * xt := mul_le_mul_of_nonneg_right hHh hxt
    have h2 : x * xt ≤ x := mul_le_of_le_one_right hx hxt1
    nlinarith

theorem newtonLeft_nonneg {u h xt Rt : ℝ} (hh : 0 ≤ h) (hxt : 0 ≤ xt) (hRt : 0 ≤ Rt) : 0 ≤ newtonLeft u h xt Rt := by
  unfold newtonLeft
  have := Real.sqrt_nonneg u
  exact le_min (by positivity) (by positivity)

section
variable {F : Type} [Add F] [Sub F] [Mul F] [Div F] [Neg F] [Scalar F] {n : ℕ} {u B : ℝ}

/-- Every step size at the head of the loop of `irk_guts` (irk.hpp 604) is finite, not negative and at most `h`. -/
def StepsWithin (A : FloatArith F u B) (nd : Bool) (la : LinAlg F) (fn : OdeFun F n) (t0 t1 : F) (y0 : Vec F n) (o : IrkOpts F) (dt : F)
    (sc : SolverCoeffs F) (oo : OutOpts) (h : ℝ) : Prop :=
  ∀ no mo Ai s, o.newtonOpts = some no → minOrder sc = some mo → la.inv sc.mat = some Ai →
    Reach (irkBody nd la fn t1 o no oo sc mo (dWeights Ai fun i => sc.bw i) (dWeights Ai fun i => sc.bw2 i))
      (irkInit (sc.ns * n) t0 y0 (clipDt t0 t1 dt) no.maxit) s →
    isFin s.dt = true ∧ 0 ≤ A.val s.dt ∧ A.val s.dt ≤ h

/-- the loop invariant; `π` is the error made in every step, `κ π` its effect -/
structure IFInv (A : FloatArith F u B) (U : ℝ → Vec ℝ n) (Λ κ π τ0 τ1 e0 D E : ℝ) {m : ℕ} (s : IrkState F m n) : Prop where
  ft : isFin s.t = true
  fy : ∀ k, isFin (s.y k) = true
  lo : τ0 ≤ A.val s.t + s.step * (κ * π)
  hi : A.val s.t ≤ τ1 + κ * π
  er : ‖A.vec s.y - U (A.val s.t)‖ ≤
    Real.exp (Λ * (A.val s.t + s.step * (κ * π) - τ0)) * ((A.val s.t + s.step * (κ * π) - τ0) * D + (s.step * (κ * π) + e0))
  smp : List.Forall₂ (GoodSample A U E) s.sol.tVals s.sol.yVals
  fil : ∀ q ∈ s.sol.file, GoodSample A U E q.1 q.2

variable {A : FloatArith F u B} {U : ℝ → Vec ℝ n} {fn : OdeFun F n} {la : LinAlg F} {sc : SolverCoeffs F} {p N : ℕ}
  {a b δ Λ κ κ1 h0 ε ρ π τ0 τ1 h e0 D W E : ℝ}

/-- **the invariant is preserved** as long as there are fewer than `N` accepted steps -/
theorem ifinv_next (r : RunNumbers p π ε a b δ Λ κ h0 τ0 τ1 h e0 D W E N) (hst : StepOKI A U fn la sc p a b δ Λ κ1 h0 ε ρ) (hu : 0 ≤ u) (hρ : 0 ≤ ρ)
    (hκ1 : 1 ≤ κ1) (hκ : κ1 * (1 + 6 * (2 * (|a| + |b| + 1) + 3)) ≤ κ) (hBW : 2 * (|a| + |b| + 1) + 2 ≤ B) {nd : Bool} {o : IrkOpts F} {no : NewtonOpts F}
    {oo : OutOpts} {mo : ℕ} {Ai : Mat F sc.ns} {d2 : Vec F sc.ns} {t1 : F} (ht1 : isFin t1 = true) (hτ1 : A.val t1 = τ1) (hAi : la.inv sc.mat = some Ai)
    (hxf : isFin no.dxDelta = true) (hRf : isFin no.tol = true) (hx1 : |A.val no.dxDelta| ≤ 1) (hR1 : |A.val no.tol| ≤ 1)
    (hπ : u + ρ + newtonLeft u h |A.val no.dxDelta| |A.val no.tol| ≤ π) {s s' : IrkState F (sc.ns * n) n} (fd : isFin s.dt = true) (d0 : 0 ≤ A.val s.dt)
    (d1 : A.val s.dt ≤ h) (i : IFInv A U Λ κ π τ0 τ1 e0 D E s)
    (hb : irkBody nd la fn t1 o no oo sc mo (dWeights Ai fun i => sc.bw i) d2 s = .next s') (hN : s'.step < N) :
    IFInv A U Λ κ π τ0 τ1 e0 D E s' := by
  have hab : 0 ≤ |a| + |b| := by positivity
  have hh := r.h1
  have hle0 := newtonLeft_nonneg (u := u) hh (abs_nonneg (A.val no.dxDelta)) (abs_nonneg (A.val no.tol))
  have huπ : u ≤ π := by linarith
  have hπ0 : 0 ≤ π := by linarith
  have hκ0 : 0 ≤ κ := by linarith [r.κ1]
  have hκπ : 0 ≤ κ * π := mul_nonneg hκ0 hπ0
  have hD := r.D0
  have hc := bodyCaseI nd la fn t1 o no oo sc mo (dWeights Ai fun i => sc.bw i) d2 s
  rw [hb] at hc
  have hstep : s.step ≤ s'.step ∧ ltb s.t t1 = true := by
    cases hc with
    | newton h => exact ⟨le_rfl, h⟩
    | rejected h => exact ⟨le_rfl, h⟩
    | accepted h => exact ⟨Nat.le_succ _, h⟩
  have hsN : s.step < N := lt_of_le_of_lt hstep.1 hN
  have hlt : A.val s.t < τ1 := by rw [← hτ1]; exact (A.lt _ _ i.ft ht1).mp hstep.2
  cases hc with
  | newton _ _ q _ _ _ => exact ⟨i.ft, i.fy, i.lo, i.hi, i.er, i.smp, i.fil⟩
  | rejected _ _ q _ _ _ x hx => exact ⟨i.ft, i.fy, i.lo, i.hi, i.er, i.smp, i.fil⟩
  | accepted _ _ q hq hs _ x hx _ _ _ _ =>
    have hjN : (s.step : ℝ) + 1 ≤ N := by exact_mod_cast hsN
    have hjκ : (s.step : ℝ) * (κ * π) + κ * π ≤ N * (κ * π) := by have := mul_le_mul_of_nonneg_right hjN hκπ; linarith
    have hj0 : 0 ≤ (s.step : ℝ) * (κ * π) := by positivity
    have hlo := i.lo
    have Tab : a + δ ≤ A.val s.t ∧ A.val s.t ≤ b - δ := ⟨by linarith [r.lo], by linarith [r.hi]⟩
    have habs : ∀ x : ℝ, a ≤ x → x ≤ b → |x| ≤ |a| + |b| + 1 := fun x h1 h2 =>
      abs_le.mpr ⟨by linarith [neg_abs_le a, abs_nonneg b], by linarith [le_abs_self b, abs_nonneg a]⟩
    have hδ := r.δ0
    have hKW := r.κW
    have hWu := mul_le_mul_of_nonneg_right hKW hπ0
    have hWuπ : 2 * (2 * (|a| + |b| + 1) + 3) * u ≤ 2 * (2 * (|a| + |b| + 1) + 3) * π := mul_le_mul_of_nonneg_left huπ (by linarith)
    have hone := r.hone
    have hNκ : 0 ≤ N * (κ * π) := by positivity
    have hx0 : 0 ≤ 2 * (2 * (|a| + |b| + 1) + 3) * u := mul_nonneg (by linarith) hu
    obtain ⟨c1, c2, c3, c4⟩ := clip_float (t1 := t1) (dt := s.dt) (W := |a| + |b| + 1) hu (by linarith) hBW
      (by linarith [r.κu]) i.ft ht1 fd (by rw [hτ1]; exact hlt.le)
      (habs _ (by linarith) (by linarith)) (habs _ (by rw [hτ1]; linarith [r.le, r.lo]) (by rw [hτ1]; linarith [r.hi])) d0
      (by linarith)
    rw [hτ1] at c4
    have c3' : A.val (clipDt s.t t1 s.dt) ≤ h + 2 * (2 * (|a| + |b| + 1) + 3) * u := by linarith
    have c3'' : A.val (clipDt s.t t1 s.dt) ≤ h + (N + 1) * (κ * π) := by linarith
    have herr : ‖A.vec s.y - U (A.val s.t)‖ ≤ E := r.bound hsN i.lo i.hi i.er
    obtain ⟨hadt, hyn, -⟩ := attemptI_spec hx
    obtain ⟨q1, q2, q3, q4⟩ := hst nd s.t (clipDt s.t t1 s.dt) s.y Ai s.newtonMaxit no.refreshJac no.dxDelta no.tol s.sol.bump.count s.sol.log q i.ft c1 i.fy
      Tab.1 Tab.2 c2 (by linarith [r.hh]) (herr.trans r.E1) hxf hRf hx1 hR1 hAi hq hs x.yn hyn
    have hκ1κ : κ1 ≤ κ := by
      have : 0 ≤ κ1 * (6 * (2 * (|a| + |b| + 1) + 3)) := mul_nonneg (by linarith) (by linarith)
      linarith
    have hκu : κ1 * u ≤ κ * π := mul_le_mul hκ1κ huπ hu hκ0
    have q2' := abs_le.mp q2
    -- the bound of the step
    have hnl := newtonLeft_le (u := u) (H := A.val (clipDt s.t t1 s.dt)) (h := h) (Rt := |A.val no.tol|) c2 c3' (by linarith) hx0 (by linarith [r.κu])
      (abs_nonneg (A.val no.dxDelta)) hx1
    have hstepb : ‖A.vec x.yn - U (A.val (s.t + clipDt s.t t1 s.dt))‖ ≤ (1 + Λ * A.val (clipDt s.t t1 s.dt)) * ‖A.vec s.y - U (A.val s.t)‖ +
        (κ * (A.val (clipDt s.t t1 s.dt) * (A.val (clipDt s.t t1 s.dt) ^ p + (π + ε))) + κ * π) := by
      refine q4.trans (add_le_add le_rfl ?_)
      have hP : 0 ≤ A.val (clipDt s.t t1 s.dt) * (A.val (clipDt s.t t1 s.dt) ^ p + (u + ε)) :=
        mul_nonneg c2 (add_nonneg (pow_nonneg c2 p) (by linarith [r.ε0]))
      have e1 : A.val (clipDt s.t t1 s.dt) * (A.val (clipDt s.t t1 s.dt) ^ p + (u + ε)) ≤
          A.val (clipDt s.t t1 s.dt) * (A.val (clipDt s.t t1 s.dt) ^ p + (π + ε)) := mul_le_mul_of_nonneg_left (by linarith) c2
      have e2 := mul_le_mul hκ1κ e1 hP hκ0
      have e3 : u + ρ + newtonLeft u (A.val (clipDt s.t t1 s.dt)) |A.val no.dxDelta| |A.val no.tol| ≤ (1 + 6 * (2 * (|a| + |b| + 1) + 3)) * π := by
        linarith
      have e4 := mul_le_mul_of_nonneg_left e3 (by linarith : (0 : ℝ) ≤ κ1)
      have e5 := mul_le_mul_of_nonneg_right hκ hπ0
      linarith
    have hbnd : ‖A.vec x.yn - U (A.val (s.t + clipDt s.t t1 s.dt))‖ ≤
        Real.exp (Λ * (A.val (s.t + clipDt s.t t1 s.dt) + ((s.step + 1 : ℕ) : ℝ) * (κ * π) - τ0)) *
          ((A.val (s.t + clipDt s.t t1 s.dt) + ((s.step + 1 : ℕ) : ℝ) * (κ * π) - τ0) * D + (((s.step + 1 : ℕ) : ℝ) * (κ * π) + e0)) := by
      have e1 : (((s.step + 1 : ℕ) : ℝ) * (κ * π) + e0) = (s.step * (κ * π) + e0) + κ * π := by push_cast; ring
      rw [e1]
      refine gronwall_step (H := A.val (clipDt s.t t1 s.dt)) r.Λ0 (by linarith) c2 hD (by have := r.e00; positivity) hκπ i.er (hstepb.trans ?_)
        (by push_cast; linarith)
      have : A.val (clipDt s.t t1 s.dt) ^ p ≤ (h + (N + 1) * (κ * π)) ^ p := pow_le_pow_left₀ c2 c3'' p
      have e2 := mul_le_mul_of_nonneg_left this (mul_nonneg c2 hκ0)
      rw [r.hD]
      nlinarith
    have hlo' : τ0 ≤ A.val (s.t + clipDt s.t t1 s.dt) + ((s.step + 1 : ℕ) : ℝ) * (κ * π) := by push_cast; linarith
    have hhi' : A.val (s.t + clipDt s.t t1 s.dt) ≤ τ1 + κ * π := by linarith
    have hgood : GoodSample A U E (s.t + clipDt s.t t1 s.dt) x.yn := ⟨q1, q3, r.bound hN hlo' hhi' hbnd⟩
    rw [← hadt] at q1 hlo' hhi' hbnd hgood
    refine ⟨q1, q3, hlo', hhi', hbnd, ?_, ?_⟩
    · have : List.Forall₂ (GoodSample A U E) (s.sol.tVals ++ [s.t + x.dt]) (s.sol.yVals ++ [x.yn]) := List.rel_append i.smp (.cons hgood .nil)
      simp only [acceptI]
      split_ifs <;> first | exact this | exact i.smp
    · have : ∀ q ∈ s.sol.file ++ [(s.t + x.dt, x.yn)], GoodSample A U E q.1 q.2 := by
        intro q hq
        rcases List.mem_append.mp hq with h | h
        · exact i.fil q h
        · rw [List.mem_singleton] at h
          subst h
          exact hgood
      simp only [acceptI]
      split_ifs <;> first | exact this | exact i.fil

/-- **the invariant holds initially** -/
theorem ifinv_init (r : RunNumbers p π ε a b δ Λ κ h0 τ0 τ1 h e0 D W E N) (hN : 0 < N) {t0 : F} {y0 : Vec F n} (ft0 : isFin t0 = true)
    (fy0 : ∀ k, isFin (y0 k) = true) (hτ0 : A.val t0 = τ0) (hy0 : ‖A.vec y0 - U (A.val t0)‖ ≤ e0) (m : ℕ) (dt : F) (mx : ℤ) :
    IFInv A U Λ κ π τ0 τ1 e0 D E (irkInit m t0 y0 dt mx) := by
  have hκπ : 0 ≤ κ * π := mul_nonneg (by linarith [r.κ1]) r.u0
  have hE0 : e0 ≤ E := r.bound (T := τ0) (j := 0) hN (by simp) (by linarith [r.le]) (by simp)
  have hhi : A.val t0 ≤ τ1 + κ * π := by linarith [r.le]
  have hlo : τ0 ≤ A.val t0 + ((0 : ℕ) : ℝ) * (κ * π) := by rw [hτ0]; simp
  have her : ‖A.vec y0 - U (A.val t0)‖ ≤ Real.exp (Λ * (A.val t0 + ((0 : ℕ) : ℝ) * (κ * π) - τ0)) *
      ((A.val t0 + ((0 : ℕ) : ℝ) * (κ * π) - τ0) * D + (((0 : ℕ) : ℝ) * (κ * π) + e0)) := by
    rw [hτ0] at hy0 ⊢
    simpa using hy0
  exact ⟨ft0, fy0, hlo, hhi, her, .cons ⟨ft0, fy0, hy0.trans hE0⟩ .nil, fun q hq => absurd hq (List.not_mem_nil)⟩

end

/-- **Convergence in arithmetic with rounding errors** (C129), for any tableau of order `p` with a regular matrix. -/
theorem irk_float_converges {n p : ℕ} (hp : 1 ≤ p) {f : ℝ → Vec ℝ n → Vec ℝ n} (hf : ContDiff ℝ p fun q : ℝ × Vec ℝ n => f q.1 q.2) {U : ℝ → Vec ℝ n}
    {a b δ Jb : ℝ} (hδ : 0 < δ) (hJb : 0 ≤ Jb) (hU : ∀ t ∈ Icc a b, HasDerivWithinAt U (f t (U t)) (Icc a b) t) {sr : SolverCoeffs ℝ}
    (ho : HasOrder (fun i j : Fin sr.ns => sr.a i j) (fun i => sr.bw i) p) (hc : ∀ i : Fin sr.ns, ∑ j : Fin sr.ns, sr.a i j = sr.cn i)
    (hdet : IsUnit (Matrix.of (sr.mat : Mat ℝ sr.ns)).det) :
    ∃ C h0 : ℝ, 0 < C ∧ 0 < h0 ∧
      ∀ (F : Type) [Add F] [Sub F] [Mul F] [Div F] [Neg F] [Scalar F] (u B ε ρ : ℝ) (A : FloatArith F u B) (sc : SolverCoeffs F) (fn : OdeFun F n)
        (la : LinAlg F), 0 ≤ u → 0 ≤ ε → 0 ≤ ρ → C ≤ B → NearTableau A sc sr → RhsAccurate A f U a b ε fn.fn → JacBounded A U a b Jb fn.jac →
        LuAccurate A la (sc.ns * n) ρ → InvAccurate A la sc sr ρ →
        ∀ (nd : Bool) (o : IrkOpts F) (no : NewtonOpts F) (oo : OutOpts) (t0 t1 : F) (y0 : Vec F n) (dt : F) (fuel : ℕ)
          (out : IrkOutput F (sc.ns * n) n) (h e0 : ℝ), isFin t0 = true → isFin t1 = true → (∀ k, isFin (y0 k) = true) → a + δ ≤ A.val t0 →
          A.val t0 ≤ A.val t1 → A.val t1 ≤ b - δ → ‖A.vec y0 - U (A.val t0)‖ ≤ e0 → 0 ≤ h → h ≤ h0 → o.newtonOpts = some no → isFin no.dxDelta = true →
          isFin no.tol = true → |A.val no.dxDelta| ≤ 1 → |A.val no.tol| ≤ 1 → StepsWithin A nd la fn t0 t1 y0 o dt sc oo h →
          irkGuts nd la fn t0 t1 y0 o dt sc oo fuel = some (.ret out) →
          ∀ X : ℝ, X = C * (h ^ p + ε + e0 + ((out.count.newtonSuccess - out.count.rejectErr + 1 : ℕ) : ℝ) *
              (u + ρ + newtonLeft u h |A.val no.dxDelta| |A.val no.tol|)) → X ≤ 1 →
          List.Forall₂ (GoodSample A U X) out.tVals out.yVals ∧ ∀ q ∈ out.file, GoodSample A U X q.1 q.2 := by
  obtain ⟨Λ, κ1, h1, ν0, B0, hΛ, hκ1, hh1, hν0, hall⟩ := irk_float_step (δ := δ / 2) hp hf (by linarith) hJb hU ho hc hdet
  have hab : 0 ≤ |a| + |b| := by positivity
  obtain ⟨κ, hκ⟩ : ∃ κ : ℝ, κ = κ1 * (1 + 6 * (2 * (|a| + |b| + 1) + 3)) := ⟨_, rfl⟩
  have hκW : 2 * (2 * (|a| + |b| + 1) + 3) ≤ κ := by rw [hκ]; nlinarith
  have hκ0 : 1 ≤ κ := by linarith
  obtain ⟨C, hC0, hC1, hC2, hC3, hnum⟩ := runNumbers_of (B0 := B0) hp hδ hΛ hκ0 hκW hh1 hν0
  refine ⟨C, min (h1 / 2) (1 / 2), hC0, lt_min (by linarith) (by norm_num), ?_⟩
  intro F _ _ _ _ _ _ u B ε ρ A sc fn la hu hε hρ hCB hnt hacc hjac hlu hinv nd o no oo t0 t1 y0 dt fuel out h e0 ft0 ft1 fy0 ha h01 hb' hy0 hh hh0 hno hxf hRf
    hx1 hR1 hwithin hrun X hX hsmall
  obtain ⟨no', mo, Ai, s, hno', hmo, hAi, -, -, hreach, hdone⟩ := irkGuts_ret hrun
  rw [hno] at hno'
  cases hno'
  have hci : CountInvI s := hreach.inv (countInvI_init _ _ _ _) fun _ _ => countInvI_next
  have hflds : out.tVals = s.sol.tVals ∧ out.yVals = s.sol.yVals ∧ out.file = s.sol.file ∧ out.count.newtonSuccess = s.sol.count.newtonSuccess ∧
      out.count.rejectErr = s.sol.count.rejectErr := by
    have hcase := bodyCaseI nd la fn t1 o no oo sc mo (dWeights Ai fun i => sc.bw i) (dWeights Ai fun i => sc.bw2 i) s
    rw [hdone] at hcase
    cases hcase with
    | finished => exact ⟨rfl, rfl, rfl, rfl, rfl⟩
    | limit => exact ⟨rfl, rfl, rfl, rfl, rfl⟩
    | general _ _ r hr =>
      obtain ⟨-, L, K, -, hcn⟩ := solve_count hr
      exact ⟨rfl, rfl, rfl, by simp [hcn, IrkOutput.bump], by simp [hcn, IrkOutput.bump]⟩
    | stop _ hr => exact absurd rfl (hr _)
  obtain ⟨f1, f2, f3, f4, f5⟩ := hflds
  have hcnt : out.count.newtonSuccess - out.count.rejectErr + 1 = s.step + 1 := by
    rw [f4, f5, hci.ok]; omega
  rw [hcnt] at hX
  have hle0 := newtonLeft_nonneg (u := u) hh (abs_nonneg (A.val no.dxDelta)) (abs_nonneg (A.val no.tol))
  obtain ⟨hν, D, W, E, hEC, r⟩ := hnum (u + ρ + newtonLeft u h |A.val no.dxDelta| |A.val no.tol|) ε (A.val t0) (A.val t1) h e0 (s.step + 1) (by linarith) hε
    ((norm_nonneg _).trans hy0) (by omega) hh hh0 ha h01 hb' (by rw [← hX]; exact hsmall)
  rw [← hX] at hEC
  have hst := hall F u B ε ρ A sc fn la hnt hu hε hρ (by linarith) (by linarith) hacc hjac hlu hinv
  have hinvs : ∀ q, Reach (irkBody nd la fn t1 o no oo sc mo (dWeights Ai fun i => sc.bw i) (dWeights Ai fun i => sc.bw2 i))
      (irkInit (sc.ns * n) t0 y0 (clipDt t0 t1 dt) no.maxit) q → q.step < s.step + 1 →
      IFInv A U Λ κ (u + ρ + newtonLeft u h |A.val no.dxDelta| |A.val no.tol|) (A.val t0) (A.val t1) e0 D E q := by
    intro q hq
    have := hq.inv (Inv := fun q => Reach (irkBody nd la fn t1 o no oo sc mo (dWeights Ai fun i => sc.bw i) (dWeights Ai fun i => sc.bw2 i))
      (irkInit (sc.ns * n) t0 y0 (clipDt t0 t1 dt) no.maxit) q ∧ (q.step < s.step + 1 →
      IFInv A U Λ κ (u + ρ + newtonLeft u h |A.val no.dxDelta| |A.val no.tol|) (A.val t0) (A.val t1) e0 D E q))
      ⟨.refl, fun _ => ifinv_init r (by omega) ft0 fy0 rfl hy0 _ _ _⟩ ?_
    · exact this.2
    · rintro x y ⟨hx, ix⟩ hb
      refine ⟨.tail hx hb, fun hy => ?_⟩
      have hxy : x.step ≤ y.step := by
        have hcase := bodyCaseI nd la fn t1 o no oo sc mo (dWeights Ai fun i => sc.bw i) (dWeights Ai fun i => sc.bw2 i) x
        rw [hb] at hcase
        cases hcase with
        | newton => exact le_rfl
        | rejected => exact le_rfl
        | accepted => exact Nat.le_succ _
      obtain ⟨w1, w2, w3⟩ := hwithin no mo Ai x hno hmo hAi hx
      exact ifinv_next r hst hu hρ hκ1 hκ.ge (by linarith) ft1 rfl hAi hxf hRf hx1 hR1 le_rfl w1 w2 w3 (ix (lt_of_le_of_lt hxy hy)) hb hy
  have i := hinvs s hreach (by omega)
  have mono : ∀ t y, GoodSample A U E t y → GoodSample A U X t y := fun t y h => ⟨h.1, h.2.1, h.2.2.trans hEC⟩
  rw [f1, f2, f3]
  exact ⟨i.smp.imp mono, fun q hq => mono _ _ (i.fil q hq)⟩

end Verif
