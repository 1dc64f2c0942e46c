import Verif.AbFloat
import Verif.ErkDrift

/-!
# Linear invariants of `adams_bashforth` in arithmetic with rounding errors
-/

set_option autoImplicit false

namespace Verif
open Set

section
variable {F : Type} [Add F] [Sub F] [Mul F] [Div F] [Neg F] [Scalar F] {n : ℕ} {u B : ℝ} {A : FloatArith F u B}

/-- the rounding errors of a step whose starting values are within one of the solution -/
theorem ab_round {f : ℝ → Vec ℝ n → Vec ℝ n} {U : ℝ → Vec ℝ n} {a b R Bf : ℝ} (hR : 0 ≤ R) (hBf : 0 ≤ Bf)
    (hub : ∀ t ∈ Icc a b, ‖U t‖ ≤ R)
    (hbd : ∀ t ∈ Icc a b, ∀ y, ‖y‖ ≤ R + 100 → ‖f t y‖ ≤ Bf)
    (hul : ∀ s ∈ Icc a b, ∀ t ∈ Icc a b, ‖U s - U t‖ ≤ Bf * |s - t|)
    {fF : F → Vec F n → Vec F n} {ε : ℝ} (hu : 0 ≤ u) (hacc : RhsAccurate A f U a b ε fF)
    {order : ℤ} (h0 : 0 < order) (h5 : order ≤ 5) {h : F} {tF : ℕ → F} {y : ℕ → Vec F n} {N : ℕ} {H ω G : ℝ}
    (hG : 20 * Bf + 4 + R ≤ G) (hGB : big G ≤ B) (hBB : 10000 ≤ B)
    (hfh : isFin h = true) (hH : A.val h = H) (hH0 : 0 ≤ H) (hH1 : H ≤ 1) (hω0 : 0 ≤ ω)
    (hT : ∀ i < N, isFin (tF i) = true ∧ A.val (tF i) ∈ Icc a b) (hstep : ∀ i, i + 1 < N → |A.val (tF (i + 1)) - A.val (tF i) - H| ≤ ω)
    (hsm : 20 * ε + 36 * u * big G ≤ 1) (hsB : 4 * Bf * (H + ω) ≤ 1)
    (hy : ∀ i, order.toNat ≤ i → i < N → y i = fun k => y (i - 1) k + h * abComb order fun j => fF (tF (i - 1)) (y (i - 1 - j)) k)
    (hall : ∀ i < N, (∀ k, isFin (y i k) = true) ∧ ‖A.vec (y i) - U (A.val (tF i))‖ ≤ 1) (m : ℕ) (hm : order.toNat ≤ m + 1) (hi : m + 1 < N) (k : Fin n) :
    Near A (y (m + 1) k) (A.vec (y m) k + H * abComb order fun j => f (A.val (tF m)) (A.vec (y (m - j))) k) (20 * H * ε + 36 * u * big G) := by
  have hap := times_apart (T := fun i => A.val (tF i)) hH0 hstep
  have hym := hy (m + 1) (by omega) hi
  rw [Nat.add_sub_cancel] at hym
  obtain ⟨t1, t2⟩ := hT m (by omega)
  obtain ⟨m1, m2⟩ := hall m (by omega)
  -- the values used
  have hval : ∀ j < order.toNat, (∀ k, isFin (y (m - j) k) = true) ∧ A.val (tF (m - j)) ∈ Icc a b ∧
      |A.val (tF (m - j)) - A.val (tF m)| ≤ 4 * (H + ω) ∧ ‖A.vec (y (m - j)) - U (A.val (tF (m - j)))‖ ≤ 1 := by
    intro j hj
    obtain ⟨g1, g2⟩ := hall (m - j) (by omega)
    refine ⟨g1, (hT (m - j) (by omega)).2, ?_, g2⟩
    have h1 := hap (m - j) j (by omega)
    rw [Nat.sub_add_cancel (by omega), abs_sub_comm] at h1
    exact h1.trans (mul_le_mul_of_nonneg_right (by exact_mod_cast (show j ≤ 4 by omega)) (by linarith))
  have hnear : ∀ j < order.toNat, ‖A.vec (y (m - j)) - U (A.val (tF m))‖ ≤ 2 := by
    intro j hj
    obtain ⟨-, g2, g3, g4⟩ := hval j hj
    have e : A.vec (y (m - j)) - U (A.val (tF m)) = (A.vec (y (m - j)) - U (A.val (tF (m - j)))) + (U (A.val (tF (m - j))) - U (A.val (tF m))) := by abel
    rw [e]
    refine (norm_add_le _ _).trans ?_
    have := (hul _ g2 _ t2).trans (mul_le_mul_of_nonneg_left g3 hBf)
    linarith
  have hsize : ∀ j < order.toNat, ‖A.vec (y (m - j))‖ ≤ R + 2 := by
    intro j hj
    have e : A.vec (y (m - j)) = (A.vec (y (m - j)) - U (A.val (tF m))) + U (A.val (tF m)) := by abel
    rw [e]
    exact (norm_add_le _ _).trans (by linarith [hnear j hj, hub _ t2])
  have hround : ∀ k, Near A (y (m + 1) k) (A.vec (y m) k + H * abComb order fun j => f (A.val (tF m)) (A.vec (y (m - j))) k)
      (20 * H * ε + 36 * u * big G) := by
    intro k
    rw [hym]
    refine abStep_near hu (G := G) (Γ := Bf) (by linarith) hBf hGB hBB h0 h5 hsm ?_ ?_ hfh hH hH0 hH1 (m1 k) ?_
    · intro j hj
      exact hacc (tF m) (y (m - j)) t1 (hval j hj).1 t2.1 t2.2 (hnear j hj) k
    · intro j hj
      have := norm_le_pi_norm (f (A.val (tF m)) (A.vec (y (m - j)))) k
      rw [Real.norm_eq_abs] at this
      exact this.trans (hbd _ t2 _ (by linarith [hsize j hj]))
    · have h1 := norm_le_pi_norm (A.vec (y m)) k
      rw [Real.norm_eq_abs] at h1
      have h2 := hsize 0 (by omega)
      rw [Nat.sub_zero] at h2
      exact h1.trans (by linarith)
  exact hround k

end

/-- **Linear invariants of `adams_bashforth` in arithmetic with rounding errors** -/
theorem ab_drift {n : ℕ} {f : ℝ → Vec ℝ n → Vec ℝ n} {U : ℝ → Vec ℝ n} {a b δ : ℝ}
    (hf : ContDiff ℝ 1 fun q : ℝ × (Fin n → ℝ) => f q.1 q.2) (hδ : 0 < δ)
    (hU : ∀ t ∈ Icc a b, HasDerivWithinAt U (f t (U t)) (Icc a b) t) {w : Fin n → ℝ} (hw : ∀ t y, ∑ k, w k * f t y k = 0) :
    ∃ C C' : ℝ, 0 < C ∧ 0 < C' ∧
      ∀ (F : Type) [Add F] [Sub F] [Mul F] [Div F] [Neg F] [Scalar F] (u B ε : ℝ) (A : FloatArith F u B) (fn : OdeFun F n),
        0 ≤ u → 0 ≤ ε → C ≤ B → RhsAccurate A f U a b ε fn.fn →
        ∀ (nd : Bool) (la : LinAlg F) (order : ℤ) (t0 t1 : F) (y0 : Vec F n) (dt : F) (st0 : NewtonStatus F) (fuelB fuel : ℕ) (out : MsOutput F n)
          (e0 : ℝ), order ≤ 5 →
          isFin t0 = true → isFin t1 = true → (∀ k, isFin (y0 k) = true) → isFin dt = true →
          a + δ ≤ A.val t0 → A.val t0 ≤ A.val t1 → A.val t1 ≤ b - δ → ‖A.vec y0 - U (A.val t0)‖ ≤ e0 → 0 ≤ A.val dt →
          adamsBashforth nd la fn t0 t1 y0 order dt st0 fuelB fuel = some (.ret out) → C * (A.val dt + ε + e0 + out.tVals.length * u) ≤ 1 →
          ∀ y ∈ out.yVals, |∑ k, w k * A.val (y k) - ∑ k, w k * A.val (y0 k)| ≤ C' * (out.tVals.length * u + ε) := by
  obtain ⟨R, L, Bf, K, hR, hL, hBf, hK, hub, hlip, hbd, hul, hcons⟩ := solution_facts hf hU
  obtain ⟨W, hW⟩ : ∃ W, W = |a| + |b| + 1 := ⟨_, rfl⟩
  have hW1 : 1 ≤ W := by rw [hW]; linarith [abs_nonneg a, abs_nonneg b]
  have haW : |a| ≤ W := by rw [hW]; linarith [abs_nonneg b]
  have hbW : |b| ≤ W := by rw [hW]; linarith [abs_nonneg a]
  obtain ⟨G, hG⟩ : ∃ G, G = 20 * Bf + 4 + R := ⟨_, rfl⟩
  have hG1 : 1 ≤ G := by rw [hG]; linarith
  obtain ⟨b1, -⟩ := big_facts hG1
  obtain ⟨g, hg⟩ : ∃ g, g = big G := ⟨_, rfl⟩
  rw [← hg] at b1
  -- `q` bounds the step and the rounding of a time
  obtain ⟨q, hq⟩ : ∃ q, q = 1 + 2 * (2 * W + 3) + (W + 2) := ⟨_, rfl⟩
  have hq1 : 1 ≤ q := by rw [hq]; linarith
  obtain ⟨Tt, hTt⟩ : ∃ Tt, Tt = 2 * W + δ := ⟨_, rfl⟩
  have hTt0 : 0 ≤ Tt := by rw [hTt]; linarith
  obtain ⟨M, hM⟩ : ∃ M, M = Real.exp (20 * L * Tt) * (Tt * (80 * L * Bf * q + K * (2 * q) + 20) + (1 + 5 * Bf * q + (36 * g + (K + Bf) * q))) := ⟨_, rfl⟩
  have hM0 : 0 ≤ M := by rw [hM]; positivity
  obtain ⟨C, hC⟩ : ∃ C, C = M + 11 * q / δ + q + 4 * Bf * q + 20 + 36 * g + 10000 + (2 * W + 3) := ⟨_, rfl⟩
  have hqd : 0 ≤ 11 * q / δ := by positivity
  have hBq : 0 ≤ 4 * Bf * q := by positivity
  have hw0 : 0 ≤ ∑ k, |w k| := Finset.sum_nonneg fun k _ => abs_nonneg _
  refine ⟨C, (∑ k, |w k|) * (20 * Tt + 36 * g) + 1, by rw [hC]; linarith, by positivity, ?_⟩
  intro F _ _ _ _ _ _ u B ε A fn hu hε hCB hacc nd la order t0 t1 y0 dt st0 fuelB fuel out e0 h5 f0 f1 fy fdt ha h01 hb he hdt h hsm
  obtain ⟨N, -, hN1, hN2, ho, hoN, htimes, -, hbef⟩ := C53_ab_grid h
  obtain ⟨y, hy1, hy2, hy3⟩ := ab_sequence h5 h
  rw [hN1] at hsm ⊢
  rw [hN2] at hy3
  have he0 : 0 ≤ e0 := (norm_nonneg _).trans he
  have hN : (1 : ℝ) ≤ N := by exact_mod_cast (show 1 ≤ N by omega)
  have huN : u ≤ N * u := le_mul_of_one_le_left hu hN
  obtain ⟨ξ, hξ⟩ : ∃ ξ, ξ = A.val dt + ε + e0 + N * u := ⟨_, rfl⟩
  rw [← hξ] at hsm
  have hξ0 : 0 ≤ ξ := by rw [hξ]; positivity
  have hNu0 : 0 ≤ N * u := by positivity
  have x1 : A.val dt ≤ ξ := by rw [hξ]; linarith
  have x2 : ε ≤ ξ := by rw [hξ]; linarith
  have x3 : e0 ≤ ξ := by rw [hξ]; linarith
  have x4 : N * u ≤ ξ := by rw [hξ]; linarith
  have x5 : u ≤ ξ := huN.trans x4
  have part : ∀ z, z ≤ C → z * ξ ≤ 1 := fun z hz => (mul_le_mul_of_nonneg_right hz hξ0).trans hsm
  have p1 : q * ξ ≤ 1 := part q (by rw [hC]; linarith)
  have p2 : 11 * q / δ * ξ ≤ 1 := part _ (by rw [hC]; linarith)
  have p3 : 4 * Bf * q * ξ ≤ 1 := part _ (by rw [hC]; linarith)
  have p4 : (20 + 36 * g) * ξ ≤ 1 := part _ (by rw [hC]; linarith)
  have p5 : (2 * W + 3) * ξ ≤ 1 := part _ (by rw [hC]; linarith)
  have p6 : 1 * ξ ≤ 1 := part 1 (by rw [hC]; linarith)
  have p7 : M * ξ ≤ 1 := part M (by rw [hC]; linarith)
  have v0 : |A.val t0| ≤ W := abs_le.mpr ⟨by linarith [(abs_le.mp haW).1], by linarith [(abs_le.mp hbW).2]⟩
  have v1 : |A.val t1| ≤ W := abs_le.mpr ⟨by linarith [(abs_le.mp haW).1], by linarith [(abs_le.mp hbW).2]⟩
  obtain ⟨c1, c2, c3, -⟩ := clip_float (A := A) (dt := dt) hu hW1 (by rw [hC] at hCB; linarith)
    ((mul_comm u _).le.trans ((mul_le_mul_of_nonneg_left x5 (by linarith)).trans p5)) f0 f1 fdt h01 v0 v1 hdt (by linarith)
  obtain ⟨H, hH⟩ : ∃ H, A.val (clipDt t0 t1 dt) = H := ⟨_, rfl⟩
  rw [hH] at c2 c3
  obtain ⟨ω, hω⟩ : ∃ ω, ω = u * (W + 2) := ⟨_, rfl⟩
  have hω0 : 0 ≤ ω := by rw [hω]; positivity
  have hHq : H + ω ≤ q * ξ := by
    have z1 : (2 * (2 * W + 3)) * u ≤ (2 * (2 * W + 3)) * ξ := mul_le_mul_of_nonneg_left x5 (by linarith)
    have z2 : u * (W + 2) ≤ ξ * (W + 2) := mul_le_mul_of_nonneg_right x5 (by linarith)
    rw [hω, hq]
    linarith
  have hH1 : H ≤ 1 := by linarith
  have hω1 : ω ≤ 1 := by linarith
  have hNω : N * ω ≤ q * ξ := by
    have z1 : N * u * (W + 2) ≤ ξ * (W + 2) := mul_le_mul_of_nonneg_right x4 (by linarith)
    have z2 : (1 + 2 * (2 * W + 3)) * ξ ≥ 0 := mul_nonneg (by linarith) hξ0
    rw [hω, hq]
    linarith
  have hqδ : 11 * (q * ξ) ≤ δ := by
    rw [div_mul_eq_mul_div, div_le_iff₀ hδ] at p2
    linarith
  have hqξ0 : 0 ≤ q * ξ := by positivity
  obtain ⟨T1, T2⟩ := ab_times (A := A) (first := order.toNat) (N := N) (δ := δ) (a := a) (b := b) (W := W) hu f0 f1 c1 hH c2 hH1 haW hbW
    (by rw [hC] at hCB; linarith) ha h01 hb (by rw [← hω]; linarith) (by rw [← hω]; linarith) (by omega)
    (fun i h1 h2 => hbef i (by omega) h2)
  rw [← hω] at T1 T2
  have hS : ∀ i < N, (i : ℝ) * H ≤ Tt := by
    intro i hi
    obtain ⟨-, -, s3, s4⟩ := T1 i hi
    have s5 := abs_le.mp s4
    have s6 : (i : ℝ) * ω ≤ N * ω := mul_le_mul_of_nonneg_right (by exact_mod_cast hi.le) hω0
    rw [hTt]
    linarith [(abs_le.mp haW).1, (abs_le.mp hbW).2, s5.1]
  have hfinal : ∀ i < N, abBnd (20 * L) H (80 * L * Bf * (H + ω) + K * (H + 2 * ω) + 20 * ε) (e0 + 5 * Bf * (H + ω)) (36 * u * big G + (K + Bf) * ω) i ≤ M * ξ := by
    intro i hi
    have s1 := hS i hi
    have s0 : 0 ≤ (i : ℝ) * H := by positivity
    have hiu : (i : ℝ) * u ≤ ξ := (mul_le_mul_of_nonneg_right (by exact_mod_cast hi.le) hu).trans x4
    have hiω : (i : ℝ) * ω ≤ q * ξ := (mul_le_mul_of_nonneg_right (by exact_mod_cast hi.le) hω0).trans hNω
    have d1 : 80 * L * Bf * (H + ω) ≤ 80 * L * Bf * (q * ξ) := mul_le_mul_of_nonneg_left hHq (by positivity)
    have d2 : K * (H + 2 * ω) ≤ K * (2 * (q * ξ)) := mul_le_mul_of_nonneg_left (by linarith) hK
    have d3 : 5 * Bf * (H + ω) ≤ 5 * Bf * (q * ξ) := mul_le_mul_of_nonneg_left hHq (by positivity)
    have d4 : (K + Bf) * ((i : ℝ) * ω) ≤ (K + Bf) * (q * ξ) := mul_le_mul_of_nonneg_left hiω (by positivity)
    have d5 : 36 * g * ((i : ℝ) * u) ≤ 36 * g * ξ := mul_le_mul_of_nonneg_left hiu (by linarith)
    have d6 : (i : ℝ) * H * (80 * L * Bf * (H + ω) + K * (H + 2 * ω) + 20 * ε) ≤ Tt * (80 * L * Bf * (q * ξ) + K * (2 * (q * ξ)) + 20 * ξ) :=
      mul_le_mul s1 (by linarith) (by positivity) hTt0
    have d7 : Real.exp (20 * L * (i * H)) ≤ Real.exp (20 * L * Tt) := Real.exp_le_exp.mpr (mul_le_mul_of_nonneg_left s1 (by linarith))
    unfold abBnd
    rw [← hg]
    have d8 : M * ξ = Real.exp (20 * L * Tt) * (Tt * (80 * L * Bf * (q * ξ) + K * (2 * (q * ξ)) + 20 * ξ) +
        (ξ + 5 * Bf * (q * ξ) + (36 * g * ξ + (K + Bf) * (q * ξ)))) := by rw [hM]; ring
    rw [d8]
    have hg0 : 0 ≤ 36 * u * g := by positivity
    refine mul_le_mul d7 ?_ (by positivity) (Real.exp_nonneg _)
    have e1 : (i : ℝ) * (36 * u * g + (K + Bf) * ω) = 36 * g * (i * u) + (K + Bf) * (i * ω) := by ring
    rw [e1]
    linarith
  have hall := ab_errors (A := A) (fF := fn.fn) (tF := gridPt (clipDt t0 t1 dt) t0) (y := y) (N := N) (ω := ω) (G := G) (e0 := e0) (H := H)
    (h := clipDt t0 t1 dt) hR hL hBf hK hub hlip hbd hul hcons hu hε hacc ho h5 hG.ge
    (by rw [← hg]; rw [hC] at hCB; linarith) (by rw [hC] at hCB; linarith) c1 hH c2 hH1 hω0 hω1
    (fun i hi => ⟨(T1 i hi).1, (T1 i hi).2.1, (T1 i hi).2.2.1⟩) T2
    (by
      rw [← hg]
      have z1 : 36 * g * u ≤ 36 * g * ξ := mul_le_mul_of_nonneg_left x5 (by linarith)
      linarith)
    (by
      have z1 : 4 * Bf * (H + ω) ≤ 4 * Bf * (q * ξ) := mul_le_mul_of_nonneg_left hHq (by positivity)
      linarith)
    (fun i hi k => by rw [hy2 i hi]; exact fy k) (fun i hi => by rw [hy2 i hi, hy2 0 (by omega)])
    (by rw [hy2 0 (by omega)]; exact he) hy3 (fun i hi => (hfinal i hi).trans p7)
  have hrd := ab_round (A := A) (fF := fn.fn) (tF := gridPt (clipDt t0 t1 dt) t0) (y := y) (N := N) (ω := ω) (G := G) (H := H)
    (h := clipDt t0 t1 dt) hR hBf hub hbd hul hu hacc ho h5 hG.ge
    (by rw [← hg]; rw [hC] at hCB; linarith) (by rw [hC] at hCB; linarith) c1 hH c2 hH1 hω0
    (fun i hi => ⟨(T1 i hi).1, (T1 i hi).2.1, (T1 i hi).2.2.1⟩) T2
    (by
      rw [← hg]
      have z1 : 36 * g * u ≤ 36 * g * ξ := mul_le_mul_of_nonneg_left x5 (by linarith)
      linarith)
    (by
      have z1 : 4 * Bf * (H + ω) ≤ 4 * Bf * (q * ξ) := mul_le_mul_of_nonneg_left hHq (by positivity)
      linarith)
    hy3 (fun i hi => ⟨(hall i hi).1, (hall i hi).2.trans ((hfinal i hi).trans p7)⟩)
  have key : ∀ i < N, |∑ k, w k * A.val (y i k) - ∑ k, w k * A.val (y0 k)| ≤ (∑ k, |w k|) * (i * (20 * H * ε + 36 * u * big G)) := by
    intro i
    induction i with
    | zero => intro _; rw [hy2 0 (by omega)]; simp
    | succ m ih =>
      intro hi
      have hpos : 0 ≤ 20 * H * ε + 36 * u * big G := by rw [← hg]; positivity
      by_cases hlt : m + 1 < order.toNat
      · rw [hy2 _ hlt, sub_self, abs_zero]; positivity
      · have z1 := drift_of_local (w := w) (Y := A.vec (y m)) (Y' := A.vec (y (m + 1))) (H := H)
          (Z := fun k => abComb order fun j => f (A.val (gridPt (clipDt t0 t1 dt) t0 m)) (A.vec (y (m - j))) k) (by
            simp only [abComb_real ho h5, Finset.mul_sum]
            rw [Finset.sum_comm]
            refine Finset.sum_eq_zero fun j _ => ?_
            calc ∑ k, w k * ((abC order j : ℝ) * f (A.val (gridPt (clipDt t0 t1 dt) t0 m)) (A.vec (y (m - j))) k)
                = (abC order j : ℝ) * ∑ k, w k * f (A.val (gridPt (clipDt t0 t1 dt) t0 m)) (A.vec (y (m - j))) k := by
                  rw [Finset.mul_sum]; exact Finset.sum_congr rfl fun k _ => by ring
              _ = 0 := by rw [hw, mul_zero]) (fun k => (hrd m (by omega) hi k).2)
        have z2 := abs_sub_le (∑ k, w k * A.val (y (m + 1) k)) (∑ k, w k * A.val (y m k)) (∑ k, w k * A.val (y0 k))
        have z3 := ih (by omega)
        change |∑ k, w k * A.val (y (m + 1) k) - ∑ k, w k * A.val (y m k)| ≤ _ at z1
        push_cast
        linarith
  intro y' hy'
  obtain ⟨i, hi, rfl⟩ := List.mem_iff_getElem.mp hy'
  rw [hN2] at hi
  rw [hy1 i _ (List.getElem?_eq_getElem (by rw [hN2]; exact hi))]
  refine (key i hi).trans ?_
  have s1 := mul_le_mul_of_nonneg_right (hS i hi) (by positivity : 0 ≤ 20 * ε)
  have s2 : (i : ℝ) * u ≤ N * u := mul_le_mul_of_nonneg_right (by exact_mod_cast hi.le) hu
  have s3 := mul_le_mul_of_nonneg_left s2 (by linarith : 0 ≤ 36 * g)
  have s4 : (i : ℝ) * (20 * H * ε + 36 * u * big G) ≤ (20 * Tt + 36 * g) * (N * u + ε) := by
    rw [← hg]
    have : 0 ≤ 20 * Tt * (N * u) := by positivity
    have : 0 ≤ 36 * g * ε := by positivity
    linarith
  have s5 := mul_le_mul_of_nonneg_left s4 hw0
  linarith

end Verif
