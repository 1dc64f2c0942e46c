import Verif.MsConverge
import Verif.Prop.BConverge
import Mathlib.Analysis.Calculus.IteratedDeriv.Defs
import Mathlib.Analysis.Calculus.ContDiff.Deriv

/-!
# Order of the multistep recursions: derivatives of the solution, moment conditions, error recursion
-/

set_option autoImplicit false

namespace Verif
open Set

section solution
variable {n : ℕ} {f : ℝ → (Fin n → ℝ) → (Fin n → ℝ)} {u : ℝ → Fin n → ℝ} {t0 t1 : ℝ}

/-- the solution of a problem with a `k` times continuously differentiable right-hand side has `k + 1` derivatives, the last one bounded -/
theorem solution_tower {k : ℕ} (h01 : t0 < t1) (hf : ContDiff ℝ k fun q : ℝ × (Fin n → ℝ) => f q.1 q.2)
    (hu : ∀ t ∈ Icc t0 t1, HasDerivWithinAt u (f t (u t)) (Icc t0 t1) t) :
    ∃ (v : ℕ → ℝ → Vec ℝ n) (M : ℝ), 0 ≤ M ∧ v 0 = u ∧ (∀ t ∈ Icc t0 t1, v 1 t = f t (u t)) ∧
      (∀ j ≤ k, ∀ t ∈ Icc t0 t1, HasDerivWithinAt (v j) (v (j + 1) t) (Icc t0 t1) t) ∧
      ∀ t ∈ Icc t0 t1, ‖v (k + 1) t‖ ≤ M := by
  have hun : UniqueDiffOn ℝ (Icc t0 t1) := uniqueDiffOn_Icc h01
  have hder : ∀ t ∈ Icc t0 t1, derivWithin u (Icc t0 t1) t = f t (u t) := fun t ht => (hu t ht).derivWithin (hun t ht)
  have hC : ∀ m : ℕ, m ≤ k + 1 → ContDiffOn ℝ m u (Icc t0 t1) := by
    intro m
    induction m with
    | zero =>
      intro _
      have : ContinuousOn u (Icc t0 t1) := fun t ht => (hu t ht).continuousWithinAt
      simpa using contDiffOn_zero (𝕜 := ℝ).2 this
    | succ m ih =>
      intro hm
      have him := ih (by omega)
      have : ContDiffOn ℝ ((m : ℕ∞) + 1) u (Icc t0 t1) := by
        rw [contDiffOn_succ_iff_derivWithin hun]
        refine ⟨fun t ht => (hu t ht).differentiableWithinAt, fun h => absurd h (by simp), ?_⟩
        have h1 : ContDiffOn ℝ m (fun t => ((t, u t) : ℝ × (Fin n → ℝ))) (Icc t0 t1) := contDiffOn_id.prodMk him
        have h2 := (hf.of_le (m := (m : ℕ∞)) (by exact_mod_cast (by omega : m ≤ k))).comp_contDiffOn h1
        exact h2.congr hder
      exact_mod_cast this
  have hfull := hC (k + 1) le_rfl
  have hd : ∀ j ≤ k, ∀ t ∈ Icc t0 t1, HasDerivWithinAt (iteratedDerivWithin j u (Icc t0 t1))
      (iteratedDerivWithin (j + 1) u (Icc t0 t1) t) (Icc t0 t1) t := by
    intro j hj t ht
    rw [iteratedDerivWithin_succ]
    exact (hfull.differentiableOn_iteratedDerivWithin (m := j) (by exact_mod_cast (by omega : j < k + 1)) hun t ht).hasDerivWithinAt
  have hcont := hfull.continuousOn_iteratedDerivWithin (m := k + 1) le_rfl hun
  obtain ⟨M, hM⟩ := isCompact_Icc.exists_bound_of_continuousOn hcont
  refine ⟨fun j => iteratedDerivWithin j u (Icc t0 t1), max M 0, le_max_right _ _, ?_, ?_, hd, fun t ht => (hM t ht).trans (le_max_left _ _)⟩
  · exact iteratedDerivWithin_zero
  · intro t ht
    simp only [iteratedDerivWithin_one]
    exact hder t ht

/-- Taylor's formula to both sides -/
theorem taylor_norm {v : ℕ → ℝ → Vec ℝ n} {M : ℝ} {p : ℕ} (hM : 0 ≤ M)
    (hv : ∀ k ≤ p, ∀ t ∈ Icc t0 t1, HasDerivWithinAt (v k) (v (k + 1) t) (Icc t0 t1) t)
    (hb : ∀ t ∈ Icc t0 t1, ‖v (p + 1) t‖ ≤ M) (q : ℕ) : ∀ k, k + q = p → ∀ a ∈ Icc t0 t1, ∀ x ∈ Icc t0 t1,
    ‖v k x - taylorP v a k q x‖ ≤ M * |x - a| ^ (q + 1) := by
  have mean : ∀ (g g' : ℝ → Vec ℝ n) (a x B : ℝ), g a = 0 → (∀ y ∈ uIcc a x, HasDerivWithinAt g (g' y) (uIcc a x) y) →
      (∀ y ∈ uIcc a x, ‖g' y‖ ≤ B) → ‖g x‖ ≤ B * |x - a| := by
    intro g g' a x B h0 hd hB
    have := (convex_uIcc a x).norm_image_sub_le_of_norm_hasDerivWithin_le hd hB left_mem_uIcc right_mem_uIcc
    rwa [h0, sub_zero, Real.norm_eq_abs] at this
  induction q with
  | zero =>
    intro k hk a ha x hx
    have hk' : k = p := by omega
    subst hk'
    have hsub : uIcc a x ⊆ Icc t0 t1 := ordConnected_Icc.uIcc_subset ha hx
    have := mean (fun y => v k y - v k a) (fun y => v (k + 1) y) a x M (sub_self _)
      (fun y hy => ((hv k le_rfl y (hsub hy)).mono hsub).sub_const _) (fun y hy => hb y (hsub hy))
    simpa [taylorP] using this
  | succ q ih =>
    intro k hk a ha x hx
    have hsub : uIcc a x ⊆ Icc t0 t1 := ordConnected_Icc.uIcc_subset ha hx
    have := mean (fun y => v k y - taylorP v a k (q + 1) y) (fun y => v (k + 1) y - taylorP v a (k + 1) q y) a x (M * |x - a| ^ (q + 1))
      (by simp only [taylorP_self, sub_self])
      (fun y hy => ((hv k (by omega) y (hsub hy)).mono hsub).sub (hasDerivAt_taylorP a k q y).hasDerivWithinAt)
      (fun y hy => (ih (k + 1) (by omega) a ha y (hsub hy)).trans
        (mul_le_mul_of_nonneg_left (pow_le_pow_left₀ (abs_nonneg _) (abs_sub_left_of_mem_uIcc hy) _) hM))
    rw [pow_succ, ← mul_assoc]
    exact this

end solution

/-- a zero-stable method whose steps have residual `O(h)` times the errors plus `h τ`: the error is `O(δ + τ)`, `δ` being the sum of the
starting errors; if the steps are only controlled near the solution, the bound has to be at most one -/
theorem multistep_bound {E : Type*} [NormedAddCommGroup E] [NormedSpace ℝ E] {κ b ρ w : List ℝ}
    (hc : lmul κ ρ = lmul (1 :: b) [1, -1]) (hb : l1 b < 1) {A1 T : ℝ} (hA1 : 0 ≤ A1) (hT : 0 ≤ T) :
    ∃ C h0 : ℝ, 0 ≤ C ∧ 0 < h0 ∧ ∀ (h δ τ : ℝ) (M N0 : ℕ) (e : ℕ → E), 0 ≤ h → h ≤ h0 → M * h ≤ T → 0 ≤ τ →
      ∑ i ∈ Finset.range N0, ‖e i‖ ≤ δ →
      (∀ i, N0 ≤ i → i ≤ M → (∀ l < i, ‖e l‖ ≤ 1) → ‖lconv ρ e i‖ ≤ A1 * h * lconv w (fun l => ‖e l‖) i + h * τ) →
      C * (δ + τ) ≤ 1 → ∀ N ≤ M, ‖e N‖ ≤ C * (δ + τ) := by
  set S := l1 κ / (1 - l1 b) with hS
  have hS0 : 0 ≤ S := div_nonneg (l1_nonneg _) (by linarith)
  have hr := l1_nonneg ρ
  have hw := l1_nonneg w
  set C := 2 * (S * (l1 ρ + (T + 1))) * Real.exp (2 * (S * (A1 * l1 w)) * T) with hC
  have hC0 : 0 ≤ C := by positivity
  refine ⟨C, min 1 (1 / (2 * (S * (A1 * l1 w)) + 2)), hC0, by positivity, ?_⟩
  intro h δ τ M N0 e hh hle hM hτ hstart hstep hsmall
  have hδ : 0 ≤ δ := le_trans (Finset.sum_nonneg fun _ _ => norm_nonneg _) hstart
  have h1 : h ≤ 1 := hle.trans (min_le_left _ _)
  have h3 : S * (A1 * l1 w) * h ≤ 1 / 2 := by
    have : h ≤ 1 / (2 * (S * (A1 * l1 w)) + 2) := hle.trans (min_le_right _ _)
    have h0 : 0 ≤ S * (A1 * l1 w) := by positivity
    rw [le_div_iff₀ (by positivity)] at this
    nlinarith
  have hbound : ∀ N ≤ M, 2 * (S * (l1 ρ * δ + (M + 1) * (h * τ))) * Real.exp (2 * (S * (A1 * h * l1 w)) * N) ≤ C * (δ + τ) := by
    intro N hN
    have e1 : (M + 1 : ℝ) * h ≤ T + 1 := by linarith
    have e2 : l1 ρ * δ + (M + 1) * (h * τ) ≤ (l1 ρ + (T + 1)) * (δ + τ) := by
      have a1 := mul_le_mul_of_nonneg_right e1 hτ
      have a2 : 0 ≤ l1 ρ * τ := mul_nonneg hr hτ
      have a3 : 0 ≤ (T + 1) * δ := mul_nonneg (by linarith) hδ
      nlinarith
    have e3 : Real.exp (2 * (S * (A1 * h * l1 w)) * N) ≤ Real.exp (2 * (S * (A1 * l1 w)) * T) := by
      refine Real.exp_le_exp.mpr ?_
      have hNM : (N : ℝ) * h ≤ T := (mul_le_mul_of_nonneg_right (by exact_mod_cast hN) hh).trans hM
      have h0 : 0 ≤ 2 * (S * (A1 * l1 w)) := by positivity
      calc 2 * (S * (A1 * h * l1 w)) * N = 2 * (S * (A1 * l1 w)) * (N * h) := by ring
        _ ≤ _ := mul_le_mul_of_nonneg_left hNM h0
    calc _ ≤ 2 * (S * ((l1 ρ + (T + 1)) * (δ + τ))) * Real.exp (2 * (S * (A1 * l1 w)) * T) := by
          refine mul_le_mul ?_ e3 (Real.exp_pos _).le (by positivity)
          exact mul_le_mul_of_nonneg_left (mul_le_mul_of_nonneg_left e2 hS0) (by norm_num)
      _ = C * (δ + τ) := by rw [hC]; ring
  have := multistep_error (w := w) (A := A1 * h) (τ := h * τ) (a0 := δ) (M := M) (N0 := N0) hc hb le_rfl (by positivity) (by positivity)
    hstart hstep (by nlinarith) ((hbound M le_rfl).trans hsmall)
  exact fun N hN => (this N hN).trans (hbound N hN)

theorem lconv_norm_smul {E : Type*} [NormedAddCommGroup E] [NormedSpace ℝ E] (l : List ℝ) (a : ℝ) (e : ℕ → E) (i : ℕ) :
    lconv l (fun i => a • e i) i = a • lconv l e i := by
  induction l generalizing i with
  | nil => simp [lconv]
  | cons b l ih =>
    simp only [lconv, smul_add, smul_comm a b]
    congr 1
    cases i with
    | zero => simp [delay]
    | succ i => simp only [delay]; exact ih i

/-- the same without restriction if the steps are controlled everywhere -/
theorem multistep_bound_free {E : Type*} [NormedAddCommGroup E] [NormedSpace ℝ E] {κ b ρ w : List ℝ}
    (hc : lmul κ ρ = lmul (1 :: b) [1, -1]) (hb : l1 b < 1) {A1 T : ℝ} (hA1 : 0 ≤ A1) (hT : 0 ≤ T) :
    ∃ C h0 : ℝ, 0 ≤ C ∧ 0 < h0 ∧ ∀ (h δ τ : ℝ) (M N0 : ℕ) (e : ℕ → E), 0 ≤ h → h ≤ h0 → M * h ≤ T → 0 ≤ τ →
      ∑ i ∈ Finset.range N0, ‖e i‖ ≤ δ →
      (∀ i, N0 ≤ i → i ≤ M → ‖lconv ρ e i‖ ≤ A1 * h * lconv w (fun l => ‖e l‖) i + h * τ) →
      ∀ N ≤ M, ‖e N‖ ≤ C * (δ + τ) := by
  obtain ⟨C, h0, hC, hh0, hall⟩ := multistep_bound (E := E) (w := w) hc hb hA1 hT
  refine ⟨C, h0, hC, hh0, ?_⟩
  intro h δ τ M N0 e hh hle hM hτ hstart hstep N hN
  have hδ : 0 ≤ δ := le_trans (Finset.sum_nonneg fun _ _ => norm_nonneg _) hstart
  set ε := 1 / (C * (δ + τ) + 1) with hε
  have hCd : 0 ≤ C * (δ + τ) := by positivity
  have hε0 : 0 < ε := by positivity
  have hεC : C * (δ + τ) * ε ≤ 1 := by
    rw [hε, mul_one_div, div_le_one (by linarith)]; linarith
  have hn : ∀ i, ‖ε • e i‖ = ε • ‖e i‖ := fun i => by rw [norm_smul, Real.norm_of_nonneg hε0.le, smul_eq_mul]
  have := hall h (ε * δ) (ε * τ) M N0 (fun i => ε • e i) hh hle hM (by positivity) (by
      simp only [hn, smul_eq_mul, ← Finset.mul_sum]
      exact mul_le_mul_of_nonneg_left hstart hε0.le) (by
      intro i hi hiM _
      rw [lconv_norm_smul, norm_smul, Real.norm_of_nonneg hε0.le]
      simp only [hn]
      rw [lconv_norm_smul w ε (fun l => ‖e l‖), smul_eq_mul]
      have := mul_le_mul_of_nonneg_left (hstep i hi hiM) hε0.le
      calc _ ≤ _ := this
        _ = _ := by ring) (by
      calc _ = C * (δ + τ) * ε := by ring
        _ ≤ 1 := hεC) N hN
  rw [hn, smul_eq_mul] at this
  refine le_of_mul_le_mul_left ?_ hε0
  calc _ ≤ _ := this
    _ = _ := by ring

/-! ### moment conditions -/

theorem ab_cases {order : ℤ} (h0 : 0 < order) (h5 : order ≤ 5) : order = 1 ∨ order = 2 ∨ order = 3 ∨ order = 4 ∨ order = 5 := by omega

/-- the weights of Adams-Bashforth integrate polynomials of degree below the order exactly -/
theorem abC_moments {order : ℤ} (h0 : 0 < order) (h5 : order ≤ 5) {l : ℕ} (hl : l < order.toNat) :
    ∑ j ∈ Finset.range order.toNat, (abC order j : ℝ) * (-(j : ℝ)) ^ l * ((l + 1 : ℕ) : ℝ) = 1 := by
  have hl5 : l ≤ 4 := by omega
  rcases ab_cases h0 h5 with rfl | rfl | rfl | rfl | rfl <;> interval_cases l <;> first
  | exact absurd hl (by decide)
  | simp [Finset.sum_range_succ, abC, abRow, q, nq]
    try norm_num

/-- the BDF formulas differentiate polynomials of degree up to the order exactly -/
theorem bdfC_moments {order : ℤ} (h0 : 0 < order) (h6 : order ≤ 6) {l : ℕ} (h2 : 2 ≤ l) (hl : l ≤ order.toNat) :
    ∑ j ∈ Finset.range order.toNat, (bdfC order j : ℝ) * (-((j : ℝ) + 1)) ^ l = 0 := by
  have hl6 : l ≤ 6 := by omega
  rcases bdf_cases h0 h6 with rfl | rfl | rfl | rfl | rfl | rfl <;> interval_cases l <;> first
  | exact absurd hl (by decide)
  | simp [Finset.sum_range_succ, bdfC, bdfRow, q, nq]
    try norm_num

section trunc
variable {n : ℕ} {v : ℕ → ℝ → Vec ℝ n} {M t0 t1 : ℝ} {k : ℕ}

/-- local truncation error of an Adams formula -/
theorem trunc_ab (hk : 1 ≤ k) (hM : 0 ≤ M) (hv : ∀ j ≤ k, ∀ t ∈ Icc t0 t1, HasDerivWithinAt (v j) (v (j + 1) t) (Icc t0 t1) t)
    (hb : ∀ t ∈ Icc t0 t1, ‖v (k + 1) t‖ ≤ M) {c : ℕ → ℝ} {K : ℕ}
    (hc : ∀ l < k, ∑ j ∈ Finset.range K, c j * (-(j : ℝ)) ^ l * ((l + 1 : ℕ) : ℝ) = 1) {a h : ℝ} (hh : 0 ≤ h)
    (ha : a ∈ Icc t0 t1) (hah : a + h ∈ Icc t0 t1) (haj : ∀ j < K, a - j * h ∈ Icc t0 t1) :
    ‖v 0 (a + h) - v 0 a - h • ∑ j ∈ Finset.range K, c j • v 1 (a - j * h)‖ ≤
      (1 + ∑ j ∈ Finset.range K, |c j| * (j : ℝ) ^ k) * M * h ^ (k + 1) := by
  obtain ⟨q, rfl⟩ : ∃ q, k = q + 1 := ⟨k - 1, by omega⟩
  have e1 := taylor_norm hM hv hb (q + 1) 0 (by omega) a ha (a + h) hah
  have e2 := fun j hj => taylor_norm hM hv hb q 1 (by omega) a ha (a - (j : ℕ) * h) (haj j hj)
  have hpoly : taylorP v a 0 (q + 1) (a + h) = v 0 a + h • ∑ j ∈ Finset.range K, c j • taylorP v a 1 q (a - j * h) := by
    unfold taylorP
    rw [Finset.sum_range_succ']
    simp only [add_sub_cancel_left, Nat.factorial_zero, Nat.cast_one, pow_zero, div_one, one_smul, add_zero, zero_add]
    rw [add_comm]
    congr 1
    simp only [Finset.smul_sum]
    rw [Finset.sum_comm]
    refine Finset.sum_congr rfl fun l hl => ?_
    have hl' := hc l (by simpa using hl)
    simp only [smul_smul, ← Finset.sum_smul]
    rw [add_comm 1 l]
    congr 1
    have hf : (l.factorial : ℝ) ≠ 0 := by positivity
    have hl1 : ((l + 1 : ℕ) : ℝ) ≠ 0 := by positivity
    have hx : ∀ j ∈ Finset.range K, h * (c j * ((a - j * h - a) ^ l / (l.factorial : ℝ))) =
        c j * (-(j : ℝ)) ^ l * ((l + 1 : ℕ) : ℝ) * (h ^ (l + 1) / ((l + 1).factorial : ℝ)) := by
      intro j _
      rw [show a - j * h - a = -(j : ℝ) * h by ring, mul_pow, Nat.factorial_succ]
      push_cast at hl1 ⊢
      field_simp
      ring
    rw [Finset.sum_congr rfl hx, ← Finset.sum_mul, hl', one_mul]
  have hsplit : v 0 (a + h) - v 0 a - h • ∑ j ∈ Finset.range K, c j • v 1 (a - j * h) =
      (v 0 (a + h) - taylorP v a 0 (q + 1) (a + h)) -
        h • ∑ j ∈ Finset.range K, c j • (v 1 (a - j * h) - taylorP v a 1 q (a - j * h)) := by
    rw [hpoly]
    simp only [smul_sub, Finset.sum_sub_distrib]
    abel
  rw [hsplit]
  refine (norm_sub_le _ _).trans ?_
  rw [add_sub_cancel_left, abs_of_nonneg hh] at e1
  have e3 : ‖h • ∑ j ∈ Finset.range K, c j • (v 1 (a - j * h) - taylorP v a 1 q (a - j * h))‖ ≤
      h * ∑ j ∈ Finset.range K, |c j| * (M * ((j : ℝ) ^ (q + 1) * h ^ (q + 1))) := by
    rw [norm_smul, Real.norm_of_nonneg hh]
    refine mul_le_mul_of_nonneg_left ((norm_sum_le _ _).trans (Finset.sum_le_sum fun j hj => ?_)) hh
    rw [norm_smul, Real.norm_eq_abs]
    refine mul_le_mul_of_nonneg_left ((e2 j (Finset.mem_range.1 hj)).trans_eq ?_) (abs_nonneg _)
    rw [show a - j * h - a = -(j * h) by ring, abs_neg, abs_of_nonneg (by positivity), mul_pow]
  refine (add_le_add e1 e3).trans_eq ?_
  rw [Finset.mul_sum, add_mul, add_mul, Finset.sum_mul, Finset.sum_mul]
  congr 1
  · ring
  · exact Finset.sum_congr rfl fun j _ => by ring

/-- local truncation error of a BDF formula -/
theorem trunc_bdf (hk : 1 ≤ k) (hM : 0 ≤ M) (hv : ∀ j ≤ k, ∀ t ∈ Icc t0 t1, HasDerivWithinAt (v j) (v (j + 1) t) (Icc t0 t1) t)
    (hb : ∀ t ∈ Icc t0 t1, ‖v (k + 1) t‖ ≤ M) {c : ℕ → ℝ} {w : ℝ} {K : ℕ}
    (hc0 : ∑ j ∈ Finset.range K, c j = -1) (hc1 : ∑ j ∈ Finset.range K, c j * (-((j : ℝ) + 1)) = w)
    (hc : ∀ l, 2 ≤ l → l ≤ k → ∑ j ∈ Finset.range K, c j * (-((j : ℝ) + 1)) ^ l = 0) {a h : ℝ} (hh : 0 ≤ h)
    (ha : a ∈ Icc t0 t1) (haj : ∀ j < K, a - (j + 1) * h ∈ Icc t0 t1) :
    ‖v 0 a + ∑ j ∈ Finset.range K, c j • v 0 (a - (j + 1) * h) - (h * w) • v 1 a‖ ≤
      (∑ j ∈ Finset.range K, |c j| * ((j : ℝ) + 1) ^ (k + 1)) * M * h ^ (k + 1) := by
  have e2 := fun j hj => taylor_norm hM hv hb k 0 (by omega) a ha (a - ((j : ℕ) + 1) * h) (haj j hj)
  have hpoly : ∑ j ∈ Finset.range K, c j • taylorP v a 0 k (a - (j + 1) * h) = (h * w) • v 1 a - v 0 a := by
    unfold taylorP
    simp only [Finset.smul_sum]
    rw [Finset.sum_comm]
    obtain ⟨q, rfl⟩ : ∃ q, k = q + 1 := ⟨k - 1, by omega⟩
    have hx : ∀ l, ∑ j ∈ Finset.range K, c j • (((a - (j + 1) * h - a) ^ l / (l.factorial : ℝ)) • v (0 + l) a) =
        ((∑ j ∈ Finset.range K, c j * (-((j : ℝ) + 1)) ^ l) * (h ^ l / (l.factorial : ℝ))) • v l a := by
      intro l
      simp only [smul_smul, ← Finset.sum_smul, zero_add, Finset.sum_mul]
      congr 1
      refine Finset.sum_congr rfl fun j _ => ?_
      rw [show a - (j + 1) * h - a = -((j : ℝ) + 1) * h by ring, mul_pow]
      ring
    simp only [hx]
    rw [Finset.sum_range_succ', Finset.sum_range_succ']
    have hz : ∀ l ∈ Finset.range q, ((∑ j ∈ Finset.range K, c j * (-((j : ℝ) + 1)) ^ (l + 1 + 1)) * (h ^ (l + 1 + 1) / ((l + 1 + 1).factorial : ℝ))) •
        v (l + 1 + 1) a = 0 := by
      intro l hl
      rw [hc (l + 1 + 1) (by omega) (by have := Finset.mem_range.1 hl; omega), zero_mul, zero_smul]
    rw [Finset.sum_eq_zero hz]
    simp only [zero_add, pow_one, pow_zero, mul_one, hc0, hc1, Nat.factorial_zero, Nat.factorial_one, Nat.cast_one, div_one, neg_smul, one_smul]
    rw [mul_comm w h, sub_eq_add_neg]
  have hsplit : v 0 a + ∑ j ∈ Finset.range K, c j • v 0 (a - (j + 1) * h) - (h * w) • v 1 a =
      ∑ j ∈ Finset.range K, c j • (v 0 (a - (j + 1) * h) - taylorP v a 0 k (a - (j + 1) * h)) := by
    simp only [smul_sub, Finset.sum_sub_distrib, hpoly]
    abel
  rw [hsplit, Finset.sum_mul, Finset.sum_mul]
  refine (norm_sum_le _ _).trans (Finset.sum_le_sum fun j hj => ?_)
  rw [norm_smul, Real.norm_eq_abs]
  refine (mul_le_mul_of_nonneg_left (e2 j (Finset.mem_range.1 hj)) (abs_nonneg _)).trans_eq ?_
  rw [show a - (j + 1) * h - a = -((j + 1) * h) by ring, abs_neg, abs_of_nonneg (show 0 ≤ ((j : ℝ) + 1) * h by positivity), mul_pow]
  ring

end trunc

section ab
variable {n : ℕ} {f : ℝ → (Fin n → ℝ) → (Fin n → ℝ)} {u : ℝ → Fin n → ℝ} {t0 t1 : ℝ}

/-- grid points below an end point -/
theorem grid_mem {h : ℝ} (hh : 0 ≤ h) {M : ℕ} (hM : t0 + M * h ≤ t1) {i : ℕ} (hi : i ≤ M) : t0 + (i : ℝ) * h ∈ Icc t0 t1 := by
  have : (i : ℝ) * h ≤ M * h := mul_le_mul_of_nonneg_right (by exact_mod_cast hi) hh
  exact ⟨by have : 0 ≤ (i : ℝ) * h := by positivity
            linarith, by linarith⟩

/-- Adams-Bashforth steps of order `k`, 1 to 5, for an autonomous problem: with starting errors `δ` the errors are `O(δ + h^k)` -/
theorem ab_order {order : ℤ} (h0 : 0 < order) (h5 : order ≤ 5) (ht : t0 < t1) (haut : ∀ s t y, f s y = f t y)
    (hf : ContDiff ℝ order.toNat fun q : ℝ × (Fin n → ℝ) => f q.1 q.2)
    (hu : ∀ t ∈ Icc t0 t1, HasDerivWithinAt u (f t (u t)) (Icc t0 t1) t) :
    ∃ C η : ℝ, 0 ≤ C ∧ 0 < η ∧ ∀ (h δ : ℝ) (M : ℕ) (y : ℕ → Fin n → ℝ), 0 < h → h ≤ η → δ ≤ η → t0 + M * h ≤ t1 →
      (∀ i < order.toNat, i ≤ M → ‖y i - u (t0 + i * h)‖ ≤ δ) →
      (∀ i, order.toNat ≤ i → i ≤ M → y i = y (i - 1) +
        h • ∑ j ∈ Finset.range order.toNat, (abC order j : ℝ) • f (t0 + (i - 1 : ℕ) * h) (y (i - 1 - j))) →
      ∀ i ≤ M, ‖y i - u (t0 + i * h)‖ ≤ C * (δ + h ^ order.toNat) := by
  set k := order.toNat with hk
  have hk1 : 1 ≤ k := by omega
  obtain ⟨R, L, B, -, hR, hL, hB, -, hub, hlip, -, -, -⟩ := solution_facts (hf.of_le (by exact_mod_cast hk1)) hu
  obtain ⟨v, Mv, hMv, hv0, hv1, hv, hvb⟩ := solution_tower ht hf hu
  obtain ⟨C, η, hC, hη, hmain⟩ := multistep_bound (E := Fin n → ℝ) (κ := [1]) (b := []) (ρ := [1, -1]) (w := abErr order)
    (A1 := L) (T := t1 - t0) (by simp [lmul, ladd]) (by simp [l1]) hL (by linarith)
  set K := (1 + ∑ j ∈ Finset.range k, |(abC order j : ℝ)| * (j : ℝ) ^ k) * Mv with hK
  have hK0 : 0 ≤ K := mul_nonneg (add_nonneg one_pos.le (Finset.sum_nonneg fun _ _ => by positivity)) hMv
  set D := C * (k + K) with hD
  have hD0 : 0 ≤ D := by positivity
  refine ⟨D, min η (min 1 (1 / (2 * D + 1))), hD0, by positivity, ?_⟩
  intro h δ M y hh hle hδ hM hstart hstep
  have hle1 : h ≤ η := hle.trans (min_le_left _ _)
  have hh1 : h ≤ 1 := hle.trans ((min_le_right _ _).trans (min_le_left _ _))
  have hh2 : h ≤ 1 / (2 * D + 1) := hle.trans ((min_le_right _ _).trans (min_le_right _ _))
  have hδ2 : δ ≤ 1 / (2 * D + 1) := hδ.trans ((min_le_right _ _).trans (min_le_right _ _))
  have hδ0 : 0 ≤ δ := (norm_nonneg _).trans (hstart 0 (by omega) (Nat.zero_le _))
  have hmem : ∀ i ≤ M, t0 + (i : ℝ) * h ∈ Icc t0 t1 := fun i hi => grid_mem hh.le hM hi
  have hpk : h ^ k ≤ h := by
    calc h ^ k ≤ h ^ 1 := pow_le_pow_of_le_one hh.le hh1 hk1
      _ = h := pow_one _
  have hCD : C * (k * δ + K * h ^ k) ≤ D * (δ + h ^ k) := by
    have a1 : 0 ≤ C * (k * h ^ k) := by positivity
    have a2 : 0 ≤ C * (K * δ) := by positivity
    have : D * (δ + h ^ k) = C * (k * δ + K * h ^ k) + C * (k * h ^ k) + C * (K * δ) := by rw [hD]; ring
    linarith
  have hsmall : D * (δ + h ^ k) ≤ 1 := by
    have a1 : δ + h ^ k ≤ 2 * (1 / (2 * D + 1)) := by linarith
    calc D * (δ + h ^ k) ≤ D * (2 * (1 / (2 * D + 1))) := mul_le_mul_of_nonneg_left a1 hD0
      _ = 2 * D / (2 * D + 1) := by ring
      _ ≤ 1 := by rw [div_le_one (by linarith)]; linarith
  refine fun i hi => (hmain h (k * δ) (K * h ^ k) M (min k (M + 1)) (fun i => y i - u (t0 + i * h)) hh.le hle1 (by linarith)
    (by positivity) ?_ ?_ (hCD.trans hsmall) i hi).trans hCD
  · have h1 : ∀ i ∈ Finset.range (min k (M + 1)), ‖y i - u (t0 + i * h)‖ ≤ δ := by
      intro i hi
      rw [Finset.mem_range, lt_min_iff] at hi
      exact hstart i hi.1 (by omega)
    refine (Finset.sum_le_sum h1).trans ?_
    rw [Finset.sum_const, Finset.card_range, nsmul_eq_mul]
    exact mul_le_mul_of_nonneg_right (by exact_mod_cast min_le_left _ _) hδ0
  · intro i hi hiM hone
    have hki : k ≤ i := by omega
    obtain ⟨m, rfl⟩ : ∃ m, i = m + 1 := ⟨i - 1, by omega⟩
    rw [lconv_abErr order _ hki, lconv_eq_sum _ _ _ (by simp)]
    simp only [List.length_cons, List.length_nil, zero_add, Nat.reduceAdd, Finset.sum_range_succ, Finset.sum_range_zero,
      List.getD_cons_zero, List.getD_cons_succ, one_smul, neg_smul, Nat.sub_zero, Nat.add_sub_cancel]
    have hst := hstep (m + 1) hki hiM
    rw [Nat.add_sub_cancel] at hst
    have hum := hmem m (by omega)
    have hum1 := hmem (m + 1) hiM
    have hub' : ∀ l ≤ m, ‖y l‖ ≤ R + 100 := by
      intro l hl
      have h1 := hone l (by omega)
      have h2 := hub _ (hmem l (by omega))
      have h3 : ‖y l‖ ≤ ‖y l - u (t0 + l * h)‖ + ‖u (t0 + l * h)‖ := by
        simpa using norm_add_le (y l - u (t0 + l * h)) (u (t0 + l * h))
      linarith
    have hback : ∀ j < k, t0 + (m : ℝ) * h - j * h = t0 + ((m - j : ℕ) : ℝ) * h := by
      intro j hj
      rw [Nat.cast_sub (by omega)]; ring
    have htr := trunc_ab (a := t0 + m * h) hk1 hMv hv hvb (c := fun j => (abC order j : ℝ)) (K := k)
      (fun l hl => abC_moments h0 h5 hl) hh.le hum (by
        have : t0 + (m : ℝ) * h + h = t0 + ((m + 1 : ℕ) : ℝ) * h := by push_cast; ring
        rw [this]; exact hum1) (fun j hj => by rw [hback j hj]; exact hmem _ (by omega))
    rw [hv0, show t0 + (m : ℝ) * h + h = t0 + ((m + 1 : ℕ) : ℝ) * h by push_cast; ring, ← hK] at htr
    have hslope : ∀ j ∈ Finset.range k, (abC order j : ℝ) • v 1 (t0 + m * h - j * h) =
        (abC order j : ℝ) • f (t0 + m * h) (u (t0 + (m - j : ℕ) * h)) := by
      intro j hj
      have hj' := Finset.mem_range.1 hj
      rw [hback j hj', hv1 _ (hmem _ (by omega)), haut (t0 + (m - j : ℕ) * h) (t0 + m * h)]
    rw [Finset.sum_congr rfl hslope] at htr
    have key : y (m + 1) - u (t0 + (m + 1 : ℕ) * h) + -(y m - u (t0 + m * h)) =
        h • ∑ j ∈ Finset.range k, (abC order j : ℝ) • (f (t0 + m * h) (y (m - j)) - f (t0 + m * h) (u (t0 + (m - j : ℕ) * h))) -
        (u (t0 + (m + 1 : ℕ) * h) - u (t0 + m * h) -
          h • ∑ j ∈ Finset.range k, (abC order j : ℝ) • f (t0 + m * h) (u (t0 + (m - j : ℕ) * h))) := by
      rw [hst]
      simp only [smul_sub, Finset.sum_sub_distrib]
      abel
    rw [key]
    refine (norm_sub_le _ _).trans ?_
    have hsum : ‖h • ∑ j ∈ Finset.range k, (abC order j : ℝ) • (f (t0 + m * h) (y (m - j)) - f (t0 + m * h) (u (t0 + (m - j : ℕ) * h)))‖ ≤
        h * ∑ j ∈ Finset.range k, |(abC order j : ℝ)| * (L * ‖y (m - j) - u (t0 + (m - j : ℕ) * h)‖) := by
      rw [norm_smul, Real.norm_eq_abs, abs_of_pos hh]
      refine mul_le_mul_of_nonneg_left ((norm_sum_le _ _).trans (Finset.sum_le_sum fun j hj => ?_)) hh.le
      rw [norm_smul, Real.norm_eq_abs]
      exact mul_le_mul_of_nonneg_left (hlip _ hum _ _ (hub' _ (by omega)) (by linarith [hub _ (hmem (m - j) (by omega))])) (abs_nonneg _)
    refine (add_le_add hsum htr).trans (le_of_eq ?_)
    have hexp : ∑ j ∈ Finset.range k, |(abC order j : ℝ)| * (L * ‖y (m - j) - u (t0 + (m - j : ℕ) * h)‖) =
        L * ∑ j ∈ Finset.range k, |(abC order j : ℝ)| * ‖y (m - j) - u (t0 + (m - j : ℕ) * h)‖ := by
      rw [Finset.mul_sum]
      exact Finset.sum_congr rfl fun j _ => by ring
    rw [hexp]
    ring

end ab

section bdf
variable {n : ℕ} {fn : OdeFun ℝ n} {u : ℝ → Fin n → ℝ} {t0 t1 : ℝ} {la : LinAlg ℝ}

set_option maxHeartbeats 800000 in
/-- BDF steps of order `k`, 1 to 6, with the Newton solver of the code: with starting errors `δ` the errors are `O(δ + h^k + 10⁻¹⁰)`,
`10⁻¹⁰` being the tolerance of the solver, and also `O(δ + h)`; and the solver does not fail -/
theorem bdf_order {order : ℤ} (h0 : 0 < order) (h6 : order ≤ 6) (hla : la.Exact) (ht : t0 < t1)
    (hf : ContDiff ℝ order.toNat fun q : ℝ × (Fin n → ℝ) => fn.fn q.1 q.2)
    (hj : Continuous fun q : ℝ × (Fin n → ℝ) => fn.jac q.1 q.2)
    (hu : ∀ t ∈ Icc t0 t1, HasDerivWithinAt u (fn.fn t (u t)) (Icc t0 t1) t) :
    ∃ C η : ℝ, 0 ≤ C ∧ 0 < η ∧ ∀ (h δ : ℝ) (M N : ℕ) (y : ℕ → Fin n → ℝ), 0 < h → h ≤ η → δ ≤ η →
      t0 + M * h ≤ t1 → order.toNat ≤ N → N ≤ 7 → (∀ i < N, i ≤ M → ‖y i - u (t0 + i * h)‖ ≤ δ) →
      (∀ i, N ≤ i → i ≤ M → ∃ st st', newtonIterate la (bdfEq fn order h (t0 + i * h) fun j => y (i - 1 - j))
        (y (i - 1)) bdfNewton st true = some (.ret (y i, st'))) →
      (∀ i ≤ M, ‖y i - u (t0 + i * h)‖ ≤ C * (δ + h ^ order.toNat + 1 / 10 ^ 10) ∧ ‖y i - u (t0 + i * h)‖ ≤ C * (δ + h)) ∧
      (order.toNat ≤ M + 1 → t0 + (M + 1 : ℕ) * h ≤ t1 → ∀ y' st st',
        newtonIterate la (bdfEq fn order h (t0 + (M + 1 : ℕ) * h) fun j => y (M - j))
          (y M) bdfNewton st true = some (.ret (y', st')) → st'.conv = 0) := by
  set k := order.toNat with hk
  have hk1 : 1 ≤ k := by omega
  have hk6 : k ≤ 6 := by omega
  obtain ⟨R, L, B, -, hR, hL, hB, -, hub, hlip, hfb, hulip, -⟩ := solution_facts (hf.of_le (by exact_mod_cast hk1)) hu
  obtain ⟨v, Mv, hMv, hv0, hv1, hv, hvb⟩ := solution_tower ht hf hu
  obtain ⟨Jb, hJ, hjac⟩ := jac_bounded hj t0 t1 (R + 100)
  obtain ⟨hw0, hw1⟩ := bdfW_bounds h0 h6
  obtain ⟨κ, b, hcert, hb⟩ := bdf_certificate h0 h6
  obtain ⟨C1, η1, hC1, hη1, hmain1⟩ := multistep_bound (E := Fin n → ℝ) (w := List.replicate (k + 1) 1) hcert hb
    (A1 := L + 44 * (Jb + L)) (T := t1 - t0) (by positivity) (by linarith)
  obtain ⟨C2, η2, hC2, hη2, hmain2⟩ := multistep_bound_free (E := Fin n → ℝ) (w := List.replicate (k + 1) 1) hcert hb
    (A1 := L) (T := t1 - t0) hL (by linarith)
  set K := (∑ j ∈ Finset.range k, |(bdfC order j : ℝ)| * ((j : ℝ) + 1) ^ (k + 1)) * Mv with hK
  have hK0 : 0 ≤ K := mul_nonneg (Finset.sum_nonneg fun _ _ => by positivity) hMv
  set τ1 := 134 * ((Jb + L) * B) + K with hτ1
  have hτ10 : 0 ≤ τ1 := by positivity
  set D := C1 * (7 + τ1) + C2 * (7 + K + (Jb + L)) with hD
  have hD1 : 0 ≤ C1 * (7 + τ1) := by positivity
  have hD2 : 0 ≤ C2 * (7 + K + (Jb + L)) := by positivity
  have hD0 : 0 ≤ D := by positivity
  refine ⟨D, min (min η1 η2) (min (min 1 (1 / (2 * D + 1))) (min (1 / (4 * (Jb + L) + 1)) (1 / (67 * B + 1)))), hD0, by positivity, ?_⟩
  intro h δ M N y hh hle hδ hM hkN hN7 hstart hstep
  have hle1 : h ≤ η1 := hle.trans ((min_le_left _ _).trans (min_le_left _ _))
  have hle2 : h ≤ η2 := hle.trans ((min_le_left _ _).trans (min_le_right _ _))
  have hle' := hle.trans (min_le_right _ _)
  have hh1 : h ≤ 1 := hle'.trans ((min_le_left _ _).trans (min_le_left _ _))
  have hh2 : h ≤ 1 / (2 * D + 1) := hle'.trans ((min_le_left _ _).trans (min_le_right _ _))
  have hδ2 : δ ≤ 1 / (2 * D + 1) := (hδ.trans (min_le_right _ _)).trans ((min_le_left _ _).trans (min_le_right _ _))
  have hδ0 : 0 ≤ δ := (norm_nonneg _).trans (hstart 0 (by omega) (Nat.zero_le _))
  have hs1 : h * (Jb + L) ≤ 1 / 4 := by
    have : h ≤ 1 / (4 * (Jb + L) + 1) := hle'.trans ((min_le_right _ _).trans (min_le_left _ _))
    rw [le_div_iff₀ (by positivity)] at this
    nlinarith
  have hs2 : 67 * B * h ≤ 1 := by
    have : h ≤ 1 / (67 * B + 1) := hle'.trans ((min_le_right _ _).trans (min_le_right _ _))
    rw [le_div_iff₀ (by positivity)] at this
    nlinarith
  have hsmall : D * (δ + h) ≤ 1 := by
    have a1 : δ + h ≤ 2 * (1 / (2 * D + 1)) := by linarith
    calc D * (δ + h) ≤ D * (2 * (1 / (2 * D + 1))) := mul_le_mul_of_nonneg_left a1 hD0
      _ = 2 * D / (2 * D + 1) := by ring
      _ ≤ 1 := by rw [div_le_one (by linarith)]; linarith
  have hmem : ∀ i ≤ M, t0 + (i : ℝ) * h ∈ Icc t0 t1 := fun i hi => grid_mem hh.le hM hi
  set e : ℕ → Fin n → ℝ := fun i => y i - u (t0 + i * h) with he
  have hsum0 : ∑ i ∈ Finset.range (min N (M + 1)), ‖e i‖ ≤ 7 * δ := by
    have h1 : ∀ i ∈ Finset.range (min N (M + 1)), ‖e i‖ ≤ δ := by
      intro i hi
      rw [Finset.mem_range, lt_min_iff] at hi
      exact hstart i hi.1 (by omega)
    refine (Finset.sum_le_sum h1).trans ?_
    rw [Finset.sum_const, Finset.card_range, nsmul_eq_mul]
    exact mul_le_mul_of_nonneg_right (by exact_mod_cast (min_le_left _ _).trans hN7) hδ0
  -- the residual of one step
  have hres : ∀ i, N ≤ i → i ≤ M → (∀ l < i, ‖e l‖ ≤ 1) →
      ‖e i + ∑ j ∈ Finset.range k, (bdfC order j : ℝ) • e (i - 1 - j)‖ ≤
        2 * (h * (Jb + L)) * (22 * (∑ j ∈ Finset.range k, ‖e (i - 1 - j)‖) + 67 * B * h) + h * (L * ‖e i‖) + K * h ^ (k + 1) ∧
      ‖e i + ∑ j ∈ Finset.range k, (bdfC order j : ℝ) • e (i - 1 - j)‖ ≤
        h * (Jb + L) * (1 / 10 ^ 10) + h * (L * ‖e i‖) + K * h ^ (k + 1) := by
    intro i hNi hiM hguard
    have hki : k ≤ i := hkN.trans hNi
    have hti := hmem i hiM
    obtain ⟨st, st', hn⟩ := hstep i hNi hiM
    obtain ⟨-, hyR, hr1, hr2⟩ := bdf_step_near h0 h6 hla hL hB hJ hub hlip hfb hulip hjac hh hs1 hs2 hki hti.2 hguard
      (fun j hj => Finset.single_le_sum (f := fun j => ‖e (i - 1 - j)‖) (fun _ _ => norm_nonneg _) (Finset.mem_range.2 hj)) hn
    have hback : ∀ j < k, t0 + (i : ℝ) * h - (j + 1) * h = t0 + ((i - 1 - j : ℕ) : ℝ) * h := by
      intro j hj
      rw [Nat.cast_sub (by omega), Nat.cast_sub (by omega)]; push_cast; ring
    have htr := trunc_bdf (a := t0 + i * h) hk1 hMv hv hvb (c := fun j => (bdfC order j : ℝ)) (K := k) (bdfC_sum h0 h6)
      (bdfC_moment h0 h6) (fun l h2 hl => bdfC_moments h0 h6 h2 hl) hh.le hti
      (fun j hj => by rw [hback j hj]; exact hmem _ (by omega))
    rw [hv0, hv1 _ hti, ← hK] at htr
    have hU : ∀ j ∈ Finset.range k, (bdfC order j : ℝ) • u (t0 + i * h - (j + 1) * h) = (bdfC order j : ℝ) • u (t0 + (i - 1 - j : ℕ) * h) := by
      intro j hj
      rw [hback j (Finset.mem_range.1 hj)]
    rw [Finset.sum_congr rfl hU] at htr
    have hsplit : e i + ∑ j ∈ Finset.range k, (bdfC order j : ℝ) • e (i - 1 - j) =
        (bdfEq fn order h (t0 + i * h) fun j => y (i - 1 - j)).fn (y i) +
        (h * (bdfW order : ℝ)) • (fn.fn (t0 + i * h) (y i) - fn.fn (t0 + i * h) (u (t0 + i * h))) -
        (u (t0 + i * h) + ∑ j ∈ Finset.range k, (bdfC order j : ℝ) • u (t0 + (i - 1 - j : ℕ) * h) -
          (h * bdfW order) • fn.fn (t0 + i * h) (u (t0 + i * h))) := by
      rw [bdfEq_vec]
      simp only [he, smul_sub, Finset.sum_sub_distrib]
      abel
    rw [hsplit]
    have hfl : ‖(h * (bdfW order : ℝ)) • (fn.fn (t0 + i * h) (y i) - fn.fn (t0 + i * h) (u (t0 + i * h)))‖ ≤ h * (L * ‖e i‖) := by
      rw [norm_smul, Real.norm_eq_abs, abs_of_nonneg (mul_nonneg hh.le hw0)]
      refine mul_le_mul (by nlinarith) (hlip _ hti _ _ hyR (by linarith [hub _ hti])) (norm_nonneg _) hh.le
    have t1 := norm_sub_le ((bdfEq fn order h (t0 + i * h) fun j => y (i - 1 - j)).fn (y i) +
        (h * (bdfW order : ℝ)) • (fn.fn (t0 + i * h) (y i) - fn.fn (t0 + i * h) (u (t0 + i * h))))
        (u (t0 + i * h) + ∑ j ∈ Finset.range k, (bdfC order j : ℝ) • u (t0 + (i - 1 - j : ℕ) * h) -
          (h * bdfW order) • fn.fn (t0 + i * h) (u (t0 + i * h)))
    have t2 := norm_add_le ((bdfEq fn order h (t0 + i * h) fun j => y (i - 1 - j)).fn (y i))
        ((h * (bdfW order : ℝ)) • (fn.fn (t0 + i * h) (y i) - fn.fn (t0 + i * h) (u (t0 + i * h))))
    exact ⟨by linarith, by linarith⟩
  have hpk : h ^ (k + 1) ≤ h * h := by
    have : h ^ k ≤ h ^ 1 := pow_le_pow_of_le_one hh.le hh1 hk1
    rw [pow_one] at this
    rw [pow_succ]
    exact mul_le_mul_of_nonneg_right this hh.le
  have hD1' : C1 * (7 * δ + τ1 * h) ≤ D * (δ + h) := by
    have a1 : 0 ≤ C1 * (7 * h) := by positivity
    have a2 : 0 ≤ C1 * (τ1 * δ) := by positivity
    have a3 : 0 ≤ C2 * (7 + K + (Jb + L)) * (δ + h) := by positivity
    have : D * (δ + h) = C1 * (7 * δ + τ1 * h) + C1 * (7 * h) + C1 * (τ1 * δ) + C2 * (7 + K + (Jb + L)) * (δ + h) := by
      rw [hD]; ring
    linarith
  have herr1 : ∀ i ≤ M, ‖e i‖ ≤ D * (δ + h) := by
    intro i hi
    refine (hmain1 h (7 * δ) (τ1 * h) M (min N (M + 1)) e hh.le hle1 (by linarith) (by positivity) hsum0 ?_ (hD1'.trans hsmall) i hi).trans hD1'
    intro i hi hiM hguard
    rw [lconv_bdfRho order _ (by omega), lconv_ones k _ (by omega)]
    refine (hres i (by omega) hiM hguard).1.trans ?_
    have hes0 : 0 ≤ ∑ j ∈ Finset.range k, ‖e (i - 1 - j)‖ := Finset.sum_nonneg fun _ _ => norm_nonneg _
    have p1 : 0 ≤ 44 * (Jb + L) * h * ‖e i‖ := by positivity
    have p2 : 0 ≤ L * h * ∑ j ∈ Finset.range k, ‖e (i - 1 - j)‖ := by positivity
    have p3 := mul_le_mul_of_nonneg_left hpk hK0
    set es := ∑ j ∈ Finset.range k, ‖e (i - 1 - j)‖
    have : (L + 44 * (Jb + L)) * h * (‖e i‖ + es) + h * (τ1 * h) =
        2 * (h * (Jb + L)) * (22 * es + 67 * B * h) + h * (L * ‖e i‖) + K * (h * h) + (44 * (Jb + L) * h * ‖e i‖ + L * h * es) := by
      rw [hτ1]; ring
    linarith
  have hguard : ∀ i ≤ M, ‖e i‖ ≤ 1 := fun i hi => (herr1 i hi).trans hsmall
  have hD2' : C2 * (7 * δ + (K * h ^ k + (Jb + L) * (1 / 10 ^ 10))) ≤ D * (δ + h ^ k + 1 / 10 ^ 10) := by
    have a1 : 0 ≤ C1 * (7 + τ1) * (δ + h ^ k + 1 / 10 ^ 10) := by positivity
    have a2 : 0 ≤ C2 * (7 * (h ^ k + 1 / 10 ^ 10) + K * (δ + 1 / 10 ^ 10) + (Jb + L) * (δ + h ^ k)) := by positivity
    have : D * (δ + h ^ k + 1 / 10 ^ 10) = C2 * (7 * δ + (K * h ^ k + (Jb + L) * (1 / 10 ^ 10))) + C1 * (7 + τ1) * (δ + h ^ k + 1 / 10 ^ 10) +
        C2 * (7 * (h ^ k + 1 / 10 ^ 10) + K * (δ + 1 / 10 ^ 10) + (Jb + L) * (δ + h ^ k)) := by rw [hD]; ring
    linarith
  refine ⟨fun i hi => ⟨?_, herr1 i hi⟩, fun hkM hM1 y' st st' hn => ?_⟩
  · refine (hmain2 h (7 * δ) (K * h ^ k + (Jb + L) * (1 / 10 ^ 10)) M (min N (M + 1)) e hh.le hle2 (by linarith) (by positivity) hsum0 ?_ i hi).trans hD2'
    intro i hi hiM
    rw [lconv_bdfRho order _ (by omega), lconv_ones k _ (by omega)]
    refine (hres i (by omega) hiM fun l hl => hguard l (by omega)).2.trans ?_
    have hes0 : 0 ≤ ∑ j ∈ Finset.range k, ‖e (i - 1 - j)‖ := Finset.sum_nonneg fun _ _ => norm_nonneg _
    have p2 : 0 ≤ L * h * ∑ j ∈ Finset.range k, ‖e (i - 1 - j)‖ := by positivity
    set es := ∑ j ∈ Finset.range k, ‖e (i - 1 - j)‖
    have : L * h * (‖e i‖ + es) + h * (K * h ^ k + (Jb + L) * (1 / 10 ^ 10)) =
        h * (Jb + L) * (1 / 10 ^ 10) + h * (L * ‖e i‖) + K * h ^ (k + 1) + L * h * es := by ring
    linarith
  · exact (bdf_step_near h0 h6 hla hL hB hJ hub hlip hfb hulip hjac hh hs1 hs2 (i := M + 1) (σ := 1) hkM hM1
      (fun l hl => hguard l (by omega)) (fun j hj => hguard _ (by omega)) hn).1

end bdf

end Verif
