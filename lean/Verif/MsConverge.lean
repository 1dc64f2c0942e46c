import Verif.ZeroStable
import Verif.ErkConverge
import Verif.Prop.MsLinear
import Verif.NewtonConverge

/-!
# First-order convergence of multistep methods: the exact solution and the error recursion
-/

namespace Verif
open Set

section solution
variable {n : ℕ} {f : ℝ → (Fin n → ℝ) → (Fin n → ℝ)} {u : ℝ → Fin n → ℝ} {t0 t1 : ℝ}

/-- bounds near a solution of a problem with continuously differentiable right-hand side -/
theorem solution_facts (hf : ContDiff ℝ 1 fun q : ℝ × (Fin n → ℝ) => f q.1 q.2)
    (hu : ∀ t ∈ Icc t0 t1, HasDerivWithinAt u (f t (u t)) (Icc t0 t1) t) :
    ∃ R L B K : ℝ, 0 ≤ R ∧ 0 ≤ L ∧ 0 ≤ B ∧ 0 ≤ K ∧ (∀ t ∈ Icc t0 t1, ‖u t‖ ≤ R) ∧
      (∀ t ∈ Icc t0 t1, ∀ y z, ‖y‖ ≤ R + 100 → ‖z‖ ≤ R + 100 → ‖f t y - f t z‖ ≤ L * ‖y - z‖) ∧
      (∀ t ∈ Icc t0 t1, ∀ y, ‖y‖ ≤ R + 100 → ‖f t y‖ ≤ B) ∧
      (∀ s ∈ Icc t0 t1, ∀ t ∈ Icc t0 t1, ‖u s - u t‖ ≤ B * |s - t|) ∧
      ∀ s ∈ Icc t0 t1, ∀ t ∈ Icc t0 t1, ‖u s - u t - (s - t) • f t (u t)‖ ≤ K * (s - t) ^ 2 := by
  have hcu : ContinuousOn u (Icc t0 t1) := fun t ht => (hu t ht).continuousWithinAt
  obtain ⟨R, hR, hub⟩ := solution_bounded hcu
  set ρ := max (max |t0| |t1|) (R + 100) with hρ
  have hin : ∀ t ∈ Icc t0 t1, ∀ y : Fin n → ℝ, ‖y‖ ≤ R + 100 → ((t, y) : ℝ × (Fin n → ℝ)) ∈ Metric.closedBall (0 : ℝ × (Fin n → ℝ)) ρ := by
    intro t ht y hy
    rw [mem_closedBall_zero_iff, Prod.norm_def, hρ]
    refine max_le (le_trans ?_ (le_max_left _ _)) (hy.trans (le_max_right _ _))
    rw [Real.norm_eq_abs]
    exact abs_le_max_abs_abs ht.1 ht.2
  obtain ⟨L, hL, hLip⟩ := lipschitz_ball (f := autonomize f) (n := 1) le_rfl (autonomize_contDiff hf) ρ
  obtain ⟨B, hB⟩ := (isCompact_closedBall (0 : ℝ × (Fin n → ℝ)) ρ).exists_bound_of_continuousOn hf.continuous.continuousOn
  have hLf : ∀ p ∈ Metric.closedBall (0 : ℝ × (Fin n → ℝ)) ρ, ∀ q ∈ Metric.closedBall (0 : ℝ × (Fin n → ℝ)) ρ,
      ‖f p.1 p.2 - f q.1 q.2‖ ≤ L * ‖p - q‖ := by
    intro p hp q hq
    have := hLip p hp q hq
    exact (norm_snd_le (autonomize f p - autonomize f q)).trans this
  have hBf : ∀ t ∈ Icc t0 t1, ∀ y, ‖y‖ ≤ R + 100 → ‖f t y‖ ≤ max B 0 := fun t ht y hy => (hB _ (hin t ht y hy)).trans (le_max_left _ _)
  have hlipu : ∀ s ∈ Icc t0 t1, ∀ t ∈ Icc t0 t1, ‖u s - u t‖ ≤ max B 0 * |s - t| := by
    intro s hs t ht
    have := (convex_Icc t0 t1).norm_image_sub_le_of_norm_hasDerivWithin_le hu
      (fun x hx => hBf x hx (u x) (by linarith [hub x hx])) ht hs
    rwa [Real.norm_eq_abs] at this
  refine ⟨R, L, max B 0, L * (1 + max B 0), hR, hL, le_max_right _ _, by positivity, hub, ?_, hBf, hlipu, ?_⟩
  · intro t ht y z hy hz
    have := hLf _ (hin t ht y hy) _ (hin t ht z hz)
    refine this.trans (mul_le_mul_of_nonneg_left ?_ hL)
    rw [Prod.mk_sub_mk, Prod.norm_def]
    simp
  · intro s hs t ht
    have hsub : uIcc t s ⊆ Icc t0 t1 := ordConnected_Icc.uIcc_subset ht hs
    have hd : ∀ x ∈ uIcc t s, HasDerivWithinAt (fun x => u x - x • f t (u t)) (f x (u x) - (1 : ℝ) • f t (u t)) (uIcc t s) x :=
      fun x hx => ((hu x (hsub hx)).mono hsub).sub ((hasDerivWithinAt_id x _).smul_const _)
    have hbound : ∀ x ∈ uIcc t s, ‖f x (u x) - (1 : ℝ) • f t (u t)‖ ≤ L * (1 + max B 0) * |s - t| := by
      intro x hx
      rw [one_smul]
      refine (hLf _ (hin x (hsub hx) (u x) (by linarith [hub x (hsub hx)])) _ (hin t ht (u t) (by linarith [hub t ht]))).trans ?_
      rw [mul_assoc]
      refine mul_le_mul_of_nonneg_left ?_ hL
      have hxt : |x - t| ≤ |s - t| := abs_sub_left_of_mem_uIcc hx
      have h1 := hlipu x (hsub hx) t ht
      have hB0 : 0 ≤ max B 0 := le_max_right _ _
      rw [Prod.mk_sub_mk, Prod.norm_def]
      refine max_le ?_ ?_
      · rw [Real.norm_eq_abs]
        nlinarith [abs_nonneg (s - t)]
      · change ‖u x - u t‖ ≤ _
        nlinarith [abs_nonneg (s - t)]
    have := (convex_uIcc t s).norm_image_sub_le_of_norm_hasDerivWithin_le hd hbound left_mem_uIcc right_mem_uIcc
    rw [Real.norm_eq_abs, mul_assoc, abs_mul_abs_self, ← sq] at this
    refine le_of_eq_of_le ?_ this
    congr 1
    rw [sub_smul]
    abel

end solution

/-- a zero-stable method whose steps have residual `O(h)` times the errors plus `O(h²)` converges with first order -/
theorem multistep_first_order {E : Type*} [NormedAddCommGroup E] [NormedSpace ℝ E] {κ b ρ w : List ℝ}
    (hc : lmul κ ρ = lmul (1 :: b) [1, -1]) (hb : l1 b < 1) {a1 A1 τ1 T S : ℝ} (ha1 : 0 ≤ a1) (hA1 : 0 ≤ A1) (hτ1 : 0 ≤ τ1)
    (hT : 0 ≤ T) (hS : l1 κ / (1 - l1 b) ≤ S) :
    ∃ C h0 : ℝ, 0 ≤ C ∧ 0 < h0 ∧ ∀ (h : ℝ) (M N0 : ℕ) (e : ℕ → E), 0 ≤ h → h ≤ h0 → M * h ≤ T →
      ∑ i ∈ Finset.range N0, ‖e i‖ ≤ a1 * h →
      (∀ i, N0 ≤ i → i ≤ M → (∀ l < i, ‖e l‖ ≤ 1) → ‖lconv ρ e i‖ ≤ A1 * h * lconv w (fun l => ‖e l‖) i + τ1 * h ^ 2) →
      ∀ N ≤ M, ‖e N‖ ≤ C * h := by
  have hS0 : 0 ≤ S := le_trans (div_nonneg (l1_nonneg _) (by linarith)) hS
  have hr := l1_nonneg ρ
  have hw := l1_nonneg w
  set C := 2 * (S * (l1 ρ * a1 + (T + 1) * τ1)) * Real.exp (2 * (S * (A1 * l1 w)) * T) with hC
  have hC0 : 0 ≤ C := by positivity
  refine ⟨C, min 1 (min (1 / (C + 1)) (1 / (2 * (S * (A1 * l1 w)) + 2))), hC0, by positivity, ?_⟩
  intro h M N0 e hh hle hM hstart hstep
  have h1 : h ≤ 1 := hle.trans (min_le_left _ _)
  have h2 : C * h ≤ 1 := by
    have : h ≤ 1 / (C + 1) := hle.trans ((min_le_right _ _).trans (min_le_left _ _))
    rw [le_div_iff₀ (by positivity)] at this
    nlinarith
  have h3 : S * (A1 * l1 w) * h ≤ 1 / 2 := by
    have : h ≤ 1 / (2 * (S * (A1 * l1 w)) + 2) := hle.trans ((min_le_right _ _).trans (min_le_right _ _))
    have h0 : 0 ≤ S * (A1 * l1 w) := by positivity
    rw [le_div_iff₀ (by positivity)] at this
    nlinarith
  have hbound : ∀ N ≤ M, 2 * (S * (l1 ρ * (a1 * h) + (M + 1) * (τ1 * h ^ 2))) * Real.exp (2 * (S * (A1 * h * l1 w)) * N) ≤ C * h := by
    intro N hN
    have e1 : (M + 1 : ℝ) * h ≤ T + 1 := by linarith
    have e2 : l1 ρ * (a1 * h) + (M + 1) * (τ1 * h ^ 2) ≤ (l1 ρ * a1 + (T + 1) * τ1) * h := by
      have := mul_le_mul_of_nonneg_right e1 (mul_nonneg hτ1 hh)
      nlinarith
    have e3 : Real.exp (2 * (S * (A1 * h * l1 w)) * N) ≤ Real.exp (2 * (S * (A1 * l1 w)) * T) := by
      refine Real.exp_le_exp.mpr ?_
      have hNM : (N : ℝ) * h ≤ T := (mul_le_mul_of_nonneg_right (by exact_mod_cast hN) hh).trans hM
      have h0 : 0 ≤ 2 * (S * (A1 * l1 w)) := by positivity
      calc 2 * (S * (A1 * h * l1 w)) * N = 2 * (S * (A1 * l1 w)) * (N * h) := by ring
        _ ≤ _ := mul_le_mul_of_nonneg_left hNM h0
    calc _ ≤ 2 * (S * ((l1 ρ * a1 + (T + 1) * τ1) * h)) * Real.exp (2 * (S * (A1 * l1 w)) * T) := by
          refine mul_le_mul ?_ e3 (Real.exp_pos _).le (by positivity)
          exact mul_le_mul_of_nonneg_left (mul_le_mul_of_nonneg_left e2 hS0) (by norm_num)
      _ = C * h := by rw [hC]; ring
  have := multistep_error (w := w) (A := A1 * h) (τ := τ1 * h ^ 2) (a0 := a1 * h) (M := M) (N0 := N0) hc hb hS (by positivity) (by positivity)
    hstart hstep (by nlinarith) ((hbound M le_rfl).trans h2)
  exact fun N hN => (this N hN).trans (hbound N hN)

/-! ### Adams-Bashforth -/

/-- sum of the absolute values of the weights -/
noncomputable def abAbs (order : ℤ) : ℝ := ∑ j ∈ Finset.range order.toNat, |(abC order j : ℝ)|

/-- the weights of the errors in the step to index `i` -/
noncomputable def abErr (order : ℤ) : List ℝ := 0 :: (List.range order.toNat).map fun j => |(abC order j : ℝ)|

theorem lconv_abErr (order : ℤ) (x : ℕ → ℝ) {i : ℕ} (hi : order.toNat ≤ i) :
    lconv (abErr order) x i = ∑ j ∈ Finset.range order.toNat, |(abC order j : ℝ)| * x (i - 1 - j) := by
  rw [lconv_eq_sum _ _ _ (by simp [abErr]; omega)]
  have hlen : (abErr order).length = order.toNat + 1 := by simp [abErr]
  rw [hlen, Finset.sum_range_succ']
  simp only [abErr, List.getD_cons_succ, List.getD_cons_zero, smul_eq_mul, zero_mul, add_zero]
  refine Finset.sum_congr rfl fun j hj => ?_
  rw [List.getD_eq_getElem?_getD, List.getElem?_map, List.getElem?_range (Finset.mem_range.1 hj)]
  simp only [Option.map_some, Option.getD_some]
  congr 2
  omega

section ab
variable {n : ℕ} {f : ℝ → (Fin n → ℝ) → (Fin n → ℝ)} {u : ℝ → Fin n → ℝ} {t0 t1 : ℝ}

/-- Adams-Bashforth steps of order 1 to 5 from constant starting values, the right-hand side being evaluated at the
newest time throughout: first order -/
theorem ab_first_order {order : ℤ} (h0 : 0 < order) (h5 : order ≤ 5) (ht : t0 ≤ t1)
    (hf : ContDiff ℝ 1 fun q : ℝ × (Fin n → ℝ) => f q.1 q.2)
    (hu : ∀ t ∈ Icc t0 t1, HasDerivWithinAt u (f t (u t)) (Icc t0 t1) t) :
    ∃ C η : ℝ, 0 ≤ C ∧ 0 < η ∧ ∀ (h : ℝ) (M : ℕ) (y : ℕ → Fin n → ℝ), 0 < h → h ≤ η → t0 + M * h ≤ t1 →
      (∀ i < order.toNat, y i = u t0) →
      (∀ i, order.toNat ≤ i → i ≤ M → y i = y (i - 1) +
        h • ∑ j ∈ Finset.range order.toNat, (abC order j : ℝ) • f (t0 + (i - 1 : ℕ) * h) (y (i - 1 - j))) →
      ∀ i ≤ M, ‖y i - u (t0 + i * h)‖ ≤ C * h := by
  obtain ⟨R, L, B, K, hR, hL, hB, hK, hub, hlip, -, hulip, hcons⟩ := solution_facts hf hu
  set k := order.toNat with hk
  have hk1 : 1 ≤ k := by omega
  have hk5 : k ≤ 5 := by omega
  have hγ : 0 ≤ abAbs order := Finset.sum_nonneg fun _ _ => abs_nonneg _
  obtain ⟨C, η, hC, hη, hmain⟩ := multistep_first_order (E := Fin n → ℝ) (κ := [1]) (b := []) (ρ := [1, -1]) (w := abErr order)
    (a1 := k * (B * k)) (A1 := L) (τ1 := L * (abAbs order * (B * 5)) + K) (T := t1 - t0) (S := 1)
    (by simp [lmul, ladd]) (by simp [l1]) (by positivity) hL (by positivity) (by linarith) (by simp [l1])
  refine ⟨C, η, hC, hη, ?_⟩
  intro h M y hh hle hM hstart hstep
  have hmem : ∀ i ≤ M, t0 + (i : ℝ) * h ∈ Icc t0 t1 := by
    intro i hi
    have : (i : ℝ) * h ≤ M * h := mul_le_mul_of_nonneg_right (by exact_mod_cast hi) hh.le
    exact ⟨by have : 0 ≤ (i : ℝ) * h := by positivity
              linarith, by linarith⟩
  refine hmain h M (min k (M + 1)) (fun i => y i - u (t0 + i * h)) hh.le hle (by linarith) ?_ ?_
  · have hle1 : ∀ i ∈ Finset.range (min k (M + 1)), ‖y i - u (t0 + i * h)‖ ≤ B * k * h := by
      intro i hi
      rw [Finset.mem_range, lt_min_iff] at hi
      rw [hstart i hi.1]
      refine (hulip t0 ⟨le_rfl, ht⟩ _ (hmem i (by omega))).trans ?_
      have h1 : |t0 - (t0 + i * h)| = i * h := by
        rw [show t0 - (t0 + i * h) = -(i * h) by ring, abs_neg, abs_of_nonneg (by positivity)]
      rw [h1, mul_assoc]
      refine mul_le_mul_of_nonneg_left (mul_le_mul_of_nonneg_right ?_ hh.le) hB
      exact_mod_cast hi.1.le
    refine (Finset.sum_le_sum hle1).trans ?_
    rw [Finset.sum_const, Finset.card_range, nsmul_eq_mul]
    have : ((min k (M + 1) : ℕ) : ℝ) ≤ k := by exact_mod_cast min_le_left _ _
    calc _ ≤ (k : ℝ) * (B * k * h) := mul_le_mul_of_nonneg_right this (by positivity)
      _ = _ := by ring
  · intro i hi hiM hone
    have hki : k ≤ i := by omega
    obtain ⟨m, rfl⟩ : ∃ m, i = m + 1 := ⟨i - 1, by omega⟩
    rw [lconv_abErr order _ hki, lconv_eq_sum _ _ _ (by simp)]
    simp only [List.length_cons, List.length_nil, zero_add, Nat.reduceAdd, Finset.sum_range_succ, Finset.sum_range_zero,
      List.getD_cons_zero, List.getD_cons_succ, one_smul, neg_smul, Nat.sub_zero, Nat.add_sub_cancel]
    have hst := hstep (m + 1) hki hiM
    rw [Nat.add_sub_cancel] at hst
    have hum := hmem m (by omega)
    have hum1 := hmem (m + 1) hiM
    have hub' : ∀ l ≤ m, ‖y l‖ ≤ R + 100 := by
      intro l hl
      have h1 := hone l (by omega)
      have h2 := hub _ (hmem l (by omega))
      have h3 : ‖y l‖ ≤ ‖y l - u (t0 + l * h)‖ + ‖u (t0 + l * h)‖ := by
        simpa using norm_add_le (y l - u (t0 + l * h)) (u (t0 + l * h))
      linarith
    have key : y (m + 1) - u (t0 + (m + 1 : ℕ) * h) + -(y m - u (t0 + m * h)) =
        h • ∑ j ∈ Finset.range k, (abC order j : ℝ) • (f (t0 + m * h) (y (m - j)) - f (t0 + m * h) (u (t0 + m * h))) -
        (u (t0 + (m + 1 : ℕ) * h) - u (t0 + m * h) - ((t0 + (m + 1 : ℕ) * h) - (t0 + m * h)) • f (t0 + m * h) (u (t0 + m * h))) := by
      rw [hst]
      simp only [smul_sub, Finset.sum_sub_distrib, ← Finset.sum_smul, abC_sum h0 h5, hk]
      push_cast
      rw [show t0 + (m + 1 : ℝ) * h - (t0 + m * h) = h by ring, one_smul]
      abel
    rw [key]
    refine (norm_sub_le _ _).trans ?_
    have hc := hcons _ hum1 _ hum
    have hhm : t0 + ((m + 1 : ℕ) : ℝ) * h - (t0 + m * h) = h := by push_cast; ring
    rw [hhm] at hc ⊢
    have hsum : ‖h • ∑ j ∈ Finset.range k, (abC order j : ℝ) • (f (t0 + m * h) (y (m - j)) - f (t0 + m * h) (u (t0 + m * h)))‖ ≤
        h * ∑ j ∈ Finset.range k, |(abC order j : ℝ)| * (L * (‖y (m - j) - u (t0 + (m - j : ℕ) * h)‖ + B * 5 * h)) := by
      rw [norm_smul, Real.norm_eq_abs, abs_of_pos hh]
      refine mul_le_mul_of_nonneg_left ((norm_sum_le _ _).trans (Finset.sum_le_sum fun j hj => ?_)) hh.le
      rw [norm_smul, Real.norm_eq_abs]
      refine mul_le_mul_of_nonneg_left ?_ (abs_nonneg _)
      refine (hlip _ hum _ _ (hub' _ (by omega)) (by linarith [hub _ hum])).trans (mul_le_mul_of_nonneg_left ?_ hL)
      have hj' : j ≤ m := by have := Finset.mem_range.1 hj; omega
      have h1 := hulip _ (hmem (m - j) (by omega)) _ hum
      have h2 : |t0 + ((m - j : ℕ) : ℝ) * h - (t0 + m * h)| = j * h := by
        rw [Nat.cast_sub hj', show t0 + ((m : ℝ) - j) * h - (t0 + m * h) = -(j * h) by ring, abs_neg,
          abs_of_nonneg (by positivity)]
      rw [h2] at h1
      have h3 : ‖y (m - j) - u (t0 + m * h)‖ ≤ ‖y (m - j) - u (t0 + (m - j : ℕ) * h)‖ + ‖u (t0 + (m - j : ℕ) * h) - u (t0 + m * h)‖ := by
        simpa using norm_add_le (y (m - j) - u (t0 + (m - j : ℕ) * h)) (u (t0 + (m - j : ℕ) * h) - u (t0 + m * h))
      have hj5 : (j : ℝ) ≤ 5 := by exact_mod_cast (show j ≤ 5 by have := Finset.mem_range.1 hj; omega)
      have h4 : B * (j * h) ≤ B * 5 * h := by
        rw [← mul_assoc]
        exact mul_le_mul_of_nonneg_right (mul_le_mul_of_nonneg_left hj5 hB) hh.le
      linarith
    refine (add_le_add hsum hc).trans (le_of_eq ?_)
    have hexp : ∑ j ∈ Finset.range k, |(abC order j : ℝ)| * (L * (‖y (m - j) - u (t0 + (m - j : ℕ) * h)‖ + B * 5 * h)) =
        L * ∑ j ∈ Finset.range k, |(abC order j : ℝ)| * ‖y (m - j) - u (t0 + (m - j : ℕ) * h)‖ + L * (abAbs order * (B * 5)) * h := by
      rw [abAbs, Finset.sum_mul, Finset.mul_sum, Finset.mul_sum, Finset.sum_mul, ← Finset.sum_add_distrib]
      exact Finset.sum_congr rfl fun j _ => by ring
    rw [hexp]
    ring

end ab

/-! ### BDF -/

/-- sum of the absolute values of the BDF coefficients -/
noncomputable def bdfAbs (order : ℤ) : ℝ := ∑ j ∈ Finset.range order.toNat, |(bdfC order j : ℝ)|

/-- the coefficients of the error recursion -/
noncomputable def bdfRho (order : ℤ) : List ℝ := 1 :: (List.range order.toNat).map fun j => (bdfC order j : ℝ)

theorem bdf_cases {order : ℤ} (h0 : 0 < order) (h6 : order ≤ 6) :
    order = 1 ∨ order = 2 ∨ order = 3 ∨ order = 4 ∨ order = 5 ∨ order = 6 := by omega

theorem bdfAbs_le {order : ℤ} (h0 : 0 < order) (h6 : order ≤ 6) : bdfAbs order ≤ 11 := by
  rcases bdf_cases h0 h6 with rfl | rfl | rfl | rfl | rfl | rfl <;>
  · simp [bdfAbs, Finset.sum_range_succ, bdfC, bdfRow, q, nq, abs_div]
    try norm_num

theorem bdfW_bounds {order : ℤ} (h0 : 0 < order) (h6 : order ≤ 6) : 0 ≤ (bdfW order : ℝ) ∧ (bdfW order : ℝ) ≤ 1 := by
  rcases bdf_cases h0 h6 with rfl | rfl | rfl | rfl | rfl | rfl <;>
  · simp [bdfW, q]
    try norm_num

/-- consistency -/
theorem bdfC_moment {order : ℤ} (h0 : 0 < order) (h6 : order ≤ 6) :
    ∑ j ∈ Finset.range order.toNat, (bdfC order j : ℝ) * (-(j + 1)) = bdfW order := by
  rcases bdf_cases h0 h6 with rfl | rfl | rfl | rfl | rfl | rfl <;>
  · simp [Finset.sum_range_succ, bdfC, bdfRow, bdfW, q, nq]
    try norm_num

/-- zero-stability of the six methods: a multiplier with which the error recursion is a contraction of the increments -/
theorem bdf_certificate {order : ℤ} (h0 : 0 < order) (h6 : order ≤ 6) :
    ∃ κ b : List ℝ, lmul κ (bdfRho order) = lmul (1 :: b) [1, -1] ∧ l1 b < 1 := by
  rcases bdf_cases h0 h6 with rfl | rfl | rfl | rfl | rfl | rfl
  · exact ⟨[1], [], by simp [bdfRho, List.range_succ, bdfC, bdfRow, lmul, ladd], by norm_num [l1]⟩
  · exact ⟨[1], [-1/3], by simp [bdfRho, List.range_succ, bdfC, bdfRow, lmul, ladd, q, nq]; norm_num,
      by norm_num [l1, abs_div]⟩
  · exact ⟨[1], [-7/11, 2/11], by simp [bdfRho, List.range_succ, bdfC, bdfRow, lmul, ladd, q, nq]; norm_num,
      by norm_num [l1, abs_div]⟩
  · exact ⟨[1, 7/8], [-9/200, -57/200, 67/200, -21/200],
      by simp [bdfRho, List.range_succ, bdfC, bdfRow, lmul, ladd, q, nq]; norm_num, by norm_num [l1, abs_div]⟩
  · exact ⟨[1, 1, 1/2], [-26/137, 85/274, -15/274, 35/274, -39/274, 6/137],
      by simp [bdfRho, List.range_succ, bdfC, bdfRow, lmul, ladd, q, nq]; norm_num, by norm_num [l1, abs_div]⟩
  · exact ⟨[1, 7/5, 1/2, -1/2, -2/5], [-12/245, 41/490, -8/105, 0, -38/147, 37/1470, 146/735, -33/245, 4/147],
      by simp [bdfRho, List.range_succ, bdfC, bdfRow, lmul, ladd, q, nq]; norm_num, by norm_num [l1, abs_div]⟩

theorem lconv_bdfRho {E : Type*} [NormedAddCommGroup E] [NormedSpace ℝ E] (order : ℤ) (x : ℕ → E) {i : ℕ}
    (hi : order.toNat ≤ i) :
    lconv (bdfRho order) x i = x i + ∑ j ∈ Finset.range order.toNat, (bdfC order j : ℝ) • x (i - 1 - j) := by
  rw [lconv_eq_sum _ _ _ (by simp [bdfRho]; omega)]
  have hlen : (bdfRho order).length = order.toNat + 1 := by simp [bdfRho]
  rw [hlen, Finset.sum_range_succ', add_comm]
  simp only [bdfRho, List.getD_cons_succ, List.getD_cons_zero, one_smul, Nat.sub_zero]
  congr 1
  refine Finset.sum_congr rfl fun j hj => ?_
  rw [List.getD_eq_getElem?_getD, List.getElem?_map, List.getElem?_range (Finset.mem_range.1 hj)]
  simp only [Option.map_some, Option.getD_some]
  congr 2
  omega

theorem lconv_ones (k : ℕ) (x : ℕ → ℝ) {i : ℕ} (hi : k ≤ i) :
    lconv (List.replicate (k + 1) 1) x i = x i + ∑ j ∈ Finset.range k, x (i - 1 - j) := by
  rw [lconv_eq_sum _ _ _ (by simp; omega), List.length_replicate, Finset.sum_range_succ', add_comm]
  rw [List.getD_eq_getElem?_getD, List.getElem?_replicate_of_lt (by omega)]
  simp only [Option.getD_some, one_smul, Nat.sub_zero]
  congr 1
  refine Finset.sum_congr rfl fun j hj => ?_
  have := Finset.mem_range.1 hj
  rw [List.getD_eq_getElem?_getD, List.getElem?_replicate_of_lt (by omega)]
  simp only [Option.getD_some, one_smul]
  congr 1
  omega

section bdf
variable {n : ℕ} {fn : OdeFun ℝ n} {u : ℝ → Fin n → ℝ} {t0 t1 : ℝ} {la : LinAlg ℝ}

/-- the BDF equation in vector form -/
theorem bdfEq_vec (order : ℤ) (h t : ℝ) (v : ℕ → Vec ℝ n) (z : Vec ℝ n) :
    (bdfEq fn order h t v).fn z =
      z + ∑ j ∈ Finset.range order.toNat, (bdfC order j : ℝ) • v j - (h * bdfW order) • fn.fn t z := by
  funext p
  simp only [bdfEq, foldl_linComb, lit_real, Rat.cast_zero, zero_add, Pi.add_apply, Pi.sub_apply, Pi.smul_apply,
    smul_eq_mul, Finset.sum_apply]

theorem bdfEq_jac (order : ℤ) (h t : ℝ) (v : ℕ → Vec ℝ n) (z w : Vec ℝ n) :
    (Matrix.of ((bdfEq fn order h t v).jac z)).mulVec w = w - (h * bdfW order) • (Matrix.of (fn.jac t z)).mulVec w := by
  have : Matrix.of ((bdfEq fn order h t v).jac z) = 1 - (h * bdfW order) • Matrix.of (fn.jac t z) := newtonMat_eq _ _
  rw [this, Matrix.sub_mulVec, Matrix.one_mulVec, Matrix.smul_mulVec]

/-- a continuous Jacobi matrix is bounded near the solution -/
theorem jac_bounded (hj : Continuous fun q : ℝ × (Fin n → ℝ) => fn.jac q.1 q.2) (t0 t1 R : ℝ) :
    ∃ Jb : ℝ, 0 ≤ Jb ∧ ∀ t ∈ Icc t0 t1, ∀ y, ‖y‖ ≤ R → ∀ v, ‖(Matrix.of (fn.jac t y)).mulVec v‖ ≤ Jb * ‖v‖ := by
  have hc : Continuous fun q : ℝ × (Fin n → ℝ) => ∑ i, ∑ l, |fn.jac q.1 q.2 i l| := by
    refine continuous_finsetSum _ fun i _ => continuous_finsetSum _ fun l _ => ?_
    exact (((continuous_apply l).comp ((continuous_apply i).comp hj))).abs
  obtain ⟨Jb, hJb⟩ := (isCompact_Icc.prod (isCompact_closedBall (0 : Fin n → ℝ) R)).exists_bound_of_continuousOn
    (s := Icc t0 t1 ×ˢ Metric.closedBall (0 : Fin n → ℝ) R) hc.continuousOn
  refine ⟨max Jb 0, le_max_right _ _, fun t ht y hy v => ?_⟩
  have h1 := hJb (t, y) ⟨ht, by simpa using hy⟩
  rw [Real.norm_eq_abs, abs_of_nonneg (Finset.sum_nonneg fun _ _ => Finset.sum_nonneg fun _ _ => abs_nonneg _)] at h1
  rw [pi_norm_le_iff_of_nonneg (by positivity)]
  intro i
  rw [Real.norm_eq_abs, Matrix.mulVec, dotProduct]
  calc |∑ l, Matrix.of (fn.jac t y) i l * v l| ≤ ∑ l, |fn.jac t y i l| * ‖v‖ := by
        refine (Finset.abs_sum_le_sum_abs _ _).trans (Finset.sum_le_sum fun l _ => ?_)
        rw [abs_mul]
        exact mul_le_mul_of_nonneg_left (norm_le_pi_norm v l) (abs_nonneg _)
    _ = (∑ l, |fn.jac t y i l|) * ‖v‖ := (Finset.sum_mul _ _ _).symm
    _ ≤ max Jb 0 * ‖v‖ := by
        refine mul_le_mul_of_nonneg_right ?_ (norm_nonneg _)
        refine le_trans ?_ (h1.trans (le_max_left _ _))
        exact Finset.single_le_sum (f := fun i => ∑ l, |fn.jac t y i l|)
          (fun i _ => Finset.sum_nonneg fun _ _ => abs_nonneg _) (Finset.mem_univ i)

/-- a bound on the residual of the newest value in the BDF equation for the next one -/
theorem bdf_start_residual {order : ℤ} (h0 : 0 < order) (h6 : order ≤ 6) {h B σ : ℝ} (hh : 0 ≤ h) (hB : 0 ≤ B)
    {v U : ℕ → Vec ℝ n} {t : ℝ} (hv : ∀ j < order.toNat, ‖v j - U j‖ ≤ σ) (hU : ∀ j < order.toNat, ‖U j - U 0‖ ≤ B * (6 * h))
    (hf : ‖fn.fn t (v 0)‖ ≤ B) : ‖(bdfEq fn order h t v).fn (v 0)‖ ≤ 22 * σ + 67 * B * h := by
  have hγ := bdfAbs_le h0 h6
  have hγ0 : 0 ≤ bdfAbs order := Finset.sum_nonneg fun _ _ => abs_nonneg _
  obtain ⟨hw0, hw1⟩ := bdfW_bounds h0 h6
  have hσ : 0 ≤ σ := (norm_nonneg _).trans (hv 0 (by omega))
  have hsum : v 0 + ∑ j ∈ Finset.range order.toNat, (bdfC order j : ℝ) • v j =
      ∑ j ∈ Finset.range order.toNat, (bdfC order j : ℝ) • (v j - v 0) := by
    simp only [smul_sub, Finset.sum_sub_distrib, ← Finset.sum_smul, bdfC_sum h0 h6]
    rw [neg_smul, one_smul]
    abel
  rw [bdfEq_vec, hsum]
  refine (norm_sub_le _ _).trans ?_
  have e1 : ‖∑ j ∈ Finset.range order.toNat, (bdfC order j : ℝ) • (v j - v 0)‖ ≤ bdfAbs order * (2 * σ + B * (6 * h)) := by
    rw [bdfAbs, Finset.sum_mul]
    refine (norm_sum_le _ _).trans (Finset.sum_le_sum fun j hj => ?_)
    have hj' := Finset.mem_range.1 hj
    rw [norm_smul, Real.norm_eq_abs]
    refine mul_le_mul_of_nonneg_left ?_ (abs_nonneg _)
    have : v j - v 0 = (v j - U j) + (U j - U 0) - (v 0 - U 0) := by abel
    rw [this]
    refine (norm_sub_le _ _).trans ?_
    have a1 := norm_add_le (v j - U j) (U j - U 0)
    have a2 := hv j hj'
    have a3 := hv 0 (by omega)
    have a4 := hU j hj'
    linarith
  have e2 : ‖(h * (bdfW order : ℝ)) • fn.fn t (v 0)‖ ≤ h * B := by
    rw [norm_smul, Real.norm_eq_abs, abs_of_nonneg (mul_nonneg hh hw0)]
    refine mul_le_mul ?_ hf (norm_nonneg _) hh
    nlinarith
  have e3 : bdfAbs order * (2 * σ + B * (6 * h)) ≤ 11 * (2 * σ + B * (6 * h)) :=
    mul_le_mul_of_nonneg_right hγ (by positivity)
  nlinarith

/-- the Newton iteration of a BDF step near the solution succeeds, stays near it and leaves a small residual -/
theorem bdf_newton {order : ℤ} (h0 : 0 < order) (h6 : order ≤ 6) (hla : la.Exact) {h B L Jb R σ : ℝ} (hh : 0 ≤ h)
    (hB : 0 ≤ B) (hL : 0 ≤ L) (hJ : 0 ≤ Jb) {v U : ℕ → Vec ℝ n} {t : ℝ}
    (hv : ∀ j < order.toNat, ‖v j - U j‖ ≤ σ) (hv1 : ∀ j < order.toNat, ‖v j - U j‖ ≤ 1)
    (hU : ∀ j < order.toNat, ‖U j - U 0‖ ≤ B * (6 * h)) (hR : ‖U 0‖ ≤ R)
    (hlip : ∀ y z, ‖y‖ ≤ R + 100 → ‖z‖ ≤ R + 100 → ‖fn.fn t y - fn.fn t z‖ ≤ L * ‖y - z‖)
    (hf : ∀ y, ‖y‖ ≤ R + 100 → ‖fn.fn t y‖ ≤ B)
    (hjac : ∀ y, ‖y‖ ≤ R + 100 → ∀ w, ‖(Matrix.of (fn.jac t y)).mulVec w‖ ≤ Jb * ‖w‖)
    (hs1 : h * (Jb + L) ≤ 1 / 4) (hs2 : 67 * B * h ≤ 1) {st st' : NewtonStatus ℝ} {y' : Vec ℝ n}
    (hn : newtonIterate la (bdfEq fn order h t v) (v 0) bdfNewton st true = some (.ret (y', st'))) :
    st'.conv = 0 ∧ ‖y'‖ ≤ R + 100 ∧
      ‖(bdfEq fn order h t v).fn y'‖ ≤ 2 * (h * (Jb + L)) * (22 * σ + 67 * B * h) ∧
      ‖(bdfEq fn order h t v).fn y'‖ ≤ h * (Jb + L) * (1 / 10 ^ 10) := by
  obtain ⟨hw0, hw1⟩ := bdfW_bounds h0 h6
  have hx : ‖v 0‖ ≤ R + 1 := by
    have : v 0 = (v 0 - U 0) + U 0 := by abel
    rw [this]
    exact (norm_add_le _ _).trans (by linarith [hv1 0 (by omega)])
  have hr1 := bdf_start_residual (fn := fn) (t := t) h0 h6 hh hB hv1 hU (hf _ (by linarith))
  have hr := bdf_start_residual (fn := fn) (t := t) h0 h6 hh hB hv hU (hf _ (by linarith))
  have hball : ∀ z, ‖z - v 0‖ ≤ 4 * ‖(bdfEq fn order h t v).fn (v 0)‖ → ‖z‖ ≤ R + 100 := by
    intro z hz
    have : z = (z - v 0) + v 0 := by abel
    rw [this]
    exact (norm_add_le _ _).trans (by linarith)
  have hhw : h * (bdfW order : ℝ) ≤ h := by nlinarith
  have hhw0 : 0 ≤ h * (bdfW order : ℝ) := mul_nonneg hh hw0
  obtain ⟨h1, h2⟩ := newton_near_one (o := bdfNewton) (a := h * Jb) (b := h * L) hla
    (by simp [bdfNewton, NewtonOpts.dflt]) rfl (by simp [bdfNewton]) true (by positivity) (by positivity)
    (by linarith) (by
      intro z hz w
      rw [bdfEq_jac, sub_sub_cancel_left, norm_neg, norm_smul, Real.norm_eq_abs, abs_of_nonneg hhw0]
      have := hjac z (hball z hz) w
      calc _ ≤ h * (Jb * ‖w‖) := mul_le_mul hhw this (norm_nonneg _) hh
        _ = _ := by ring) (by
      intro z w hz hw
      have e : (bdfEq fn order h t v).fn z - (bdfEq fn order h t v).fn w - (z - w) =
          -((h * (bdfW order : ℝ)) • (fn.fn t z - fn.fn t w)) := by
        rw [bdfEq_vec, bdfEq_vec, smul_sub]; abel
      rw [e, norm_neg, norm_smul, Real.norm_eq_abs, abs_of_nonneg hhw0]
      have := hlip z w (hball z hz) (hball w hw)
      calc _ ≤ h * (L * ‖z - w‖) := mul_le_mul hhw this (norm_nonneg _) hh
        _ = _ := by ring) hn
  have hconv : st'.conv = 0 := by
    refine h2 ?_
    have e1 : ((bdfNewton : NewtonOpts ℝ).maxit.toNat - 2) = 498 := by simp [bdfNewton]
    have e2 : (bdfNewton : NewtonOpts ℝ).dxDelta = 1 / 10 ^ 10 := by simp [bdfNewton]
    rw [e1, e2]
    have e3 : (1 / 2 : ℝ) ^ 498 ≤ (1 / 2) ^ 60 := pow_le_pow_of_le_one (by norm_num) (by norm_num) (by norm_num)
    have e4 : (1 / 2 : ℝ) ^ 60 * 100 < 1 / 10 ^ 10 := by norm_num
    have e5 : 0 ≤ (1 / 2 : ℝ) ^ 498 := by positivity
    have e6 : 2 * ‖(bdfEq fn order h t v).fn (v 0)‖ ≤ 100 := by linarith
    calc _ ≤ 100 * (1 / 2 : ℝ) ^ 498 := mul_le_mul_of_nonneg_right e6 e5
      _ ≤ 100 * (1 / 2 : ℝ) ^ 60 := mul_le_mul_of_nonneg_left e3 (by norm_num)
      _ < _ := by rw [mul_comm]; exact e4
  obtain ⟨h3, h4, h5⟩ := h1 hconv
  refine ⟨hconv, hball _ h3, h4.trans ?_, h5.trans_eq ?_⟩
  · rw [show 2 * (h * Jb + h * L) = 2 * (h * (Jb + L)) by ring]
    exact mul_le_mul_of_nonneg_left hr (by positivity)
  · rw [← mul_add]
    simp [bdfNewton]

/-- one BDF step near a solution -/
theorem bdf_step_near {order : ℤ} (h0 : 0 < order) (h6 : order ≤ 6) (hla : la.Exact) {R L B Jb : ℝ} (hL : 0 ≤ L) (hB : 0 ≤ B) (hJ : 0 ≤ Jb)
    (hub : ∀ t ∈ Icc t0 t1, ‖u t‖ ≤ R)
    (hlip : ∀ t ∈ Icc t0 t1, ∀ y z, ‖y‖ ≤ R + 100 → ‖z‖ ≤ R + 100 → ‖fn.fn t y - fn.fn t z‖ ≤ L * ‖y - z‖)
    (hfb : ∀ t ∈ Icc t0 t1, ∀ y, ‖y‖ ≤ R + 100 → ‖fn.fn t y‖ ≤ B)
    (hulip : ∀ s ∈ Icc t0 t1, ∀ t ∈ Icc t0 t1, ‖u s - u t‖ ≤ B * |s - t|)
    (hjac : ∀ t ∈ Icc t0 t1, ∀ y, ‖y‖ ≤ R + 100 → ∀ v, ‖(Matrix.of (fn.jac t y)).mulVec v‖ ≤ Jb * ‖v‖)
    {h : ℝ} (hh : 0 < h) (hs1 : h * (Jb + L) ≤ 1 / 4) (hs2 : 67 * B * h ≤ 1) {y : ℕ → Fin n → ℝ} {i : ℕ} {σ : ℝ}
    (hki : order.toNat ≤ i) (hiT : t0 + (i : ℝ) * h ≤ t1) (hle1 : ∀ l < i, ‖y l - u (t0 + l * h)‖ ≤ 1)
    (hσ : ∀ j < order.toNat, ‖y (i - 1 - j) - u (t0 + (i - 1 - j : ℕ) * h)‖ ≤ σ) {y' : Vec ℝ n} {st st' : NewtonStatus ℝ}
    (hn : newtonIterate la (bdfEq fn order h (t0 + i * h) fun j => y (i - 1 - j)) (y (i - 1)) bdfNewton st true =
      some (.ret (y', st'))) :
    st'.conv = 0 ∧ ‖y'‖ ≤ R + 100 ∧
      ‖(bdfEq fn order h (t0 + i * h) fun j => y (i - 1 - j)).fn y'‖ ≤ 2 * (h * (Jb + L)) * (22 * σ + 67 * B * h) ∧
      ‖(bdfEq fn order h (t0 + i * h) fun j => y (i - 1 - j)).fn y'‖ ≤ h * (Jb + L) * (1 / 10 ^ 10) := by
  have hm : ∀ l ≤ i, t0 + (l : ℝ) * h ∈ Icc t0 t1 := by
    intro l hl
    have : (l : ℝ) * h ≤ i * h := mul_le_mul_of_nonneg_right (by exact_mod_cast hl) hh.le
    exact ⟨by have : 0 ≤ (l : ℝ) * h := by positivity
              linarith, by linarith⟩
  have hti := hm i le_rfl
  have hd : ∀ j < order.toNat, ‖u (t0 + (i - 1 - j : ℕ) * h) - u (t0 + (i - 1 - 0 : ℕ) * h)‖ ≤ B * (6 * h) := by
    intro j hj
    refine (hulip _ (hm _ (by omega)) _ (hm _ (by omega))).trans (mul_le_mul_of_nonneg_left ?_ hB)
    have hj' : ((i - 1 - j : ℕ) : ℝ) = ((i - 1 - 0 : ℕ) : ℝ) - j := by
      rw [← Nat.cast_sub (by omega), Nat.sub_zero]
    rw [hj', show t0 + (((i - 1 - 0 : ℕ) : ℝ) - j) * h - (t0 + ((i - 1 - 0 : ℕ) : ℝ) * h) = -(j * h) by ring, abs_neg,
      abs_of_nonneg (by positivity)]
    exact mul_le_mul_of_nonneg_right (by exact_mod_cast (show j ≤ 6 by omega)) hh.le
  exact bdf_newton h0 h6 hla (v := fun j => y (i - 1 - j)) (U := fun j => u (t0 + (i - 1 - j : ℕ) * h)) hh.le hB hL hJ hσ
    (fun j hj => hle1 _ (by omega)) hd (hub _ (hm _ (by omega))) (hlip _ hti) (hfb _ hti) (hjac _ hti) hs1 hs2 hn

/-- BDF steps of order 1 to 6 with the Newton solver of the code, from constant starting values: first order; and near
the solution the solver never fails -/
theorem bdf_first_order {order : ℤ} (h0 : 0 < order) (h6 : order ≤ 6) (hla : la.Exact) (ht : t0 ≤ t1)
    (hf : ContDiff ℝ 1 fun q : ℝ × (Fin n → ℝ) => fn.fn q.1 q.2)
    (hj : Continuous fun q : ℝ × (Fin n → ℝ) => fn.jac q.1 q.2)
    (hu : ∀ t ∈ Icc t0 t1, HasDerivWithinAt u (fn.fn t (u t)) (Icc t0 t1) t) :
    ∃ C η : ℝ, 0 ≤ C ∧ 0 < η ∧ ∀ (h : ℝ) (M : ℕ) (y : ℕ → Fin n → ℝ), 0 < h → h ≤ η → t0 + M * h ≤ t1 →
      (∀ i < order.toNat + 1, y i = u t0) →
      (∀ i, order.toNat + 1 ≤ i → i ≤ M → ∃ st st', newtonIterate la (bdfEq fn order h (t0 + i * h) fun j => y (i - 1 - j))
        (y (i - 1)) bdfNewton st true = some (.ret (y i, st'))) →
      (∀ i ≤ M, ‖y i - u (t0 + i * h)‖ ≤ C * h) ∧
      (order.toNat ≤ M → t0 + (M + 1 : ℕ) * h ≤ t1 → ∀ y' st st',
        newtonIterate la (bdfEq fn order h (t0 + (M + 1 : ℕ) * h) fun j => y (M - j))
          (y M) bdfNewton st true = some (.ret (y', st')) → st'.conv = 0) := by
  obtain ⟨R, L, B, K, hR, hL, hB, hK, hub, hlip, hfb, hulip, hcons⟩ := solution_facts hf hu
  obtain ⟨Jb, hJ, hjac⟩ := jac_bounded hj t0 t1 (R + 100)
  set k := order.toNat with hk
  have hk1 : 1 ≤ k := by omega
  have hk6 : k ≤ 6 := by omega
  have hγ := bdfAbs_le h0 h6
  have hγ0 : 0 ≤ bdfAbs order := Finset.sum_nonneg fun _ _ => abs_nonneg _
  obtain ⟨hw0, hw1⟩ := bdfW_bounds h0 h6
  obtain ⟨κ, b, hcert, hb⟩ := bdf_certificate h0 h6
  obtain ⟨C, η, hC, hη, hmain⟩ := multistep_first_order (E := Fin n → ℝ) (w := List.replicate (k + 1) 1) hcert hb
    (a1 := 7 * (B * 7)) (A1 := L + 44 * (Jb + L)) (τ1 := 134 * ((Jb + L) * B) + 11 * (K * 36)) (T := t1 - t0)
    (by positivity) (by positivity) (by positivity) (by linarith) le_rfl
  refine ⟨C, min η (min (1 / (C + 1)) (min (1 / (4 * (Jb + L) + 1)) (1 / (67 * B + 1)))), hC, by positivity, ?_⟩
  intro h M y hh hle hM hstart hstep
  have hle1 : h ≤ η := hle.trans (min_le_left _ _)
  have hle' := hle.trans (min_le_right _ _)
  have hCh : C * h ≤ 1 := by
    have : h ≤ 1 / (C + 1) := hle'.trans (min_le_left _ _)
    rw [le_div_iff₀ (by positivity)] at this
    nlinarith
  have hs1 : h * (Jb + L) ≤ 1 / 4 := by
    have : h ≤ 1 / (4 * (Jb + L) + 1) := hle'.trans ((min_le_right _ _).trans (min_le_left _ _))
    rw [le_div_iff₀ (by positivity)] at this
    nlinarith
  have hs2 : 67 * B * h ≤ 1 := by
    have : h ≤ 1 / (67 * B + 1) := hle'.trans ((min_le_right _ _).trans (min_le_right _ _))
    rw [le_div_iff₀ (by positivity)] at this
    nlinarith
  have hmem : ∀ (P i : ℕ), t0 + P * h ≤ t1 → i ≤ P → t0 + (i : ℝ) * h ∈ Icc t0 t1 := by
    intro P i hP hi
    have : (i : ℝ) * h ≤ P * h := mul_le_mul_of_nonneg_right (by exact_mod_cast hi) hh.le
    exact ⟨by have : 0 ≤ (i : ℝ) * h := by positivity
              linarith, by linarith⟩
  have hdiff : ∀ (i j : ℕ), t0 + (i : ℝ) * h ∈ Icc t0 t1 → t0 + (j : ℝ) * h ∈ Icc t0 t1 → j ≤ i →
      ‖u (t0 + j * h) - u (t0 + i * h)‖ ≤ B * ((i - j : ℕ) * h) := by
    intro i j hi hj hji
    refine (hulip _ hj _ hi).trans (mul_le_mul_of_nonneg_left (le_of_eq ?_) hB)
    rw [Nat.cast_sub hji, show t0 + (j : ℝ) * h - (t0 + i * h) = -((i - j : ℝ) * h) by ring, abs_neg, abs_of_nonneg]
    have : (j : ℝ) ≤ i := by exact_mod_cast hji
    exact mul_nonneg (by linarith) hh.le
  -- one step
  have hone : ∀ (i : ℕ) (σ : ℝ), k ≤ i → 1 ≤ i → t0 + (i : ℝ) * h ≤ t1 → (∀ l < i, ‖y l - u (t0 + l * h)‖ ≤ 1) →
      (∀ j < k, ‖y (i - 1 - j) - u (t0 + (i - 1 - j : ℕ) * h)‖ ≤ σ) → ∀ y' st st',
      newtonIterate la (bdfEq fn order h (t0 + i * h) fun j => y (i - 1 - j)) (y (i - 1)) bdfNewton st true =
        some (.ret (y', st')) →
      st'.conv = 0 ∧ ‖y'‖ ≤ R + 100 ∧
        ‖(bdfEq fn order h (t0 + i * h) fun j => y (i - 1 - j)).fn y'‖ ≤ 2 * (h * (Jb + L)) * (22 * σ + 67 * B * h) := by
    intro i σ hki hi1 hiT hle1 hσ y' st st' hn
    obtain ⟨c1, c2, c3, -⟩ := bdf_step_near h0 h6 hla hL hB hJ hub hlip hfb hulip hjac hh hs1 hs2 hki hiT hle1 hσ hn
    exact ⟨c1, c2, c3⟩
  have herr : ∀ i ≤ M, ‖y i - u (t0 + i * h)‖ ≤ C * h := by
    refine hmain h M (min (k + 1) (M + 1)) (fun i => y i - u (t0 + i * h)) hh.le hle1 (by linarith) ?_ ?_
    · have hle1 : ∀ i ∈ Finset.range (min (k + 1) (M + 1)), ‖y i - u (t0 + i * h)‖ ≤ B * 7 * h := by
        intro i hi
        rw [Finset.mem_range, lt_min_iff] at hi
        rw [hstart i hi.1]
        have := hdiff i 0 (hmem M i hM (by omega)) (hmem M 0 hM (by omega)) (by omega)
        rw [Nat.cast_zero, zero_mul, add_zero] at this
        refine this.trans ?_
        rw [mul_assoc]
        refine mul_le_mul_of_nonneg_left (mul_le_mul_of_nonneg_right ?_ hh.le) hB
        exact_mod_cast (show i - 0 ≤ 7 by omega)
      refine (Finset.sum_le_sum hle1).trans ?_
      rw [Finset.sum_const, Finset.card_range, nsmul_eq_mul]
      have : ((min (k + 1) (M + 1) : ℕ) : ℝ) ≤ 7 := by exact_mod_cast (min_le_left _ _).trans (by omega)
      calc _ ≤ (7 : ℝ) * (B * 7 * h) := mul_le_mul_of_nonneg_right this (by positivity)
        _ = _ := by ring
    · intro i hi hiM hguard
      have hki : k + 1 ≤ i := by omega
      have hm : ∀ l ≤ i, t0 + (l : ℝ) * h ∈ Icc t0 t1 := fun l hl => hmem M l hM (by omega)
      have hti := hm i le_rfl
      rw [lconv_bdfRho order _ (by omega), lconv_ones k _ (by omega)]
      set e : ℕ → Fin n → ℝ := fun i => y i - u (t0 + i * h) with he
      change ‖e i + ∑ j ∈ Finset.range k, (bdfC order j : ℝ) • e (i - 1 - j)‖ ≤
        (L + 44 * (Jb + L)) * h * (‖e i‖ + ∑ j ∈ Finset.range k, ‖e (i - 1 - j)‖) + _
      set es := ∑ j ∈ Finset.range k, ‖e (i - 1 - j)‖ with hes
      have hes0 : 0 ≤ es := Finset.sum_nonneg fun _ _ => norm_nonneg _
      obtain ⟨st, st', hn⟩ := hstep i hki hiM
      obtain ⟨-, hyR, hres⟩ := hone i es (by omega) (by omega) hti.2 hguard
        (fun j hj => Finset.single_le_sum (f := fun j => ‖e (i - 1 - j)‖) (fun _ _ => norm_nonneg _) (Finset.mem_range.2 hj)) _ _ _ hn
      set τ : Fin n → ℝ := ∑ j ∈ Finset.range k, (bdfC order j : ℝ) •
        (u (t0 + (i - 1 - j : ℕ) * h) - u (t0 + i * h) - ((t0 + (i - 1 - j : ℕ) * h) - (t0 + i * h)) • fn.fn (t0 + i * h) (u (t0 + i * h))) with hτ
      have hτe : τ = u (t0 + i * h) + ∑ j ∈ Finset.range k, (bdfC order j : ℝ) • u (t0 + (i - 1 - j : ℕ) * h) -
          (h * bdfW order) • fn.fn (t0 + i * h) (u (t0 + i * h)) := by
        have e1 : ∀ j ∈ Finset.range k, (bdfC order j : ℝ) • (u (t0 + (i - 1 - j : ℕ) * h) - u (t0 + i * h) -
            ((t0 + (i - 1 - j : ℕ) * h) - (t0 + i * h)) • fn.fn (t0 + i * h) (u (t0 + i * h))) =
            (bdfC order j : ℝ) • u (t0 + (i - 1 - j : ℕ) * h) - (bdfC order j : ℝ) • u (t0 + i * h) -
            ((bdfC order j : ℝ) * (-(j + 1)) * h) • fn.fn (t0 + i * h) (u (t0 + i * h)) := by
          intro j hj
          have hj' := Finset.mem_range.1 hj
          have e2 : (t0 + ((i - 1 - j : ℕ) : ℝ) * h) - (t0 + i * h) = -(j + 1) * h := by
            have : ((i - 1 - j : ℕ) : ℝ) = (i : ℝ) - 1 - j := by
              rw [Nat.cast_sub (by omega), Nat.cast_sub (by omega)]; simp
            rw [this]; ring
          rw [e2, smul_sub, smul_sub, smul_smul, ← mul_assoc]
        rw [hτ, Finset.sum_congr rfl e1, Finset.sum_sub_distrib, Finset.sum_sub_distrib, ← Finset.sum_smul, ← Finset.sum_smul,
          ← Finset.sum_mul, bdfC_sum h0 h6, bdfC_moment h0 h6, neg_smul, one_smul, mul_comm (bdfW order) h, sub_neg_eq_add,
          add_comm (u _)]
      have hτn : ‖τ‖ ≤ 11 * (K * 36) * h ^ 2 := by
        have : ‖τ‖ ≤ bdfAbs order * (K * 36 * h ^ 2) := by
          rw [hτ, bdfAbs, Finset.sum_mul]
          refine (norm_sum_le _ _).trans (Finset.sum_le_sum fun j hj => ?_)
          have hj' := Finset.mem_range.1 hj
          rw [norm_smul, Real.norm_eq_abs]
          refine mul_le_mul_of_nonneg_left ((hcons _ (hm _ (by omega)) _ hti).trans ?_) (abs_nonneg _)
          have e2 : (t0 + ((i - 1 - j : ℕ) : ℝ) * h) - (t0 + i * h) = -((j + 1) * h) := by
            have : ((i - 1 - j : ℕ) : ℝ) = (i : ℝ) - 1 - j := by
              rw [Nat.cast_sub (by omega), Nat.cast_sub (by omega)]; simp
            rw [this]; ring
          rw [e2, neg_sq, mul_pow, mul_assoc]
          refine mul_le_mul_of_nonneg_left (mul_le_mul_of_nonneg_right ?_ (sq_nonneg _)) hK
          have : (j : ℝ) + 1 ≤ 6 := by exact_mod_cast (show j + 1 ≤ 6 by omega)
          have h1 : (0 : ℝ) ≤ j := Nat.cast_nonneg _
          nlinarith
        refine this.trans ?_
        have := mul_le_mul_of_nonneg_right hγ (show 0 ≤ K * 36 * h ^ 2 by positivity)
        linarith
      have hsplit : e i + ∑ j ∈ Finset.range k, (bdfC order j : ℝ) • e (i - 1 - j) =
          (bdfEq fn order h (t0 + i * h) fun j => y (i - 1 - j)).fn (y i) +
          (h * (bdfW order : ℝ)) • (fn.fn (t0 + i * h) (y i) - fn.fn (t0 + i * h) (u (t0 + i * h))) - τ := by
        rw [bdfEq_vec, hτe]
        simp only [he, smul_sub, Finset.sum_sub_distrib]
        abel
      rw [hsplit]
      have hfl : ‖(h * (bdfW order : ℝ)) • (fn.fn (t0 + i * h) (y i) - fn.fn (t0 + i * h) (u (t0 + i * h)))‖ ≤ h * (L * ‖e i‖) := by
        rw [norm_smul, Real.norm_eq_abs, abs_of_nonneg (mul_nonneg hh.le hw0)]
        refine mul_le_mul (by nlinarith) (hlip _ hti _ _ hyR (by linarith [hub _ hti])) (norm_nonneg _) hh.le
      have t1 := norm_sub_le ((bdfEq fn order h (t0 + i * h) fun j => y (i - 1 - j)).fn (y i) +
          (h * (bdfW order : ℝ)) • (fn.fn (t0 + i * h) (y i) - fn.fn (t0 + i * h) (u (t0 + i * h)))) τ
      have t2 := norm_add_le ((bdfEq fn order h (t0 + i * h) fun j => y (i - 1 - j)).fn (y i))
          ((h * (bdfW order : ℝ)) • (fn.fn (t0 + i * h) (y i) - fn.fn (t0 + i * h) (u (t0 + i * h))))
      have p1 : 0 ≤ 44 * (Jb + L) * h * ‖e i‖ := by positivity
      have p2 : 0 ≤ L * h * es := by positivity
      nlinarith
  refine ⟨herr, fun hkM hM1 y' st st' hn => ?_⟩
  have := hone (M + 1) 1 (by omega) (by omega) hM1 (fun l hl => (herr l (by omega)).trans hCh)
    (fun j hj => (herr _ (by omega)).trans hCh) y' st st' hn
  exact this.1

end bdf

end Verif
