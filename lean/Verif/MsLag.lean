import Verif.MsOrder

/-!
# The delay of the Adams-Bashforth recursion started from equal values
-/

namespace Verif
open Set

variable {n : ℕ} {f : ℝ → (Fin n → ℝ) → (Fin n → ℝ)} {u : ℝ → Fin n → ℝ} {t0 t1 : ℝ}

/-- started from `k ≥ 2` equal values, the recursion of Adams-Bashforth on an autonomous problem is late by `k - 1` steps, up to
`O(h²)` -/
theorem ab_lag {order : ℤ} (h2 : 2 ≤ order) (h5 : order ≤ 5) (ht : t0 < t1) (haut : ∀ s t y, f s y = f t y)
    (hf : ContDiff ℝ order.toNat fun q : ℝ × (Fin n → ℝ) => f q.1 q.2)
    (hu : ∀ t ∈ Icc t0 t1, HasDerivWithinAt u (f t (u t)) (Icc t0 t1) t) :
    ∃ C η : ℝ, 0 ≤ C ∧ 0 < η ∧ ∀ (h : ℝ) (M : ℕ) (y : ℕ → Fin n → ℝ), 0 < h → h ≤ η → t0 + M * h ≤ t1 →
      (∀ i < order.toNat, y i = u t0) →
      (∀ i, order.toNat ≤ i → i ≤ M → y i = y (i - 1) +
        h • ∑ j ∈ Finset.range order.toNat, (abC order j : ℝ) • f (t0 + (i - 1 : ℕ) * h) (y (i - 1 - j))) →
      ∀ i ≤ M, order.toNat - 1 ≤ i → ‖y i - u (t0 + (i - (order.toNat - 1) : ℕ) * h)‖ ≤ C * h ^ 2 := by
  have h0 : 0 < order := by omega
  have hf1 : ContDiff ℝ 1 fun q : ℝ × (Fin n → ℝ) => f q.1 q.2 := hf.of_le (by exact_mod_cast (show 1 ≤ order.toNat by omega))
  obtain ⟨C1, η1, hC1, hη1, hfirst⟩ := ab_first_order h0 h5 ht.le hf1 hu
  obtain ⟨C2, η2, hC2, hη2, hord⟩ := ab_order h0 h5 ht haut hf hu
  obtain ⟨R, L, B, K, hR, hL, hB, hK, hub, hlip, -, hulip, hcons⟩ := solution_facts hf1 hu
  set k := order.toNat with hk
  have hk2 : 2 ≤ k := by omega
  have hk5 : k ≤ 5 := by omega
  have hγ : 0 ≤ abAbs order := Finset.sum_nonneg fun _ _ => abs_nonneg _
  set E := abAbs order * (L * (2 * C1 + B * 5)) + K with hE
  have hE0 : 0 ≤ E := by positivity
  refine ⟨C2 * (32 * E + 1), min (min η1 η2) (min (min 1 (η2 / (32 * E + 1))) (min (1 / (C1 + 1)) (1 / (L + 1)))), by positivity,
    by positivity, ?_⟩
  intro h M y hh hle hM hstart hstep i hiM hki
  have hle1 : h ≤ η1 := hle.trans ((min_le_left _ _).trans (min_le_left _ _))
  have hle2 : h ≤ η2 := hle.trans ((min_le_left _ _).trans (min_le_right _ _))
  have hle' := hle.trans (min_le_right _ _)
  have hh1 : h ≤ 1 := hle'.trans ((min_le_left _ _).trans (min_le_left _ _))
  have hh2 : h ≤ η2 / (32 * E + 1) := hle'.trans ((min_le_left _ _).trans (min_le_right _ _))
  have hC1h : C1 * h ≤ 1 := by
    have : h ≤ 1 / (C1 + 1) := hle'.trans ((min_le_right _ _).trans (min_le_left _ _))
    rw [le_div_iff₀ (by positivity)] at this
    nlinarith
  have hLh : h * L ≤ 1 := by
    have : h ≤ 1 / (L + 1) := hle'.trans ((min_le_right _ _).trans (min_le_right _ _))
    rw [le_div_iff₀ (by positivity)] at this
    nlinarith
  have hmem : ∀ i ≤ M, t0 + (i : ℝ) * h ∈ Icc t0 t1 := fun i hi => grid_mem hh.le hM hi
  have hone := hfirst h M y hh hle1 hM hstart hstep
  have hyR : ∀ i ≤ M, ‖y i‖ ≤ R + 100 := by
    intro i hi
    have a1 := hub _ (hmem i hi)
    have a2 := hone i hi
    have a3 : ‖y i‖ ≤ ‖y i - u (t0 + i * h)‖ + ‖u (t0 + i * h)‖ := by
      have := norm_add_le (y i - u (t0 + i * h)) (u (t0 + i * h))
      rwa [sub_add_cancel] at this
    linarith
  have hdist : ∀ i ≤ M, ∀ j < k, ‖y (i - j) - y i‖ ≤ (2 * C1 + B * 5) * h := by
    intro i hi j hj
    have a1 := hone i hi
    have a2 := hone (i - j) (by omega)
    have a3 := hulip _ (hmem (i - j) (by omega)) _ (hmem i hi)
    have a4 : |t0 + ((i - j : ℕ) : ℝ) * h - (t0 + (i : ℝ) * h)| ≤ 5 * h := by
      have e : t0 + ((i - j : ℕ) : ℝ) * h - (t0 + (i : ℝ) * h) = -((i : ℝ) - (i - j : ℕ)) * h := by ring
      have b1 : ((i - j : ℕ) : ℝ) ≤ i := by exact_mod_cast Nat.sub_le i j
      have b2 : (i : ℝ) ≤ (i - j : ℕ) + 5 := by exact_mod_cast (show i ≤ i - j + 5 by omega)
      rw [e, neg_mul, abs_neg, abs_of_nonneg (mul_nonneg (by linarith) hh.le)]
      exact mul_le_mul_of_nonneg_right (by linarith) hh.le
    have a5 : ‖u (t0 + (i - j : ℕ) * h) - u (t0 + i * h)‖ ≤ B * (5 * h) := a3.trans (mul_le_mul_of_nonneg_left a4 hB)
    have e : y (i - j) - y i = (y (i - j) - u (t0 + (i - j : ℕ) * h)) + (u (t0 + (i - j : ℕ) * h) - u (t0 + i * h))
        - (y i - u (t0 + i * h)) := by abel
    rw [e]
    refine (norm_sub_le _ _).trans ?_
    have a6 := norm_add_le (y (i - j) - u (t0 + (i - j : ℕ) * h)) (u (t0 + (i - j : ℕ) * h) - u (t0 + i * h))
    linarith
  -- the first values after the bootstrap
  have hearly : ∀ m, m < k → m + (k - 1) ≤ M → ‖y (m + (k - 1)) - u (t0 + m * h)‖ ≤ (2 ^ m - 1) * (E * h ^ 2) := by
    intro m
    induction m with
    | zero =>
      intro _ _
      rw [hstart _ (by omega)]
      simp
    | succ m ih =>
      intro hm hmM
      have ih' := ih (by omega) (by omega)
      have hi1 : m + 1 + (k - 1) - 1 = m + (k - 1) := by omega
      have hst := hstep (m + 1 + (k - 1)) (by omega) hmM
      rw [hi1] at hst
      set p := m + (k - 1) with hp
      have htm : t0 + (m : ℝ) * h ∈ Icc t0 t1 := hmem m (by omega)
      have hc := hcons _ (hmem (m + 1) (by omega)) _ htm
      rw [show t0 + ((m + 1 : ℕ) : ℝ) * h - (t0 + (m : ℝ) * h) = h by push_cast; ring] at hc
      have hl1 : ‖f (t0 + m * h) (y p) - f (t0 + m * h) (u (t0 + m * h))‖ ≤ L * ‖y p - u (t0 + m * h)‖ :=
        hlip _ htm _ _ (hyR p (by omega)) ((hub _ htm).trans (by linarith))
      have hsum : ‖∑ j ∈ Finset.range k, (abC order j : ℝ) • (f (t0 + m * h) (y (p - j)) - f (t0 + m * h) (y p))‖ ≤
          abAbs order * (L * (2 * C1 + B * 5)) * h := by
        refine (norm_sum_le _ _).trans ?_
        have : ∀ j ∈ Finset.range k, ‖(abC order j : ℝ) • (f (t0 + m * h) (y (p - j)) - f (t0 + m * h) (y p))‖ ≤
            |(abC order j : ℝ)| * (L * (2 * C1 + B * 5) * h) := by
          intro j hj
          rw [norm_smul, Real.norm_eq_abs]
          refine mul_le_mul_of_nonneg_left ?_ (abs_nonneg _)
          refine (hlip _ htm _ _ (hyR _ (by omega)) (hyR _ (by omega))).trans ?_
          have := mul_le_mul_of_nonneg_left (hdist p (by omega) j (Finset.mem_range.1 hj)) hL
          linarith
        refine (Finset.sum_le_sum this).trans (le_of_eq ?_)
        rw [← Finset.sum_mul, show abAbs order = ∑ j ∈ Finset.range k, |(abC order j : ℝ)| from rfl]
        ring
      have hst' : y (m + 1 + (k - 1)) = y p + h • f (t0 + m * h) (y p) +
          h • ∑ j ∈ Finset.range k, (abC order j : ℝ) • (f (t0 + m * h) (y (p - j)) - f (t0 + m * h) (y p)) := by
        rw [hst]
        simp only [smul_sub, Finset.sum_sub_distrib, ← Finset.sum_smul]
        rw [Finset.sum_congr rfl fun j _ => by rw [haut (t0 + (p : ℝ) * h) (t0 + (m : ℝ) * h) (y (p - j))]]
        rw [show ∑ i ∈ Finset.range k, (abC order i : ℝ) = 1 from abC_sum h0 h5, one_smul]
        abel
      have e : y (m + 1 + (k - 1)) - u (t0 + (m + 1 : ℕ) * h) = (y p - u (t0 + m * h)) +
          h • (f (t0 + m * h) (y p) - f (t0 + m * h) (u (t0 + m * h))) +
          h • (∑ j ∈ Finset.range k, (abC order j : ℝ) • (f (t0 + m * h) (y (p - j)) - f (t0 + m * h) (y p))) -
          (u (t0 + (m + 1 : ℕ) * h) - u (t0 + m * h) - h • f (t0 + m * h) (u (t0 + m * h))) := by
        rw [hst', smul_sub]
        abel
      rw [e]
      refine (norm_sub_le _ _).trans ?_
      have n1 := norm_add_le ((y p - u (t0 + m * h)) + h • (f (t0 + m * h) (y p) - f (t0 + m * h) (u (t0 + m * h))))
        (h • (∑ j ∈ Finset.range k, (abC order j : ℝ) • (f (t0 + m * h) (y (p - j)) - f (t0 + m * h) (y p))))
      have n2 := norm_add_le (y p - u (t0 + m * h)) (h • (f (t0 + m * h) (y p) - f (t0 + m * h) (u (t0 + m * h))))
      rw [norm_smul, Real.norm_of_nonneg hh.le] at n1 n2
      have n3 := mul_le_mul_of_nonneg_left hl1 hh.le
      have n4 := mul_le_mul_of_nonneg_left hsum hh.le
      have n5 : h * (L * ‖y p - u (t0 + m * h)‖) ≤ 1 * ‖y p - u (t0 + m * h)‖ := by
        rw [← mul_assoc]
        exact mul_le_mul_of_nonneg_right hLh (norm_nonneg _)
      have n6 : (2 ^ (m + 1) - 1 : ℝ) * (E * h ^ 2) = 2 * ((2 ^ m - 1) * (E * h ^ 2)) + E * h ^ 2 := by ring
      have n7 : E * h ^ 2 = h * (abAbs order * (L * (2 * C1 + B * 5)) * h) + K * h ^ 2 := by rw [hE]; ring
      rw [n6, n7] at *
      linarith
  have hδ : ∀ m < k, m ≤ M - (k - 1) → ‖y (m + (k - 1)) - u (t0 + m * h)‖ ≤ 32 * E * h ^ 2 := by
    intro m hm hmM
    refine (hearly m hm (by omega)).trans ?_
    have : (2 ^ m - 1 : ℝ) ≤ 32 := by
      have := pow_le_pow_right₀ (one_le_two (α := ℝ)) (show m ≤ 5 by omega)
      linarith
    have := mul_le_mul_of_nonneg_right this (show 0 ≤ E * h ^ 2 by positivity)
    linarith
  have hhη : h * (32 * E + 1) ≤ η2 := by
    rwa [le_div_iff₀ (by positivity)] at hh2
  have hδη : 32 * E * h ^ 2 ≤ η2 := by
    have a1 : 32 * E * h ^ 2 ≤ 32 * E * h := by
      have := mul_le_mul_of_nonneg_left hh1 (show 0 ≤ 32 * E * h by positivity)
      linarith [show 32 * E * h * h = 32 * E * h ^ 2 by ring]
    linarith
  have hM' : t0 + ((M - (k - 1) : ℕ) : ℝ) * h ≤ t1 := (hmem _ (Nat.sub_le _ _)).2
  have := hord h (32 * E * h ^ 2) (M - (k - 1)) (fun m => y (m + (k - 1))) hh hle2 hδη hM' hδ (fun m hm hmM => by
    have := hstep (m + (k - 1)) (by omega) (by omega)
    rw [this, show m + (k - 1) - 1 = m - 1 + (k - 1) by omega]
    congr 2
    refine Finset.sum_congr rfl fun j hj => ?_
    have hj' := Finset.mem_range.1 hj
    rw [haut (t0 + ((m - 1 + (k - 1) : ℕ) : ℝ) * h) (t0 + ((m - 1 : ℕ) : ℝ) * h),
      show m - 1 + (k - 1) - j = m - 1 - j + (k - 1) by omega]) (i - (k - 1)) (by omega)
  rw [show i - (k - 1) + (k - 1) = i by omega] at this
  refine this.trans ?_
  have hpk : h ^ k ≤ h ^ 2 := pow_le_pow_of_le_one hh.le hh1 hk2
  have := mul_le_mul_of_nonneg_left (add_le_add_right hpk (32 * E * h ^ 2)) hC2
  linarith [show C2 * (32 * E + 1) * h ^ 2 = C2 * (32 * E * h ^ 2 + h ^ 2) by ring]

end Verif
