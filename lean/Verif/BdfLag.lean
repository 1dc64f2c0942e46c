import Verif.MsOrder
import Verif.IrkComplete

/-!
# What constant starting values do to the BDF recursion
-/

set_option autoImplicit false

namespace Verif
open Set

/-! ### decaying solutions of linear recurrences -/

/-- the solution of `p_i + Σ_j q_j p_{i-1-j} = 0` with prescribed values before `N0` -/
noncomputable def homSeq (q : List ℝ) (N0 : ℕ) (g : ℕ → ℝ) : ℕ → ℝ
  | i => if i < N0 then g i else -∑ j : Fin q.length, if _h : j.1 < i then q.getD j 0 * homSeq q N0 g (i - 1 - j.1) else 0
termination_by i => i
decreasing_by omega

theorem homSeq_start (q : List ℝ) (N0 : ℕ) (g : ℕ → ℝ) {i : ℕ} (hi : i < N0) : homSeq q N0 g i = g i := by
  rw [homSeq, if_pos hi]

theorem homSeq_lconv (q : List ℝ) (N0 : ℕ) (g : ℕ → ℝ) {i : ℕ} (hi : N0 ≤ i) (hq : q.length ≤ i) :
    lconv (1 :: q) (homSeq q N0 g) i = 0 := by
  rw [lconv_eq_sum _ _ _ (by simp; omega), List.length_cons, Finset.sum_range_succ']
  simp only [List.getD_cons_succ, List.getD_cons_zero, one_smul, Nat.sub_zero]
  conv_lhs => rw [homSeq, if_neg (by omega)]
  rw [← Fin.sum_univ_eq_sum_range (fun j => q.getD j 0 • homSeq q N0 g (i - (j + 1)))]
  have : ∀ j : Fin q.length, (if h : j.1 < i then q.getD j 0 * homSeq q N0 g (i - 1 - j.1) else 0) =
      q.getD j 0 • homSeq q N0 g (i - (j + 1)) := fun j => by
    rw [dif_pos (by have := j.2; omega), smul_eq_mul, show i - (j.1 + 1) = i - 1 - j.1 by omega]
  rw [Finset.sum_congr rfl fun j _ => this j, add_neg_cancel]

theorem lconv_geo (b : List ℝ) {p : ℕ → ℝ} {C μ : ℝ} (hC : 0 ≤ C) (h0 : 0 < μ) (h1 : μ ≤ 1) {i : ℕ} (hp : ∀ l ≤ i, |p l| ≤ C * μ ^ l) :
    |lconv b p i| * μ ^ b.length ≤ C * l1 b * μ ^ i := by
  induction b generalizing i with
  | nil => simp [lconv, l1]
  | cons a l ih =>
    rw [l1_cons, List.length_cons]
    simp only [lconv, smul_eq_mul]
    have e1 : |a * p i| * μ ^ (l.length + 1) ≤ C * |a| * μ ^ i := by
      rw [abs_mul]
      calc |a| * |p i| * μ ^ (l.length + 1) ≤ |a| * |p i| * 1 :=
            mul_le_mul_of_nonneg_left (pow_le_one₀ h0.le h1) (by positivity)
        _ ≤ |a| * (C * μ ^ i) := by rw [mul_one]; exact mul_le_mul_of_nonneg_left (hp i le_rfl) (abs_nonneg _)
        _ = _ := by ring
    have e2 : |delay (lconv l p) i| * μ ^ (l.length + 1) ≤ C * l1 l * μ ^ i := by
      cases i with
      | zero => simp only [delay, abs_zero, zero_mul]; have := l1_nonneg l; positivity
      | succ i =>
        simp only [delay]
        have := mul_le_mul_of_nonneg_right (ih (i := i) fun l hl => hp l (by omega)) h0.le
        calc _ = |lconv l p i| * μ ^ l.length * μ := by ring
          _ ≤ _ := this
          _ = _ := by ring
    calc _ ≤ (|a * p i| + |delay (lconv l p) i|) * μ ^ (l.length + 1) :=
          mul_le_mul_of_nonneg_right (abs_add_le _ _) (by positivity)
      _ ≤ C * |a| * μ ^ i + C * l1 l * μ ^ i := by rw [add_mul]; exact add_le_add e1 e2
      _ = _ := by ring

theorem lconv_support (κ : List ℝ) {x : ℕ → ℝ} {N : ℕ} (hx : ∀ i, N ≤ i → x i = 0) : ∀ i, N + κ.length ≤ i → lconv κ x i = 0 := by
  induction κ with
  | nil => intro i _; rfl
  | cons a l ih =>
    intro i hi
    rw [List.length_cons] at hi
    simp only [lconv]
    rw [hx i (by omega), smul_zero, zero_add]
    cases i with
    | zero => rfl
    | succ i => exact ih i (by omega)

/-- a recurrence whose polynomial has a multiple `1 + b_1 z + …` with small `b` decays geometrically -/
theorem hom_decay {κ b q : List ℝ} (hc : lmul κ q = 1 :: b) (hb : l1 b < 1) {p : ℕ → ℝ} {N : ℕ} (hp : ∀ i, N ≤ i → lconv q p i = 0) :
    ∃ C μ : ℝ, 0 ≤ C ∧ 0 < μ ∧ μ < 1 ∧ ∀ i, |p i| ≤ C * μ ^ i := by
  obtain ⟨μ, hμ1, hμ0, hμ2⟩ : ∃ μ : ℝ, l1 b < μ ^ (b.length + 1) ∧ 0 < μ ∧ μ < 1 := by
    have h1 : ∀ᶠ x : ℝ in nhdsWithin 1 (Iio 1), l1 b < x ^ (b.length + 1) := by
      refine Filter.Eventually.filter_mono nhdsWithin_le_nhds ?_
      refine ((continuous_pow (b.length + 1)).tendsto 1).eventually (lt_mem_nhds ?_)
      rwa [one_pow]
    obtain ⟨x, h2, h3⟩ := (h1.and (Ioo_mem_nhdsLT (zero_lt_one' ℝ))).exists
    exact ⟨x, h2, h3.1, h3.2⟩
  set r := lconv κ (lconv q p) with hr
  set N1 := N + κ.length with hN1
  have hr0 : ∀ i, N1 ≤ i → r i = 0 := lconv_support κ hp
  have hrec : ∀ i, p i = r i - delay (lconv b p) i := by
    intro i
    have := congrFun (lconv_lmul κ q p) i
    rw [hc, ← hr] at this
    simp only [lconv, one_smul] at this
    linarith
  set s := l1 b / μ ^ (b.length + 1) with hs
  have hpow : 0 < μ ^ (b.length + 1) := by positivity
  have hs1 : s < 1 := by rwa [hs, div_lt_one hpow]
  have hs0 : 0 ≤ s := div_nonneg (l1_nonneg _) hpow.le
  set C := (∑ i ∈ Finset.range N1, |r i|) / ((1 - s) * μ ^ N1) with hC
  have hs1' : 0 < 1 - s := by linarith
  have hC0 : 0 ≤ C := div_nonneg (Finset.sum_nonneg fun _ _ => abs_nonneg _) (by positivity)
  have hrC : ∀ i, |r i| ≤ (1 - s) * C * μ ^ i := by
    intro i
    by_cases hi : i < N1
    · have e1 : |r i| ≤ ∑ i ∈ Finset.range N1, |r i| :=
        Finset.single_le_sum (f := fun i => |r i|) (fun _ _ => abs_nonneg _) (Finset.mem_range.2 hi)
      have e2 : (1 - s) * C * μ ^ N1 = ∑ i ∈ Finset.range N1, |r i| := by
        rw [hC]; field_simp
      refine e1.trans (e2.symm.le.trans (mul_le_mul_of_nonneg_left (pow_le_pow_of_le_one hμ0.le hμ2.le hi.le) (by positivity)))
    · rw [hr0 i (by omega), abs_zero]; positivity
  refine ⟨C, μ, hC0, hμ0, hμ2, fun i => ?_⟩
  induction i using Nat.strong_induction_on with
  | _ i ih =>
    rw [hrec i]
    refine (abs_sub _ _).trans ?_
    have e2 : |delay (lconv b p) i| ≤ s * C * μ ^ i := by
      cases i with
      | zero => simp only [delay, abs_zero]; positivity
      | succ i =>
        simp only [delay]
        have := lconv_geo b hC0 hμ0 hμ2.le (i := i) (fun l hl => ih l (by omega))
        rw [hs, div_mul_eq_mul_div, div_mul_eq_mul_div, le_div_iff₀ hpow]
        calc |lconv b p i| * μ ^ (b.length + 1) = |lconv b p i| * μ ^ b.length * μ := by ring
          _ ≤ C * l1 b * μ ^ i * μ := mul_le_mul_of_nonneg_right this hμ0.le
          _ = _ := by ring
    calc |r i| + |delay (lconv b p) i| ≤ (1 - s) * C * μ ^ i + s * C * μ ^ i := add_le_add (hrC i) e2
      _ = _ := by ring

/-! ### the parasitic part of the starting values -/

/-- the certificate of zero-stability with the root 1 divided out -/
theorem bdf_quotient {order : ℤ} (h2 : 2 ≤ order) (h6 : order ≤ 6) :
    ∃ κ b q : List ℝ, lmul κ (1 :: q) = 1 :: b ∧ l1 b < 1 ∧ lmul [1, -1] (1 :: q) = bdfRho order ∧ q.length + 1 = order.toNat ∧
      ∑ j ∈ Finset.range (q.length + 1), (1 :: q).getD j 0 * (1 / 2 + (j : ℝ)) = 0 := by
  have : order = 2 ∨ order = 3 ∨ order = 4 ∨ order = 5 ∨ order = 6 := by omega
  rcases this with rfl | rfl | rfl | rfl | rfl
  · exact ⟨[1], [-1/3], [-1/3], by simp [lmul, ladd], by norm_num [l1, abs_div],
      by simp [bdfRho, List.range_succ, bdfC, bdfRow, lmul, ladd, q, nq]; norm_num, rfl, by simp [Finset.sum_range_succ]; norm_num⟩
  · exact ⟨[1], [-7/11, 2/11], [-7/11, 2/11], by simp [lmul, ladd], by norm_num [l1, abs_div],
      by simp [bdfRho, List.range_succ, bdfC, bdfRow, lmul, ladd, q, nq]; norm_num, rfl, by simp [Finset.sum_range_succ]; norm_num⟩
  · exact ⟨[1, 7/8], [-9/200, -57/200, 67/200, -21/200], [-23/25, 13/25, -3/25], by simp [lmul, ladd]; norm_num, by norm_num [l1, abs_div],
      by simp [bdfRho, List.range_succ, bdfC, bdfRow, lmul, ladd, q, nq]; norm_num, rfl, by simp [Finset.sum_range_succ]; norm_num⟩
  · exact ⟨[1, 1, 1/2], [-26/137, 85/274, -15/274, 35/274, -39/274, 6/137], [-163/137, 137/137, -63/137, 12/137],
      by simp [lmul, ladd]; norm_num, by norm_num [l1, abs_div],
      by simp [bdfRho, List.range_succ, bdfC, bdfRow, lmul, ladd, q, nq]; norm_num, rfl, by simp [Finset.sum_range_succ]; norm_num⟩
  · exact ⟨[1, 7/5, 1/2, -1/2, -2/5], [-12/245, 41/490, -8/105, 0, -38/147, 37/1470, 146/735, -33/245, 4/147],
      [-213/147, 237/147, -163/147, 62/147, -10/147], by simp [lmul, ladd]; norm_num, by norm_num [l1, abs_div],
      by simp [bdfRho, List.range_succ, bdfC, bdfRow, lmul, ladd, q, nq]; norm_num, rfl, by simp [Finset.sum_range_succ]; norm_num⟩

/-- the solution of the homogeneous BDF recurrence that starts like `k + 1/2 - i` decays -/
theorem bdf_parasite {order : ℤ} (h2 : 2 ≤ order) (h6 : order ≤ 6) : ∃ (p : ℕ → ℝ) (C μ : ℝ), 0 ≤ C ∧ 0 < μ ∧ μ < 1 ∧
    (∀ i ≤ order.toNat, p i = order + 1 / 2 - i) ∧
    (∀ i, order.toNat + 1 ≤ i → p i + ∑ j ∈ Finset.range order.toNat, (bdfC order j : ℝ) * p (i - 1 - j) = 0) ∧ ∀ i, |p i| ≤ C * μ ^ i := by
  obtain ⟨κ, b, q, h1, hb, hρ, hlen, hsum⟩ := bdf_quotient h2 h6
  set k := order.toNat with hk
  have hkc : (order : ℝ) = (k : ℝ) := by
    have : ((k : ℕ) : ℤ) = order := by omega
    exact_mod_cast this.symm
  set p := homSeq q (k + 1) (fun i => order + 1 / 2 - i) with hp
  have hst : ∀ i ≤ k, p i = order + 1 / 2 - i := fun i hi => homSeq_start _ _ _ (by omega)
  have hq : ∀ i, k ≤ i → lconv (1 :: q) p i = 0 := by
    intro i hi
    rcases Nat.eq_or_lt_of_le hi with rfl | hlt
    · rw [lconv_eq_sum _ _ _ (by simp; omega), List.length_cons]
      refine Eq.trans ?_ hsum
      refine Finset.sum_congr rfl fun j hj => ?_
      have hj' := Finset.mem_range.1 hj
      rw [hst _ (by omega), smul_eq_mul, Nat.cast_sub (by omega), hkc]
      ring
    · exact homSeq_lconv _ _ _ (by omega) (by omega)
  obtain ⟨C, μ, hC, hμ0, hμ1, hd⟩ := hom_decay h1 hb hq
  refine ⟨p, C, μ, hC, hμ0, hμ1, hst, fun i hi => ?_, hd⟩
  have e := lconv_bdfRho order p (i := i) (by omega)
  rw [← hρ, lconv_lmul] at e
  simp only [smul_eq_mul] at e
  rw [← e]
  obtain ⟨i, rfl⟩ : ∃ l, i = l + 1 := ⟨i - 1, by omega⟩
  change (1 : ℝ) • lconv (1 :: q) p (i + 1) + ((-1 : ℝ) • lconv (1 :: q) p i + delay (fun _ => 0) i) = 0
  rw [hq _ (by omega), hq _ (by omega), delay_zero]
  simp

/-! ### stability with varying residuals -/

theorem multistep_sum {E : Type*} [NormedAddCommGroup E] [NormedSpace ℝ E] {κ b ρ w : List ℝ}
    (hc : lmul κ ρ = lmul (1 :: b) [1, -1]) (hb : l1 b < 1) {A1 T : ℝ} (hA1 : 0 ≤ A1) :
    ∃ C h0 : ℝ, 0 ≤ C ∧ 0 < h0 ∧ ∀ (h δ Θ : ℝ) (M N0 : ℕ) (e : ℕ → E) (τ : ℕ → ℝ), 0 ≤ h → h ≤ h0 → M * h ≤ T →
      (∀ i, 0 ≤ τ i) → ∑ i ∈ Finset.range (M + 1), τ i ≤ Θ → ∑ i ∈ Finset.range N0, ‖e i‖ ≤ δ →
      (∀ i, N0 ≤ i → i ≤ M → ‖lconv ρ e i‖ ≤ A1 * h * lconv w (fun l => ‖e l‖) i + τ i) →
      ∀ N ≤ M, ‖e N‖ ≤ C * (δ + Θ) := by
  set S := l1 κ / (1 - l1 b) with hS
  have hS0 : 0 ≤ S := div_nonneg (l1_nonneg _) (by linarith)
  have hr := l1_nonneg ρ
  have hw := l1_nonneg w
  set B := S * (A1 * l1 w) with hB
  have hB0 : 0 ≤ B := by positivity
  refine ⟨2 * (S * (l1 ρ + 1)) * Real.exp (2 * B * T), 1 / (2 * B + 1), by positivity, by positivity, ?_⟩
  intro h δ Θ M N0 e τ hh hle hM hτ hΘ hstart hstep
  have hδ : 0 ≤ δ := le_trans (Finset.sum_nonneg fun _ _ => norm_nonneg _) hstart
  have hΘ0 : 0 ≤ Θ := le_trans (Finset.sum_nonneg fun _ _ => hτ _) hΘ
  have hBh : B * h ≤ 1 / 2 := by
    rw [le_div_iff₀ (by positivity)] at hle
    nlinarith
  set a := S * (l1 ρ * δ + Θ) with ha
  have ha0 : 0 ≤ a := by positivity
  have hbase : ∀ N ≤ M, ‖e N‖ ≤ a + B * h * ∑ i ∈ Finset.range (N + 1), ‖e i‖ := by
    intro N hN
    have hz := zero_stable hc hb e N
    have hres : ∑ i ∈ Finset.range (N + 1), ‖lconv ρ e i‖ ≤
        l1 ρ * δ + Θ + A1 * h * (l1 w * ∑ i ∈ Finset.range (N + 1), ‖e i‖) := by
      have hle : ∀ i ∈ Finset.range (N + 1), ‖lconv ρ e i‖ ≤ (if i < N0 then ‖lconv ρ e i‖ else 0) +
          (τ i + A1 * h * ‖lconv w (fun l => ‖e l‖) i‖) := by
        intro i hi
        have hi' := Finset.mem_range.mp hi
        by_cases hin : i < N0
        · rw [if_pos hin]
          have : 0 ≤ A1 * h * ‖lconv w (fun l => ‖e l‖) i‖ := by positivity
          linarith [hτ i]
        · rw [if_neg hin, zero_add]
          refine (hstep i (by omega) (by omega)).trans ?_
          have := mul_le_mul_of_nonneg_left (le_abs_self (lconv w (fun l => ‖e l‖) i)) (show 0 ≤ A1 * h by positivity)
          rw [← Real.norm_eq_abs] at this
          linarith
      refine (Finset.sum_le_sum hle).trans ?_
      rw [Finset.sum_add_distrib, Finset.sum_add_distrib, ← Finset.mul_sum, add_assoc]
      refine add_le_add ?_ (add_le_add ?_ ?_)
      · rw [← Finset.sum_filter]
        refine (Finset.sum_le_sum_of_subset_of_nonneg (t := Finset.range N0) (fun i hi => ?_) fun _ _ _ => norm_nonneg _).trans
          ((sum_lconv ρ e N0).trans (mul_le_mul_of_nonneg_left hstart hr))
        simp only [Finset.mem_filter] at hi
        exact Finset.mem_range.2 hi.2
      · exact (Finset.sum_le_sum_of_subset_of_nonneg (Finset.range_mono (by omega)) fun i _ _ => hτ i).trans hΘ
      · refine mul_le_mul_of_nonneg_left ((sum_lconv w (fun l => ‖e l‖) (N + 1)).trans_eq ?_) (by positivity)
        simp
    calc ‖e N‖ ≤ _ := hz
      _ ≤ S * (l1 ρ * δ + Θ + A1 * h * (l1 w * ∑ i ∈ Finset.range (N + 1), ‖e i‖)) := mul_le_mul_of_nonneg_left hres hS0
      _ = _ := by rw [ha, hB]; ring
  set X := 2 * a * Real.exp (2 * (B * h) * M) with hX
  have hX0 : 0 ≤ X := by positivity
  set ε := 1 / (X + 1) with hε
  have hε0 : 0 < ε := by positivity
  have hεX : ε * X ≤ 1 := by
    rw [hε, one_div_mul_eq_div, div_le_one (by linarith)]; linarith
  have hg := gronwall_guard (x := fun i => ε * ‖e i‖) (a := ε * a) (b := B * h) (M := M) (fun i => by positivity) (by positivity)
    (by positivity) hBh (by rw [hX] at hεX; linarith) (fun N hN _ => by
      have := mul_le_mul_of_nonneg_left (hbase N hN) hε0.le
      rw [← Finset.mul_sum]
      linarith)
  intro N hN
  have h1 := hg N hN
  have h2 : ‖e N‖ ≤ 2 * a * Real.exp (2 * (B * h) * N) := by
    refine le_of_mul_le_mul_left ?_ hε0
    linarith
  refine h2.trans ?_
  have h3 : Real.exp (2 * (B * h) * N) ≤ Real.exp (2 * B * T) := by
    refine Real.exp_le_exp.2 ?_
    have : (N : ℝ) * h ≤ T := (mul_le_mul_of_nonneg_right (by exact_mod_cast hN) hh).trans hM
    calc 2 * (B * h) * N = 2 * B * (N * h) := by ring
      _ ≤ _ := mul_le_mul_of_nonneg_left this (by positivity)
  have h4 : a ≤ S * (l1 ρ + 1) * (δ + Θ) := by
    have : 0 ≤ S * (l1 ρ * Θ + δ) := by positivity
    rw [ha]; nlinarith
  calc 2 * a * Real.exp (2 * (B * h) * N) ≤ 2 * (S * (l1 ρ + 1) * (δ + Θ)) * Real.exp (2 * B * T) :=
        mul_le_mul (by linarith) h3 (Real.exp_pos _).le (by positivity)
    _ = _ := by ring

/-! ### the variational equation along a solution -/

section variation
variable {n : ℕ} {f : ℝ → (Fin n → ℝ) → (Fin n → ℝ)} {u w : ℝ → Fin n → ℝ} {t0 t1 : ℝ}

/-- bounds for the linearisation along a solution and for a solution of the variational equation -/
theorem variation_facts (hf : ContDiff ℝ 2 fun q : ℝ × (Fin n → ℝ) => f q.1 q.2)
    (hu : ∀ t ∈ Icc t0 t1, HasDerivWithinAt u (f t (u t)) (Icc t0 t1) t)
    (hw : ∀ t ∈ Icc t0 t1, HasDerivWithinAt w (fderiv ℝ (f t) (u t) (w t)) (Icc t0 t1) t) :
    ∃ K : ℝ, 0 ≤ K ∧
      (∀ t ∈ Icc t0 t1, ∀ δ, ‖δ‖ ≤ 1 → ‖f t (u t + δ) - f t (u t) - fderiv ℝ (f t) (u t) δ‖ ≤ K * ‖δ‖ ^ 2) ∧
      (∀ t ∈ Icc t0 t1, ∀ δ, ‖fderiv ℝ (f t) (u t) δ‖ ≤ K * ‖δ‖) ∧
      (∀ t ∈ Icc t0 t1, ‖w t‖ ≤ K) ∧
      (∀ s ∈ Icc t0 t1, ∀ t ∈ Icc t0 t1, ‖w s - w t‖ ≤ K * |s - t|) ∧
      ∀ s ∈ Icc t0 t1, ∀ t ∈ Icc t0 t1, ‖w s - w t - (s - t) • fderiv ℝ (f t) (u t) (w t)‖ ≤ K * (s - t) ^ 2 := by
  obtain ⟨R, -, B, -, hR, -, hB, -, hub, -, -, hulip, -⟩ := solution_facts (hf.of_le (by norm_num)) hu
  set F : ℝ × (Fin n → ℝ) → (Fin n → ℝ) := fun q => f q.1 q.2 with hF
  set G : ℝ × (Fin n → ℝ) → ((Fin n → ℝ) →L[ℝ] (Fin n → ℝ)) := fun q => (fderiv ℝ F q).comp (ContinuousLinearMap.inr ℝ ℝ (Fin n → ℝ)) with hG
  have hGc : ContDiff ℝ 1 G := (hf.fderiv_right (m := 1) (by norm_num)).clm_comp contDiff_const
  have hd : ∀ t y, HasFDerivAt (f t) (G (t, y)) y := by
    intro t y
    have h1 : HasFDerivAt F (fderiv ℝ F (t, y)) (t, y) := (hf.differentiable (by norm_num)).differentiableAt.hasFDerivAt
    exact h1.comp y (hasFDerivAt_prodMk_right t y)
  have hA : ∀ t y, fderiv ℝ (f t) y = G (t, y) := fun t y => (hd t y).fderiv
  simp only [hA] at hw ⊢
  set ρ := max (max |t0| |t1|) (R + 1) with hρ
  have hin : ∀ t ∈ Icc t0 t1, ∀ y : Fin n → ℝ, ‖y‖ ≤ R + 1 → ‖((t, y) : ℝ × (Fin n → ℝ))‖ ≤ ρ := by
    intro t ht y hy
    rw [Prod.norm_def, hρ]
    refine max_le (le_trans ?_ (le_max_left _ _)) (hy.trans (le_max_right _ _))
    rw [Real.norm_eq_abs]
    exact abs_le_max_abs_abs ht.1 ht.2
  obtain ⟨L, hL, hLip⟩ := lipschitz_ball' hGc ρ
  obtain ⟨KA', hKA'⟩ := (isCompact_closedBall (0 : ℝ × (Fin n → ℝ)) ρ).exists_bound_of_continuousOn hGc.continuous.continuousOn
  have hcw : ContinuousOn w (Icc t0 t1) := fun t ht => (hw t ht).continuousWithinAt
  obtain ⟨Bw', hBw'⟩ := isCompact_Icc.exists_bound_of_continuousOn hcw
  set KA := max KA' 0 with hKAdef
  set Bw := max Bw' 0 with hBwdef
  have hKA0 : 0 ≤ KA := le_max_right _ _
  have hBw0 : 0 ≤ Bw := le_max_right _ _
  have hGb : ∀ t ∈ Icc t0 t1, ‖G (t, u t)‖ ≤ KA := fun t ht =>
    (hKA' _ (by simpa using hin t ht _ (by linarith [hub t ht]))).trans (le_max_left _ _)
  have hwb : ∀ t ∈ Icc t0 t1, ‖w t‖ ≤ Bw := fun t ht => (hBw' t ht).trans (le_max_left _ _)
  have hAd : ∀ t ∈ Icc t0 t1, ∀ δ, ‖G (t, u t) δ‖ ≤ KA * ‖δ‖ := fun t ht δ =>
    ((G (t, u t)).le_opNorm δ).trans (mul_le_mul_of_nonneg_right (hGb t ht) (norm_nonneg _))
  have hwlip : ∀ s ∈ Icc t0 t1, ∀ t ∈ Icc t0 t1, ‖w s - w t‖ ≤ KA * Bw * |s - t| := by
    intro s hs t ht
    have := (convex_Icc t0 t1).norm_image_sub_le_of_norm_hasDerivWithin_le hw
      (fun x hx => (hAd x hx _).trans (mul_le_mul_of_nonneg_left (hwb x hx) hKA0)) ht hs
    rwa [Real.norm_eq_abs] at this
  set L2 := L * (1 + B) * Bw + KA * (KA * Bw) with hL2
  have hL20 : 0 ≤ L2 := by positivity
  have hAw : ∀ s ∈ Icc t0 t1, ∀ t ∈ Icc t0 t1, ‖G (s, u s) (w s) - G (t, u t) (w t)‖ ≤ L2 * |s - t| := by
    intro s hs t ht
    have e : G (s, u s) (w s) - G (t, u t) (w t) = (G (s, u s) - G (t, u t)) (w s) + G (t, u t) (w s - w t) := by
      rw [sub_apply, map_sub]; abel
    rw [e]
    have h1 : ‖G (s, u s) - G (t, u t)‖ ≤ L * (1 + B) * |s - t| := by
      refine (hLip _ _ (hin s hs _ (by linarith [hub s hs])) (hin t ht _ (by linarith [hub t ht]))).trans ?_
      rw [mul_assoc]
      refine mul_le_mul_of_nonneg_left ?_ hL
      rw [Prod.mk_sub_mk, Prod.norm_def]
      have hlu := hulip s hs t ht
      refine max_le ?_ ?_
      · rw [Real.norm_eq_abs]; nlinarith [abs_nonneg (s - t)]
      · change ‖u s - u t‖ ≤ _
        nlinarith [abs_nonneg (s - t)]
    have h2 : ‖(G (s, u s) - G (t, u t)) (w s)‖ ≤ L * (1 + B) * |s - t| * Bw :=
      ((G (s, u s) - G (t, u t)).le_opNorm _).trans (mul_le_mul h1 (hwb s hs) (norm_nonneg _) (by positivity))
    have h3 := (hAd t ht (w s - w t)).trans (mul_le_mul_of_nonneg_left (hwlip s hs t ht) hKA0)
    refine (norm_add_le _ _).trans ((add_le_add h2 h3).trans_eq ?_)
    rw [hL2]; ring
  refine ⟨L + KA + Bw + KA * Bw + L2, by positivity, ?_, ?_, ?_, ?_, ?_⟩
  · intro t ht δ hδ
    have hseg := (convex_closedBall (u t) ‖δ‖).norm_image_sub_le_of_norm_hasFDerivWithin_le' (f := f t) (f' := fun y => G (t, y))
      (φ := G (t, u t)) (C := L * ‖δ‖) (fun y _ => (hd t y).hasFDerivWithinAt) (fun y hy => by
        rw [mem_closedBall_iff_norm] at hy
        have hy1 : ‖y‖ ≤ R + 1 := by
          have : y = (y - u t) + u t := by abel
          rw [this]
          exact (norm_add_le _ _).trans (by linarith [hub t ht])
        refine (hLip _ _ (hin t ht _ hy1) (hin t ht _ (by linarith [hub t ht]))).trans (mul_le_mul_of_nonneg_left ?_ hL)
        rw [Prod.mk_sub_mk, Prod.norm_def]
        exact max_le (by simp) hy)
      (x := u t) (y := u t + δ) (Metric.mem_closedBall_self (norm_nonneg _)) (by simp)
    rw [add_sub_cancel_left] at hseg
    refine hseg.trans ?_
    rw [mul_assoc, ← sq]
    refine mul_le_mul_of_nonneg_right ?_ (by positivity)
    have : 0 ≤ KA * Bw := by positivity
    linarith
  · intro t ht δ
    refine (hAd t ht δ).trans (mul_le_mul_of_nonneg_right ?_ (norm_nonneg _))
    have : 0 ≤ KA * Bw := by positivity
    linarith
  · intro t ht
    refine (hwb t ht).trans ?_
    have : 0 ≤ KA * Bw := by positivity
    linarith
  · intro s hs t ht
    refine (hwlip s hs t ht).trans (mul_le_mul_of_nonneg_right ?_ (abs_nonneg _))
    linarith
  · intro s hs t ht
    have hsub : uIcc t s ⊆ Icc t0 t1 := uIcc_subset_Icc ht hs
    have hd' : ∀ x ∈ uIcc t s, HasDerivWithinAt (fun x => w x - x • G (t, u t) (w t)) (G (x, u x) (w x) - G (t, u t) (w t)) (uIcc t s) x := by
      intro x hx
      have h1 := (hw x (hsub hx)).mono hsub
      have h2 := ((hasDerivAt_id x).smul_const (G (t, u t) (w t))).hasDerivWithinAt (s := uIcc t s)
      rw [one_smul] at h2
      exact h1.sub h2
    have hbound : ∀ x ∈ uIcc t s, ‖G (x, u x) (w x) - G (t, u t) (w t)‖ ≤ L2 * |s - t| := by
      intro x hx
      refine (hAw x (hsub hx) t ht).trans (mul_le_mul_of_nonneg_left (abs_sub_left_of_mem_uIcc hx) hL20)
    have := (convex_uIcc t s).norm_image_sub_le_of_norm_hasDerivWithin_le hd' hbound left_mem_uIcc right_mem_uIcc
    rw [Real.norm_eq_abs, mul_assoc, abs_mul_abs_self, ← sq] at this
    have e : w s - w t - (s - t) • G (t, u t) (w t) = w s - s • G (t, u t) (w t) - (w t - t • G (t, u t) (w t)) := by
      rw [sub_smul]; abel
    rw [e]
    refine this.trans (mul_le_mul_of_nonneg_right ?_ (sq_nonneg _))
    have : 0 ≤ KA * Bw := by positivity
    linarith

end variation

section lag
variable {n : ℕ} {fn : OdeFun ℝ n} {u w : ℝ → Fin n → ℝ} {t0 t1 : ℝ} {la : LinAlg ℝ}

theorem sq_le_36 {x : ℝ} (h0 : 0 ≤ x) (h6 : x ≤ 6) : x ^ 2 ≤ 36 := by nlinarith

theorem le_of_le_inv {h D : ℝ} (hD : 0 ≤ D) (h0 : 0 ≤ h) (hh : h ≤ 1 / (D + 1)) : D * h ≤ 1 := by
  rw [le_div_iff₀ (by positivity)] at hh
  linarith

/-- the defect of a function with a second-order Taylor bound in the BDF formula -/
theorem bdf_defect2 {order : ℤ} (h0 : 0 < order) (h6 : order ≤ 6) {h K : ℝ} (hK : 0 ≤ K) {i : ℕ} (hi : order.toNat ≤ i) {A : Fin n → ℝ}
    (hc : ∀ j < order.toNat, ‖w (t0 + (i - 1 - j : ℕ) * h) - w (t0 + i * h) - (t0 + (i - 1 - j : ℕ) * h - (t0 + i * h)) • A‖ ≤
      K * (t0 + (i - 1 - j : ℕ) * h - (t0 + i * h)) ^ 2) :
    ‖w (t0 + i * h) + ∑ j ∈ Finset.range order.toNat, (bdfC order j : ℝ) • w (t0 + (i - 1 - j : ℕ) * h) - (h * bdfW order) • A‖ ≤
      bdfAbs order * (K * 36) * h ^ 2 := by
  have hd : ∀ j < order.toNat, t0 + ((i - 1 - j : ℕ) : ℝ) * h - (t0 + i * h) = -((j + 1 : ℝ) * h) := by
    intro j hj
    rw [Nat.cast_sub (by omega), Nat.cast_sub (by omega)]; push_cast; ring
  have e1 : w (t0 + i * h) + ∑ j ∈ Finset.range order.toNat, (bdfC order j : ℝ) • w (t0 + (i - 1 - j : ℕ) * h) - (h * bdfW order) • A =
      ∑ j ∈ Finset.range order.toNat, (bdfC order j : ℝ) • (w (t0 + (i - 1 - j : ℕ) * h) - w (t0 + i * h) -
        (t0 + (i - 1 - j : ℕ) * h - (t0 + i * h)) • A) := by
    have s1 : ∀ j ∈ Finset.range order.toNat, (bdfC order j : ℝ) • (w (t0 + (i - 1 - j : ℕ) * h) - w (t0 + i * h) -
        (t0 + (i - 1 - j : ℕ) * h - (t0 + i * h)) • A) = (bdfC order j : ℝ) • w (t0 + (i - 1 - j : ℕ) * h) - (bdfC order j : ℝ) • w (t0 + i * h) -
        ((bdfC order j : ℝ) * (-(j + 1))) • (h • A) := by
      intro j hj
      rw [hd j (Finset.mem_range.1 hj), show -((j + 1 : ℝ) * h) = (-(j + 1 : ℝ)) * h by ring]
      simp only [smul_sub, smul_smul, mul_assoc]
    rw [Finset.sum_congr rfl s1, Finset.sum_sub_distrib, Finset.sum_sub_distrib, ← Finset.sum_smul, ← Finset.sum_smul, bdfC_sum h0 h6,
      bdfC_moment h0 h6, smul_smul, neg_smul, one_smul, mul_comm h]
    abel
  rw [e1, bdfAbs, Finset.sum_mul, Finset.sum_mul]
  refine (norm_sum_le _ _).trans (Finset.sum_le_sum fun j hj => ?_)
  have hj' := Finset.mem_range.1 hj
  rw [norm_smul, Real.norm_eq_abs, mul_assoc]
  refine mul_le_mul_of_nonneg_left ?_ (abs_nonneg _)
  refine (hc j hj').trans ?_
  rw [hd j hj', neg_sq, mul_pow, mul_assoc]
  refine mul_le_mul_of_nonneg_left (mul_le_mul_of_nonneg_right ?_ (by positivity)) hK
  exact sq_le_36 (by positivity) (by exact_mod_cast (show j + 1 ≤ 6 by omega))

/-- the error recursion around `u + δ`, `δ = h p_i w₀ - a h w` -/
theorem lag_split {order : ℤ} {h t a : ℝ} {i : ℕ} {p : ℕ → ℝ} {y U W : ℕ → Fin n → ℝ} {W0 : Fin n → ℝ} {A : (Fin n → ℝ) →L[ℝ] (Fin n → ℝ)}
    (hp : p i + ∑ j ∈ Finset.range order.toNat, (bdfC order j : ℝ) * p (i - 1 - j) = 0) :
    y i - (U i + ((h * p i) • W0 - (a * h) • W i)) +
        ∑ j ∈ Finset.range order.toNat, (bdfC order j : ℝ) • (y (i - 1 - j) - (U (i - 1 - j) + ((h * p (i - 1 - j)) • W0 - (a * h) • W (i - 1 - j)))) =
      (bdfEq fn order h t fun j => y (i - 1 - j)).fn (y i) +
        (h * (bdfW order : ℝ)) • (fn.fn t (y i) - fn.fn t (U i + ((h * p i) • W0 - (a * h) • W i))) -
        (U i + ∑ j ∈ Finset.range order.toNat, (bdfC order j : ℝ) • U (i - 1 - j) - (h * bdfW order) • fn.fn t (U i)) +
        (a * h) • (W i + ∑ j ∈ Finset.range order.toNat, (bdfC order j : ℝ) • W (i - 1 - j) - (h * bdfW order) • A (W i)) +
        (h * (bdfW order : ℝ)) • ((h * p i) • A W0) +
        (h * (bdfW order : ℝ)) • (fn.fn t (U i + ((h * p i) • W0 - (a * h) • W i)) - fn.fn t (U i) - A ((h * p i) • W0 - (a * h) • W i)) := by
  have hpsum : ∑ j ∈ Finset.range order.toNat, (bdfC order j : ℝ) • ((h * p (i - 1 - j)) • W0) = -((h * p i) • W0) := by
    simp only [smul_smul]
    rw [← Finset.sum_smul, ← neg_smul]
    congr 1
    have s1 : ∑ j ∈ Finset.range order.toNat, (bdfC order j : ℝ) * (h * p (i - 1 - j)) =
        h * ∑ j ∈ Finset.range order.toNat, (bdfC order j : ℝ) * p (i - 1 - j) := by
      rw [Finset.mul_sum]; exact Finset.sum_congr rfl fun j _ => by ring
    rw [s1]
    linear_combination h * hp
  have s2 : ∑ j ∈ Finset.range order.toNat, (bdfC order j : ℝ) • (y (i - 1 - j) - (U (i - 1 - j) + ((h * p (i - 1 - j)) • W0 - (a * h) • W (i - 1 - j)))) =
      ∑ j ∈ Finset.range order.toNat, (bdfC order j : ℝ) • y (i - 1 - j) - ∑ j ∈ Finset.range order.toNat, (bdfC order j : ℝ) • U (i - 1 - j) +
      (h * p i) • W0 + (a * h) • ∑ j ∈ Finset.range order.toNat, (bdfC order j : ℝ) • W (i - 1 - j) := by
    have s3 : ∀ j ∈ Finset.range order.toNat, (bdfC order j : ℝ) • (y (i - 1 - j) - (U (i - 1 - j) + ((h * p (i - 1 - j)) • W0 - (a * h) • W (i - 1 - j)))) =
        (bdfC order j : ℝ) • y (i - 1 - j) - (bdfC order j : ℝ) • U (i - 1 - j) - (bdfC order j : ℝ) • ((h * p (i - 1 - j)) • W0) +
        (a * h) • ((bdfC order j : ℝ) • W (i - 1 - j)) := by
      intro j _
      simp only [smul_sub, smul_add]
      rw [smul_comm (a * h)]
      abel
    rw [Finset.sum_congr rfl s3, Finset.sum_add_distrib, Finset.sum_sub_distrib, Finset.sum_sub_distrib, hpsum, ← Finset.smul_sum]
    abel
  have hA : A ((h * p i) • W0 - (a * h) • W i) = (h * p i) • A W0 - (a * h) • A (W i) := by simp only [map_sub, map_smul]
  rw [s2, hA, bdfEq_vec, smul_sub (a * h), smul_add (a * h), smul_comm (a * h) (h * (bdfW order : ℝ))]
  simp only [smul_sub]
  abel

/-- the error recursion around `u + δ`, in norm -/
theorem lag_residual {order : ℤ} {h t a r L T1 T2 T3 T4 P : ℝ} {i : ℕ} {p : ℕ → ℝ} {y U W : ℕ → Fin n → ℝ} {W0 : Fin n → ℝ}
    {A : (Fin n → ℝ) →L[ℝ] (Fin n → ℝ)} (hh : 0 ≤ h) (ha : 0 ≤ a) (hP : 0 ≤ P) (hW0 : 0 ≤ (bdfW order : ℝ)) (hW1 : (bdfW order : ℝ) ≤ 1)
    (hp : p i + ∑ j ∈ Finset.range order.toNat, (bdfC order j : ℝ) * p (i - 1 - j) = 0) (hpP : |p i| ≤ P)
    (hr : ‖(bdfEq fn order h t fun j => y (i - 1 - j)).fn (y i)‖ ≤ r)
    (hl : ‖fn.fn t (y i) - fn.fn t (U i + ((h * p i) • W0 - (a * h) • W i))‖ ≤ L * ‖y i - (U i + ((h * p i) • W0 - (a * h) • W i))‖)
    (h1 : ‖U i + ∑ j ∈ Finset.range order.toNat, (bdfC order j : ℝ) • U (i - 1 - j) - (h * bdfW order) • fn.fn t (U i)‖ ≤ T1)
    (h2 : ‖W i + ∑ j ∈ Finset.range order.toNat, (bdfC order j : ℝ) • W (i - 1 - j) - (h * bdfW order) • A (W i)‖ ≤ T2)
    (h3 : ‖A W0‖ ≤ T3)
    (h4 : ‖fn.fn t (U i + ((h * p i) • W0 - (a * h) • W i)) - fn.fn t (U i) - A ((h * p i) • W0 - (a * h) • W i)‖ ≤ T4) :
    ‖y i - (U i + ((h * p i) • W0 - (a * h) • W i)) +
        ∑ j ∈ Finset.range order.toNat, (bdfC order j : ℝ) • (y (i - 1 - j) - (U (i - 1 - j) + ((h * p (i - 1 - j)) • W0 - (a * h) • W (i - 1 - j))))‖ ≤
      r + h * (L * ‖y i - (U i + ((h * p i) • W0 - (a * h) • W i))‖) + T1 + a * h * T2 + h * (h * P * T3) + h * T4 := by
  rw [lag_split (fn := fn) (t := t) (A := A) hp]
  have hhW : h * (bdfW order : ℝ) ≤ h := mul_le_of_le_one_right hh hW1
  have hhW0 : 0 ≤ h * (bdfW order : ℝ) := mul_nonneg hh hW0
  have n1 : ∀ (x : Fin n → ℝ) (X : ℝ), ‖x‖ ≤ X → ‖(h * (bdfW order : ℝ)) • x‖ ≤ h * X := by
    intro x X hx
    rw [norm_smul, Real.norm_eq_abs, abs_of_nonneg hhW0]
    exact mul_le_mul hhW hx (norm_nonneg _) hh
  have b2 : ‖(a * h) • (W i + ∑ j ∈ Finset.range order.toNat, (bdfC order j : ℝ) • W (i - 1 - j) - (h * bdfW order) • A (W i))‖ ≤ a * h * T2 := by
    rw [norm_smul, Real.norm_eq_abs, abs_of_nonneg (mul_nonneg ha hh)]
    exact mul_le_mul_of_nonneg_left h2 (mul_nonneg ha hh)
  have b3 : ‖(h * p i) • A W0‖ ≤ h * P * T3 := by
    rw [norm_smul, Real.norm_eq_abs, abs_mul, abs_of_nonneg hh]
    exact mul_le_mul (mul_le_mul_of_nonneg_left hpP hh) h3 (norm_nonneg _) (mul_nonneg hh hP)
  exact (norm_add_le _ _).trans (add_le_add ((norm_add_le _ _).trans (add_le_add ((norm_add_le _ _).trans (add_le_add
    ((norm_sub_le _ _).trans (add_le_add ((norm_add_le _ _).trans (add_le_add hr (n1 _ _ hl))) h1)) b2)) (n1 _ _ b3))) (n1 _ _ h4))

set_option maxHeartbeats 1000000 in
/-- BDF steps of order `k`, 2 to 6, with the Newton solver of the code, from `k + 1` equal starting values: up to `O(h²)`, the tolerance of the
solver and a geometrically decaying term the values are those of the solution of the problem started `(k + 1/2) h` later -/
theorem bdf_lag {order : ℤ} (h2 : 2 ≤ order) (h6 : order ≤ 6) (hla : la.Exact) (ht : t0 < t1)
    (hf : ContDiff ℝ 2 fun q : ℝ × (Fin n → ℝ) => fn.fn q.1 q.2)
    (hj : Continuous fun q : ℝ × (Fin n → ℝ) => fn.jac q.1 q.2)
    (hu : ∀ t ∈ Icc t0 t1, HasDerivWithinAt u (fn.fn t (u t)) (Icc t0 t1) t)
    (hw : ∀ t ∈ Icc t0 t1, HasDerivWithinAt w (fderiv ℝ (fn.fn t) (u t) (w t)) (Icc t0 t1) t) (hw0 : w t0 = fn.fn t0 (u t0)) :
    ∃ C η μ : ℝ, 0 ≤ C ∧ 0 < η ∧ 0 < μ ∧ μ < 1 ∧ ∀ (h : ℝ) (M : ℕ) (y : ℕ → Fin n → ℝ), 0 < h → h ≤ η → t0 + M * h ≤ t1 →
      (∀ i < order.toNat + 1, y i = u t0) →
      (∀ i, order.toNat + 1 ≤ i → i ≤ M → ∃ st st', newtonIterate la (bdfEq fn order h (t0 + i * h) fun j => y (i - 1 - j))
        (y (i - 1)) bdfNewton st true = some (.ret (y i, st'))) →
      ∀ i ≤ M, ‖y i - (u (t0 + i * h) - ((order + 1 / 2) * h) • w (t0 + i * h))‖ ≤ C * (h ^ 2 + h * μ ^ i + 1 / 10 ^ 10) := by
  have h0 : 0 < order := by omega
  set k := order.toNat with hk
  have hk2 : 2 ≤ k := by omega
  have hk6 : k ≤ 6 := by omega
  have hkc : (order : ℝ) = (k : ℝ) := by
    have : ((k : ℕ) : ℤ) = order := by omega
    exact_mod_cast this.symm
  have ht0 : t0 ∈ Icc t0 t1 := ⟨le_rfl, ht.le⟩
  have hf1 := hf.of_le (m := 1) (by norm_num)
  obtain ⟨R, L, B, K0, hR, hL, hB, hK00, hub, hlip, hfb, hulip, hcons⟩ := solution_facts hf1 hu
  obtain ⟨v, Mv, hMv, hv0, hv1, hv, hvb⟩ := solution_tower (k := 2) ht hf hu
  obtain ⟨Jb, hJ, hjac⟩ := jac_bounded hj t0 t1 (R + 100)
  obtain ⟨Kv, hKv0, hquad, hAb, hwb, hwlip, hwcons⟩ := variation_facts hf hu hw
  obtain ⟨hW0, hW1⟩ := bdfW_bounds h0 h6
  obtain ⟨κ, b, hcert, hb⟩ := bdf_certificate h0 h6
  obtain ⟨p, Cp, μ, hCp, hμ0, hμ1, hpst, hprec, hpdec⟩ := bdf_parasite h2 h6
  obtain ⟨C1, η1, hC1, hη1, hfirst⟩ := bdf_first_order h0 h6 hla ht.le hf1 hj hu
  obtain ⟨C2, η2, hC2, hη2, hmain⟩ := multistep_sum (E := Fin n → ℝ) (w := List.replicate (k + 1) 1) hcert hb
    (A1 := L) (T := t1 - t0) hL
  set a : ℝ := order + 1 / 2 with ha
  have ha0 : 0 ≤ a := by rw [ha, hkc]; positivity
  have ha7 : a ≤ 7 := by
    rw [ha, hkc]
    have : (k : ℝ) ≤ 6 := by exact_mod_cast hk6
    linarith
  set K1 := (∑ j ∈ Finset.range k, |(bdfC order j : ℝ)| * ((j : ℝ) + 1) ^ (2 + 1)) * Mv with hK1
  have hK10 : 0 ≤ K1 := mul_nonneg (Finset.sum_nonneg fun _ _ => by positivity) hMv
  set K2 := bdfAbs order * (Kv * 36) with hK2
  have hγ0 : 0 ≤ bdfAbs order := Finset.sum_nonneg fun _ _ => abs_nonneg _
  have hK20 : 0 ≤ K2 := by positivity
  set D := (a + Cp) * Kv with hD
  have hD0 : 0 ≤ D := by positivity
  set K3 := K1 + a * K2 + Kv * D ^ 2 with hK3
  have hK30 : 0 ≤ K3 := by positivity
  set K4 := Kv * Kv * Cp with hK4
  have hK40 : 0 ≤ K4 := by positivity
  set KN := (t1 - t0 + 1) * (Jb + L) with hKN
  have hT0 : 0 < t1 - t0 + 1 := by linarith
  have hKN0 : 0 ≤ KN := by positivity
  set KS := 7 * (K0 * 36 + 7 * (Kv * 6)) with hKS
  have hKS0 : 0 ≤ KS := by positivity
  have hμ1' : 0 < 1 - μ := by linarith
  set KT := (t1 - t0 + 1) * K3 + K4 / (1 - μ) with hKT
  have hKT0 : 0 ≤ KT := by positivity
  refine ⟨C2 * (KS + KT + KN) + Cp * Kv, min (min η1 η2) (min (min 1 (1 / (C1 + 1))) (min (1 / (D + 1)) (min (1 / (4 * (Jb + L) + 1)) (1 / (67 * B + 1))))), μ,
    by positivity, by positivity, hμ0, hμ1, ?_⟩
  clear_value a K1 K2 D K3 K4 KN KS KT
  intro h M y hh hle hM hstart hstep
  have hle1 : h ≤ η1 := hle.trans ((min_le_left _ _).trans (min_le_left _ _))
  have hle2 : h ≤ η2 := hle.trans ((min_le_left _ _).trans (min_le_right _ _))
  have hle' := hle.trans (min_le_right _ _)
  have hh1 : h ≤ 1 := hle'.trans ((min_le_left _ _).trans (min_le_left _ _))
  have hC1h : C1 * h ≤ 1 := by
    exact le_of_le_inv hC1 hh.le (hle'.trans ((min_le_left _ _).trans (min_le_right _ _)))
  have hle'' := hle'.trans (min_le_right _ _)
  have hDh : h * D ≤ 1 := by
    rw [mul_comm]
    exact le_of_le_inv hD0 hh.le (hle''.trans (min_le_left _ _))
  have hs1 : h * (Jb + L) ≤ 1 / 4 := by
    have := le_of_le_inv (by positivity) hh.le (hle''.trans ((min_le_right _ _).trans (min_le_left _ _)))
    linarith only [this]
  have hs2 : 67 * B * h ≤ 1 := by
    exact le_of_le_inv (by positivity) hh.le (hle''.trans ((min_le_right _ _).trans (min_le_right _ _)))
  have hmem : ∀ i ≤ M, t0 + (i : ℝ) * h ∈ Icc t0 t1 := fun i hi => grid_mem hh.le hM hi
  have hguard : ∀ i ≤ M, ‖y i - u (t0 + i * h)‖ ≤ 1 := fun i hi => ((hfirst h M y hh hle1 hM hstart hstep).1 i hi).trans hC1h
  have hp1 : ∀ i, |p i| ≤ Cp := fun i => (hpdec i).trans (mul_le_of_le_one_right hCp (pow_le_one₀ hμ0.le hμ1.le))
  set δ : ℕ → Fin n → ℝ := fun i => (h * p i) • w t0 - (a * h) • w (t0 + i * h) with hδ
  have hδn : ∀ i ≤ M, ‖δ i‖ ≤ h * D := by
    intro i hi
    have e1 : ‖(h * p i) • w t0‖ ≤ h * Cp * Kv := by
      rw [norm_smul, Real.norm_eq_abs, abs_mul, abs_of_pos hh]
      exact mul_le_mul (mul_le_mul_of_nonneg_left (hp1 i) hh.le) (hwb _ ht0) (norm_nonneg _) (by positivity)
    have e2 : ‖(a * h) • w (t0 + i * h)‖ ≤ a * h * Kv := by
      rw [norm_smul, Real.norm_eq_abs, abs_of_nonneg (by positivity)]
      exact mul_le_mul_of_nonneg_left (hwb _ (hmem i hi)) (by positivity)
    refine (norm_sub_le _ _).trans ((add_le_add e1 e2).trans_eq ?_)
    rw [hD]; ring
  set e : ℕ → Fin n → ℝ := fun i => y i - (u (t0 + i * h) + δ i) with he
  set τ : ℕ → ℝ := fun i => h * (Jb + L) * (1 / 10 ^ 10) + K3 * h ^ 3 + K4 * h ^ 2 * μ ^ i with hτ
  have hτ0 : ∀ i, 0 ≤ τ i := fun i => by positivity
  have hpk : h ^ 3 ≤ h ^ 2 := pow_le_pow_of_le_one hh.le hh1 (by omega)
  have hMh : ((M : ℝ) + 1) * h ≤ t1 - t0 + 1 := by linarith
  have hτsum : ∑ i ∈ Finset.range (M + 1), τ i ≤ KN * (1 / 10 ^ 10) + KT * h ^ 2 := by
    have hg : ∑ i ∈ Finset.range (M + 1), μ ^ i ≤ 1 / (1 - μ) := by
      rw [geom_sum_eq hμ1.ne, ← neg_div_neg_eq, neg_sub, neg_sub]
      exact div_le_div_of_nonneg_right (by linarith [pow_pos hμ0 (M + 1)]) hμ1'.le
    simp only [hτ]
    rw [Finset.sum_add_distrib, Finset.sum_const, Finset.card_range, nsmul_eq_mul, ← Finset.mul_sum]
    push_cast
    have g1 := mul_le_mul_of_nonneg_left hg (show 0 ≤ K4 * h ^ 2 by positivity)
    have g2 := mul_le_mul_of_nonneg_right hMh (show 0 ≤ (Jb + L) * (1 / 10 ^ 10) by positivity)
    have g3 := mul_le_mul_of_nonneg_right hMh (show 0 ≤ K3 * h ^ 2 by positivity)
    have e1 : KN * (1 / 10 ^ 10) + KT * h ^ 2 = (t1 - t0 + 1) * ((Jb + L) * (1 / 10 ^ 10)) + (t1 - t0 + 1) * (K3 * h ^ 2) + K4 * h ^ 2 * (1 / (1 - μ)) := by
      rw [hKN, hKT]; ring
    have e2 : ((M : ℝ) + 1) * (h * (Jb + L) * (1 / 10 ^ 10) + K3 * h ^ 3) = ((M : ℝ) + 1) * h * ((Jb + L) * (1 / 10 ^ 10)) + ((M : ℝ) + 1) * h * (K3 * h ^ 2) := by
      ring
    rw [e1, e2]
    linarith
  have hstart' : ∑ i ∈ Finset.range (min (k + 1) (M + 1)), ‖e i‖ ≤ KS * h ^ 2 := by
    have h1 : ∀ i ∈ Finset.range (min (k + 1) (M + 1)), ‖e i‖ ≤ (K0 * 36 + 7 * (Kv * 6)) * h ^ 2 := by
      intro i hi
      rw [Finset.mem_range, lt_min_iff] at hi
      have hik : i ≤ k := by omega
      have him := hmem i (by omega)
      have hi6 : (i : ℝ) ≤ 6 := by exact_mod_cast hik.trans hk6
      have c1 := hcons _ him _ ht0
      have c2 := hwlip _ him _ ht0
      rw [add_sub_cancel_left] at c1 c2
      rw [abs_of_nonneg (by positivity)] at c2
      have ee : e i = -(u (t0 + i * h) - u t0 - ((i : ℝ) * h) • fn.fn t0 (u t0)) + (a * h) • (w (t0 + i * h) - w t0) := by
        simp only [he, hδ]
        rw [hstart i hi.1, hpst i hik, ← hw0, mul_sub, mul_comm h a, mul_comm h (i : ℝ), sub_smul, smul_sub]
        abel
      rw [ee]
      refine (norm_add_le _ _).trans ?_
      rw [norm_neg, norm_smul, Real.norm_eq_abs, abs_of_nonneg (show 0 ≤ a * h by positivity)]
      have c3 : K0 * ((i : ℝ) * h) ^ 2 ≤ K0 * 36 * h ^ 2 := by
        rw [mul_pow, ← mul_assoc]
        refine mul_le_mul_of_nonneg_right (mul_le_mul_of_nonneg_left ?_ hK00) (by positivity)
        exact sq_le_36 (Nat.cast_nonneg i) hi6
      have c4 : a * h * ‖w (t0 + i * h) - w t0‖ ≤ 7 * h * (Kv * (6 * h)) := by
        refine mul_le_mul (mul_le_mul_of_nonneg_right ha7 hh.le) (c2.trans (mul_le_mul_of_nonneg_left ?_ hKv0)) (norm_nonneg _) (by positivity)
        exact mul_le_mul_of_nonneg_right hi6 hh.le
      calc _ ≤ K0 * 36 * h ^ 2 + 7 * h * (Kv * (6 * h)) := add_le_add (c1.trans c3) c4
        _ = _ := by ring
    refine (Finset.sum_le_sum h1).trans ?_
    rw [Finset.sum_const, Finset.card_range, nsmul_eq_mul, hKS, mul_assoc]
    refine mul_le_mul_of_nonneg_right ?_ (by positivity)
    exact_mod_cast (min_le_left _ _).trans (by omega)
  have hres : ∀ i, min (k + 1) (M + 1) ≤ i → i ≤ M → ‖lconv (bdfRho order) e i‖ ≤ L * h * lconv (List.replicate (k + 1) 1) (fun l => ‖e l‖) i + τ i := by
    intro i hNi hiM
    have hki : k + 1 ≤ i := by omega
    have hti := hmem i hiM
    rw [lconv_bdfRho order _ (by omega), lconv_ones k _ (by omega), ← hk]
    obtain ⟨st, st', hn⟩ := hstep i hki hiM
    obtain ⟨-, hyR, -, hr⟩ := bdf_step_near h0 h6 hla hL hB hJ hub hlip hfb hulip hjac hh hs1 hs2 (by omega) hti.2 (fun l hl => hguard l (by omega))
      (σ := 1) (fun j hj => hguard _ (by omega)) hn
    have hback : ∀ j < k, t0 + (i : ℝ) * h - (j + 1) * h = t0 + ((i - 1 - j : ℕ) : ℝ) * h := by
      intro j hj
      rw [Nat.cast_sub (by omega), Nat.cast_sub (by omega)]; push_cast; ring
    have htr := trunc_bdf (a := t0 + i * h) (by norm_num) hMv hv hvb (c := fun j => (bdfC order j : ℝ)) (K := k) (bdfC_sum h0 h6)
      (bdfC_moment h0 h6) (fun l h2 hl => bdfC_moments h0 h6 h2 (by omega)) hh.le hti
      (fun j hj => by rw [hback j hj]; exact hmem _ (by omega))
    rw [hv0, hv1 _ hti, ← hK1, Finset.sum_congr rfl (fun j hj => by rw [hback j (Finset.mem_range.1 hj)])] at htr
    have htrw := bdf_defect2 (order := order) (w := w) (t0 := t0) h0 h6 hKv0 (i := i) (by omega) (fun j hj => hwcons _ (hmem _ (by omega)) _ hti)
    rw [← hK2, ← hk] at htrw
    have hδi := hδn i hiM
    have hq := hquad _ hti (δ i) (hδi.trans hDh)
    have hq' := hq.trans (mul_le_mul_of_nonneg_left (pow_le_pow_left₀ (norm_nonneg _) hδi 2) hKv0)
    have hzR : ‖u (t0 + i * h) + δ i‖ ≤ R + 100 := (norm_add_le _ _).trans ((add_le_add (hub _ hti) (hδi.trans hDh)).trans (by linarith only []))
    have hA0 : ‖fderiv ℝ (fn.fn (t0 + i * h)) (u (t0 + i * h)) (w t0)‖ ≤ Kv * Kv := (hAb _ hti _).trans (mul_le_mul_of_nonneg_left (hwb _ ht0) hKv0)
    refine (lag_residual (fn := fn) (order := order) (h := h) (t := t0 + i * h) (a := a) (i := i) (p := p) (y := y) (U := fun i => u (t0 + i * h))
      (W := fun i => w (t0 + i * h)) (W0 := w t0) (A := fderiv ℝ (fn.fn (t0 + i * h)) (u (t0 + i * h))) (P := Cp * μ ^ i) hh.le ha0
      (mul_nonneg hCp (pow_nonneg hμ0.le _)) hW0 hW1 (hprec i hki) (hpdec i) hr (hlip _ hti _ _ hyR hzR) htr htrw hA0 hq').trans ?_
    have hes0 : 0 ≤ L * h * ∑ j ∈ Finset.range k, ‖e (i - 1 - j)‖ := mul_nonneg (mul_nonneg hL hh.le) (Finset.sum_nonneg fun _ _ => norm_nonneg _)
    have : L * h * (‖e i‖ + ∑ j ∈ Finset.range k, ‖e (i - 1 - j)‖) + τ i = h * (Jb + L) * (1 / 10 ^ 10) + h * (L * ‖e i‖) + K1 * h ^ (2 + 1) + a * h * (K2 * h ^ 2) +
        h * (h * (Cp * μ ^ i) * (Kv * Kv)) + h * (Kv * (h * D) ^ 2) + L * h * ∑ j ∈ Finset.range k, ‖e (i - 1 - j)‖ := by
      simp only [hτ, hK3, hK4]; ring
    rw [this]
    exact le_add_of_nonneg_right hes0
  have hfin := hmain h (KS * h ^ 2) (KN * (1 / 10 ^ 10) + KT * h ^ 2) M (min (k + 1) (M + 1)) e τ hh.le hle2 (by linarith) hτ0 hτsum hstart' hres
  intro i hi
  have hei := hfin i hi
  have eq1 : y i - (u (t0 + i * h) - (a * h) • w (t0 + i * h)) = e i + (h * p i) • w t0 := by
    simp only [he, hδ]; abel
  rw [eq1]
  have e2 : ‖(h * p i) • w t0‖ ≤ Cp * Kv * (h * μ ^ i) := by
    rw [norm_smul, Real.norm_eq_abs, abs_mul, abs_of_pos hh]
    calc h * |p i| * ‖w t0‖ ≤ h * (Cp * μ ^ i) * Kv := mul_le_mul (mul_le_mul_of_nonneg_left (hpdec i) hh.le) (hwb _ ht0) (norm_nonneg _) (by positivity)
      _ = _ := by ring
  have hμi : 0 ≤ h * μ ^ i := by positivity
  have e3 : C2 * (KS * h ^ 2 + (KN * (1 / 10 ^ 10) + KT * h ^ 2)) ≤ C2 * (KS + KT + KN) * (h ^ 2 + 1 / 10 ^ 10) := by
    rw [mul_assoc C2]
    refine mul_le_mul_of_nonneg_left ?_ hC2
    have : 0 ≤ (KS + KT) * (1 / 10 ^ 10) + KN * h ^ 2 := by positivity
    linarith
  refine (norm_add_le _ _).trans ((add_le_add (hei.trans e3) e2).trans ?_)
  have z1 : 0 ≤ C2 * (KS + KT + KN) * (h * μ ^ i) := by positivity
  have z2 : 0 ≤ Cp * Kv * (h ^ 2 + 1 / 10 ^ 10) := by positivity
  linarith

end lag

end Verif
