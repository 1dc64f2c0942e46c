import Mathlib.Analysis.Normed.Module.Basic
import Mathlib.Analysis.SpecialFunctions.Exp
import Mathlib.Tactic.LinearCombination
import Mathlib.Tactic.NormNum

/-!
# Zero-stability of linear recurrences

A polynomial is the list of its coefficients, constant term first.  It acts on sequences with the shift as variable.
-/

set_option linter.unusedSectionVars false

namespace Verif

section lists
variable {E : Type*} [NormedAddCommGroup E] [NormedSpace ℝ E]

/-- the sequence delayed by one -/
def delay (x : ℕ → E) : ℕ → E
  | 0 => 0
  | i + 1 => x i

/-- `(l x)_i = Σ_j l_j x_{i-j}`, terms with `j > i` left out -/
def lconv : List ℝ → (ℕ → E) → ℕ → E
  | [], _ => fun _ => 0
  | a :: l, x => fun i => a • x i + delay (lconv l x) i

def ladd : List ℝ → List ℝ → List ℝ
  | [], b => b
  | a, [] => a
  | a :: l, b :: m => (a + b) :: ladd l m

/-- product of coefficient lists -/
def lmul : List ℝ → List ℝ → List ℝ
  | [], _ => []
  | a :: l, b => ladd (b.map (a * ·)) (0 :: lmul l b)

/-- sum of the absolute values of the coefficients -/
def l1 (l : List ℝ) : ℝ := (l.map abs).sum

theorem l1_cons (a : ℝ) (l : List ℝ) : l1 (a :: l) = |a| + l1 l := by simp [l1]

theorem l1_nonneg (l : List ℝ) : 0 ≤ l1 l := by
  induction l with
  | nil => simp [l1]
  | cons a l ih => rw [l1_cons]; positivity

theorem delay_add (x y : ℕ → E) (i : ℕ) : delay (fun i => x i + y i) i = delay x i + delay y i := by
  cases i <;> simp [delay]

theorem delay_smul (a : ℝ) (x : ℕ → E) (i : ℕ) : delay (fun i => a • x i) i = a • delay x i := by
  cases i <;> simp [delay]

theorem delay_zero (i : ℕ) : delay (fun _ => (0 : E)) i = 0 := by
  cases i <;> rfl

theorem lconv_ladd (a b : List ℝ) (x : ℕ → E) : lconv (ladd a b) x = fun i => lconv a x i + lconv b x i := by
  induction a generalizing b with
  | nil => funext i; simp [ladd, lconv]
  | cons a l ih =>
    cases b with
    | nil => funext i; simp [ladd, lconv]
    | cons b m =>
      funext i
      simp only [ladd, lconv, ih, delay_add, add_smul]
      abel

theorem lconv_map (a : ℝ) (b : List ℝ) (x : ℕ → E) : lconv (b.map (a * ·)) x = fun i => a • lconv b x i := by
  induction b with
  | nil => funext i; simp [lconv]
  | cons b m ih =>
    funext i
    simp only [List.map_cons, lconv, ih, delay_smul, smul_add, smul_smul]

/-- the product acts as the composition -/
theorem lconv_lmul (a b : List ℝ) (x : ℕ → E) : lconv (lmul a b) x = lconv a (lconv b x) := by
  induction a with
  | nil => rfl
  | cons a l ih =>
    funext i
    simp only [lmul, lconv_ladd, lconv_map, lconv, ih, zero_smul, zero_add]

theorem sum_delay (x : ℕ → E) (N : ℕ) : ∑ i ∈ Finset.range N, ‖delay x i‖ ≤ ∑ i ∈ Finset.range N, ‖x i‖ := by
  cases N with
  | zero => simp
  | succ N =>
    rw [Finset.sum_range_succ', Finset.sum_range_succ]
    simp only [delay, norm_zero, add_zero]
    linarith [norm_nonneg (x N)]

theorem sum_lconv (l : List ℝ) (x : ℕ → E) (N : ℕ) :
    ∑ i ∈ Finset.range N, ‖lconv l x i‖ ≤ l1 l * ∑ i ∈ Finset.range N, ‖x i‖ := by
  induction l with
  | nil => simp [lconv, l1]
  | cons a l ih =>
    rw [l1_cons, add_mul, Finset.mul_sum]
    calc _ ≤ ∑ i ∈ Finset.range N, (|a| * ‖x i‖ + ‖delay (lconv l x) i‖) := by
          refine Finset.sum_le_sum fun i _ => (norm_add_le _ _).trans ?_
          rw [norm_smul, Real.norm_eq_abs]
      _ ≤ _ := by
          rw [Finset.sum_add_distrib]
          exact add_le_add le_rfl ((sum_delay _ _).trans ih)

/-- far enough from the start all terms are there -/
theorem lconv_eq_sum (l : List ℝ) (x : ℕ → E) (i : ℕ) (h : l.length ≤ i + 1) :
    lconv l x i = ∑ j ∈ Finset.range l.length, l.getD j 0 • x (i - j) := by
  induction l generalizing i with
  | nil => simp [lconv]
  | cons a l ih =>
    rw [List.length_cons, Finset.sum_range_succ']
    simp only [lconv, List.getD_cons_zero, List.getD_cons_succ, Nat.sub_zero]
    rw [add_comm]
    congr 1
    cases i with
    | zero =>
      have : l = [] := List.length_eq_zero_iff.mp (by rw [List.length_cons] at h; omega)
      subst this
      simp [delay]
    | succ i =>
      simp only [delay]
      rw [ih i (by rw [List.length_cons] at h; omega)]
      exact Finset.sum_congr rfl fun j _ => by rw [Nat.add_sub_add_right]

/-- the differences add up to the sequence -/
theorem sum_diff (e : ℕ → E) (N : ℕ) : e N = ∑ i ∈ Finset.range (N + 1), lconv [1, -1] e i := by
  induction N with
  | zero => simp [lconv, delay]
  | succ N ih =>
    rw [Finset.sum_range_succ, ← ih]
    change _ = e N + ((1 : ℝ) • e (N + 1) + ((-1 : ℝ) • e N + delay (fun _ => 0) N))
    rw [delay_zero]
    simp

/-- **Zero-stability**, from a certificate: multiplying the polynomial by `κ` gives `(1 - z)(1 + b(z) z)` with coefficients of `b` of total
size below one.  Then the sequence is bounded by the sum of its residuals. -/
theorem zero_stable {κ b ρ : List ℝ} (hc : lmul κ ρ = lmul (1 :: b) [1, -1]) (hb : l1 b < 1) (e : ℕ → E) (N : ℕ) :
    ‖e N‖ ≤ l1 κ / (1 - l1 b) * ∑ i ∈ Finset.range (N + 1), ‖lconv ρ e i‖ := by
  set d := lconv [1, -1] e with hd
  have key : ∀ i, d i = lconv κ (lconv ρ e) i - delay (lconv b d) i := by
    intro i
    have h1 := congrFun (lconv_lmul κ ρ e) i
    rw [hc, lconv_lmul] at h1
    rw [← h1, ← hd]
    simp [lconv]
  have hsum : ∑ i ∈ Finset.range (N + 1), ‖d i‖ ≤ l1 κ * ∑ i ∈ Finset.range (N + 1), ‖lconv ρ e i‖ +
      l1 b * ∑ i ∈ Finset.range (N + 1), ‖d i‖ := by
    calc ∑ i ∈ Finset.range (N + 1), ‖d i‖
        ≤ ∑ i ∈ Finset.range (N + 1), (‖lconv κ (lconv ρ e) i‖ + ‖delay (lconv b d) i‖) := by
          refine Finset.sum_le_sum fun i _ => ?_
          rw [key i]; exact norm_sub_le _ _
      _ ≤ _ := by
          rw [Finset.sum_add_distrib]
          exact add_le_add (sum_lconv _ _ _) ((sum_delay _ _).trans (sum_lconv _ _ _))
  have h1 : ‖e N‖ ≤ ∑ i ∈ Finset.range (N + 1), ‖d i‖ := by
    rw [sum_diff e N]; exact norm_sum_le _ _
  have h2 : 0 < 1 - l1 b := by linarith
  rw [div_mul_eq_mul_div, le_div_iff₀ h2]
  nlinarith

end lists

/-- discrete Gronwall inequality with a guard -/
theorem gronwall_guard {x : ℕ → ℝ} {a b : ℝ} {M : ℕ} (hx : ∀ i, 0 ≤ x i) (ha : 0 ≤ a) (hb : 0 ≤ b) (hb2 : b ≤ 1 / 2)
    (hsmall : 2 * a * Real.exp (2 * b * M) ≤ 1)
    (h : ∀ N ≤ M, (∀ i < N, x i ≤ 1) → x N ≤ a + b * ∑ i ∈ Finset.range (N + 1), x i) :
    ∀ N ≤ M, x N ≤ 2 * a * Real.exp (2 * b * N) := by
  have hexp : ∀ N : ℕ, (1 + 2 * b) ^ N ≤ Real.exp (2 * b * N) := by
    intro N
    rw [mul_comm (2 * b) (N : ℝ), Real.exp_nat_mul]
    exact pow_le_pow_left₀ (by positivity) (by linarith [Real.add_one_le_exp (2 * b)]) N
  have key : ∀ N ≤ M, x N ≤ 2 * a * (1 + 2 * b) ^ N := by
    intro N
    induction N using Nat.strong_induction_on with
    | _ N ih =>
      intro hN
      have hone : ∀ i < N, x i ≤ 1 := fun i hi => by
        refine (ih i hi (hi.le.trans hN)).trans (le_trans ?_ hsmall)
        refine mul_le_mul_of_nonneg_left ((hexp i).trans (Real.exp_le_exp.mpr ?_)) (by positivity)
        have : (i : ℝ) ≤ M := by exact_mod_cast hi.le.trans hN
        exact mul_le_mul_of_nonneg_left this (by positivity)
      have h1 := h N hN hone
      rw [Finset.sum_range_succ] at h1
      have h2 : ∑ i ∈ Finset.range N, x i ≤ ∑ i ∈ Finset.range N, 2 * a * (1 + 2 * b) ^ i :=
        Finset.sum_le_sum fun i hi => ih i (Finset.mem_range.mp hi) ((Finset.mem_range.mp hi).le.trans hN)
      have h3 : 2 * b * ∑ i ∈ Finset.range N, 2 * a * (1 + 2 * b) ^ i = 2 * a * ((1 + 2 * b) ^ N - 1) := by
        rw [← Finset.mul_sum]
        have := mul_geom_sum (1 + 2 * b) N
        linear_combination (2 * a) * this
      have h4 := mul_le_mul_of_nonneg_left h2 hb
      have h5 : b * x N ≤ 1 / 2 * x N := mul_le_mul_of_nonneg_right hb2 (hx N)
      nlinarith
  exact fun N hN => (key N hN).trans (mul_le_mul_of_nonneg_left (hexp N) (by positivity))

/-- errors of a zero-stable linear multistep method -/
theorem multistep_error {E : Type*} [NormedAddCommGroup E] [NormedSpace ℝ E] {κ b ρ w : List ℝ}
    (hc : lmul κ ρ = lmul (1 :: b) [1, -1]) (hb : l1 b < 1) {e : ℕ → E} {N0 M : ℕ} {a0 A τ S : ℝ} (hS : l1 κ / (1 - l1 b) ≤ S)
    (hA : 0 ≤ A) (hτ : 0 ≤ τ) (ha0 : ∑ i ∈ Finset.range N0, ‖e i‖ ≤ a0)
    (hstep : ∀ i, N0 ≤ i → i ≤ M → (∀ l < i, ‖e l‖ ≤ 1) → ‖lconv ρ e i‖ ≤ A * lconv w (fun l => ‖e l‖) i + τ)
    (hAw : S * (A * l1 w) ≤ 1 / 2) (hsmall : 2 * (S * (l1 ρ * a0 + (M + 1) * τ)) * Real.exp (2 * (S * (A * l1 w)) * M) ≤ 1) :
    ∀ N ≤ M, ‖e N‖ ≤ 2 * (S * (l1 ρ * a0 + (M + 1) * τ)) * Real.exp (2 * (S * (A * l1 w)) * N) := by
  have hS0 : 0 ≤ S := le_trans (div_nonneg (l1_nonneg _) (by linarith)) hS
  have ha : 0 ≤ a0 := le_trans (Finset.sum_nonneg fun _ _ => norm_nonneg _) ha0
  have hr := l1_nonneg ρ
  have hw := l1_nonneg w
  refine gronwall_guard (x := fun i => ‖e i‖) (fun _ => norm_nonneg _) (by positivity) (by positivity) hAw hsmall ?_
  intro N hN hone
  have h0 := zero_stable hc hb e N
  have hres : ∑ i ∈ Finset.range (N + 1), ‖lconv ρ e i‖ ≤ l1 ρ * a0 + ((M + 1) * τ + A * (l1 w * ∑ i ∈ Finset.range (N + 1), ‖e i‖)) := by
    have hle : ∀ i ∈ Finset.range (N + 1), ‖lconv ρ e i‖ ≤ (if i < N0 then ‖lconv ρ e i‖ else 0) +
        (A * ‖lconv w (fun l => ‖e l‖) i‖ + τ) := by
      intro i hi
      have hi' := Finset.mem_range.mp hi
      by_cases h : i < N0
      · rw [if_pos h]
        have : 0 ≤ A * ‖lconv w (fun l => ‖e l‖) i‖ := by positivity
        linarith
      · rw [if_neg h, zero_add]
        refine (hstep i (by omega) (by omega) fun l hl => hone l (by omega)).trans ?_
        have := mul_le_mul_of_nonneg_left (le_abs_self (lconv w (fun l => ‖e l‖) i)) hA
        rw [← Real.norm_eq_abs] at this
        linarith
    refine (Finset.sum_le_sum hle).trans ?_
    rw [Finset.sum_add_distrib, Finset.sum_add_distrib, ← Finset.mul_sum]
    refine add_le_add ?_ ?_
    · calc ∑ i ∈ Finset.range (N + 1), (if i < N0 then ‖lconv ρ e i‖ else 0)
          ≤ ∑ i ∈ Finset.range N0, ‖lconv ρ e i‖ := by
            rw [← Finset.sum_filter]
            refine Finset.sum_le_sum_of_subset_of_nonneg (fun i hi => ?_) fun _ _ _ => norm_nonneg _
            simp only [Finset.mem_filter] at hi
            exact Finset.mem_range.mpr hi.2
        _ ≤ l1 ρ * ∑ i ∈ Finset.range N0, ‖e i‖ := sum_lconv _ _ _
        _ ≤ _ := mul_le_mul_of_nonneg_left ha0 hr
    · rw [add_comm]
      refine add_le_add ?_ (mul_le_mul_of_nonneg_left ?_ hA)
      · rw [Finset.sum_const, Finset.card_range, nsmul_eq_mul]
        have : ((N + 1 : ℕ) : ℝ) ≤ M + 1 := by exact_mod_cast Nat.add_le_add_right hN 1
        exact mul_le_mul_of_nonneg_right this hτ
      · refine (sum_lconv w (fun l => ‖e l‖) (N + 1)).trans (le_of_eq ?_)
        simp only [norm_norm]
  have hsum0 : 0 ≤ ∑ i ∈ Finset.range (N + 1), ‖lconv ρ e i‖ := Finset.sum_nonneg fun _ _ => norm_nonneg _
  calc ‖e N‖ ≤ S * ∑ i ∈ Finset.range (N + 1), ‖lconv ρ e i‖ := h0.trans (mul_le_mul_of_nonneg_right hS hsum0)
    _ ≤ _ := (mul_le_mul_of_nonneg_left hres hS0).trans (le_of_eq (by ring))

end Verif
