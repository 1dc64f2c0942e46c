import Verif.ErkConverge
import Verif.Prop.ErkTerm
import Mathlib.Analysis.Calculus.MeanValue

/-!
# How an explicit Runge-Kutta step depends on the initial value and on the right-hand side, with explicit constants
-/

set_option autoImplicit false

namespace Verif
open Spec Set

/-- One step for `f` and one for `g` with the same explicit tableau.  `f` is Lipschitz with constant `L`, `g` differs from `f` by at most `ε`, and the
numbers `γ i` bound the amplification of the stages. -/
theorem rkStep_perturb {s n : ℕ} {A : Fin s → Fin s → ℝ} {b c : Fin s → ℝ} {f g : ℝ → (Fin n → ℝ) → (Fin n → ℝ)} {t h L ε θ : ℝ} {y z y' z' : Fin n → ℝ}
    {k l : Fin s → Fin n → ℝ} {γ : Fin s → ℝ} (hA : ∀ i j, i ≤ j → A i j = 0) (hL : 0 ≤ L) (hε : 0 ≤ ε) (hh : 0 ≤ h) (hθ : L * h ≤ θ)
    (hf : ∀ t y z, ‖f t y - f t z‖ ≤ L * ‖y - z‖) (hg : ∀ t y, ‖f t y - g t y‖ ≤ ε) (hγ0 : ∀ i, 0 ≤ γ i)
    (hγ : ∀ i, 1 + θ * ∑ j, |A i j| * γ j ≤ γ i) (hk : IsRKStep A b c f t h y y' k) (hl : IsRKStep A b c g t h z z' l) :
    ‖y' - z'‖ ≤ ‖y - z‖ + h * (∑ i, |b i| * γ i) * (L * ‖y - z‖ + ε) := by
  have hD : 0 ≤ L * ‖y - z‖ + ε := by positivity
  have hstage : ∀ i, ‖k i - l i‖ ≤ γ i * (L * ‖y - z‖ + ε) := by
    intro i
    induction i using WellFoundedLT.induction with
    | ind i ih =>
      rw [hk.1 i, hl.1 i]
      have h1 := hf (t + c i * h) (y + h • ∑ j, A i j • k j) (z + h • ∑ j, A i j • l j)
      have h2 := hg (t + c i * h) (z + h • ∑ j, A i j • l j)
      have h3 : (y + h • ∑ j, A i j • k j) - (z + h • ∑ j, A i j • l j) = (y - z) + h • ∑ j, A i j • (k j - l j) := by
        simp only [smul_sub, Finset.sum_sub_distrib]
        abel
      have h4 : ‖∑ j, A i j • (k j - l j)‖ ≤ ∑ j, |A i j| * γ j * (L * ‖y - z‖ + ε) := by
        refine (norm_sum_le _ _).trans (Finset.sum_le_sum fun j _ => ?_)
        rw [norm_smul, Real.norm_eq_abs, mul_assoc]
        by_cases hij : i ≤ j
        · rw [hA i j hij]; simp
        · exact mul_le_mul_of_nonneg_left (ih j (not_le.mp hij)) (abs_nonneg _)
      have h5 : ‖(y - z) + h • ∑ j, A i j • (k j - l j)‖ ≤ ‖y - z‖ + h * ∑ j, |A i j| * γ j * (L * ‖y - z‖ + ε) := by
        refine (norm_add_le _ _).trans (add_le_add le_rfl ?_)
        rw [norm_smul, Real.norm_eq_abs, abs_of_nonneg hh]
        exact mul_le_mul_of_nonneg_left h4 hh
      rw [h3] at h1
      have h6 := norm_sub_le_norm_sub_add_norm_sub (f (t + c i * h) (y + h • ∑ j, A i j • k j)) (f (t + c i * h) (z + h • ∑ j, A i j • l j))
        (g (t + c i * h) (z + h • ∑ j, A i j • l j))
      have h7 := mul_le_mul_of_nonneg_left h5 hL
      rw [← Finset.sum_mul] at h7
      have hS : 0 ≤ ∑ j, |A i j| * γ j := Finset.sum_nonneg fun j _ => mul_nonneg (abs_nonneg _) (hγ0 j)
      have h8 : L * h * ((∑ j, |A i j| * γ j) * (L * ‖y - z‖ + ε)) ≤ θ * ((∑ j, |A i j| * γ j) * (L * ‖y - z‖ + ε)) :=
        mul_le_mul_of_nonneg_right hθ (mul_nonneg hS hD)
      have h9 := mul_le_mul_of_nonneg_right (hγ i) hD
      linarith
  rw [hk.2, hl.2]
  have h3 : (y + h • ∑ i, b i • k i) - (z + h • ∑ i, b i • l i) = (y - z) + h • ∑ i, b i • (k i - l i) := by
    simp only [smul_sub, Finset.sum_sub_distrib]
    abel
  rw [h3]
  refine (norm_add_le _ _).trans (add_le_add le_rfl ?_)
  rw [norm_smul, Real.norm_eq_abs, abs_of_nonneg hh, mul_assoc, Finset.sum_mul]
  refine mul_le_mul_of_nonneg_left ((norm_sum_le _ _).trans (Finset.sum_le_sum fun i _ => ?_)) hh
  rw [norm_smul, Real.norm_eq_abs, mul_assoc]
  exact mul_le_mul_of_nonneg_left (hstage i) (abs_nonneg _)

/-! ### the constants of the shipped tableaux -/

/-- amplification of the stages for `L h ≤ 1/10`: `γ_i = 1 + 1/10 Σ_j |a_ij| γ_j` -/
def stageAmp (sc : SolverCoeffs ℚ) : ℕ → List ℚ
  | 0 => []
  | i + 1 => stageAmp sc i ++ [1 + 1 / 10 * ∑ j ∈ Finset.range i, |sc.a i j| * (stageAmp sc i).getD j 0]

/-- bound for `Σ_i |b_i| γ_i` -/
def ampBound (m : ℤ) : ℚ :=
  if m = 100 then 1 else if m = 110 then 53 / 50 else if m = 120 then 53 / 50 else if m = 130 then 11 / 10 else if m = 131 then 17 / 5 else 43 / 20

def ampOK (sc : SolverCoeffs ℚ) (κ : ℚ) : Bool :=
  let g := stageAmp sc sc.ns
  ((List.range sc.ns).all fun i => decide (0 ≤ g.getD i 0) && decide (1 + 1 / 10 * ∑ j ∈ Finset.range sc.ns, |sc.a i j| * g.getD j 0 ≤ g.getD i 0)) &&
    decide (∑ i ∈ Finset.range sc.ns, |sc.bw i| * g.getD i 0 ≤ κ)

theorem ampOK_shipped : ∀ m ∈ erkImplemented, ampOK (erkCoeffs m) (ampBound m) = true := by
  decide +kernel

theorem shipped_amp {m : ℤ} (hm : m ∈ erkImplemented) :
    ∃ γ : Fin (erkCoeffs m : SolverCoeffs ℝ).ns → ℝ, (∀ i, 0 ≤ γ i) ∧
      (∀ i : Fin (erkCoeffs m : SolverCoeffs ℝ).ns, 1 + 1 / 10 * ∑ j : Fin (erkCoeffs m : SolverCoeffs ℝ).ns, |(erkCoeffs m : SolverCoeffs ℝ).a i j| * γ j ≤ γ i) ∧
      ∑ i : Fin (erkCoeffs m : SolverCoeffs ℝ).ns, |(erkCoeffs m : SolverCoeffs ℝ).bw i| * γ i ≤ ampBound m := by
  have h := ampOK_shipped m hm
  rw [erkCoeffs_cast]
  generalize (erkCoeffs m : SolverCoeffs ℚ) = sc at *
  simp only [ampOK, Bool.and_eq_true, List.all_eq_true, List.mem_range, decide_eq_true_eq] at h
  generalize stageAmp sc sc.ns = g at h
  have e := SolverCoeffs.ns_cast (sc := sc)
  refine ⟨fun i => ((g.getD i 0 : ℚ) : ℝ), fun i => ?_, fun i => ?_, ?_⟩
  · have := (h.1 i (by rw [← e]; exact i.isLt)).1
    exact Rat.cast_nonneg.mpr this
  · have := (Rat.cast_le (K := ℝ)).2 (h.1 i (by rw [← e]; exact i.isLt)).2
    push_cast at this
    simp only [SolverCoeffs.a_cast]
    generalize i.val = iv at this ⊢
    rw [Fin.sum_univ_eq_sum_range (fun j => |((sc.a iv j : ℚ) : ℝ)| * ((g.getD j 0 : ℚ) : ℝ)), e]
    exact this
  · have := (Rat.cast_le (K := ℝ)).2 h.2
    push_cast at this
    simp only [SolverCoeffs.bw_cast]
    rw [Fin.sum_univ_eq_sum_range (fun j => |((sc.bw j : ℚ) : ℝ)| * ((g.getD j 0 : ℚ) : ℝ)), e]
    exact this

/-- a discrete Gronwall inequality in terms of the exponential function -/
theorem gronwall_exp {Λ e0 d T x x' D : ℝ} (hΛ : 0 ≤ Λ) (he : 0 ≤ e0) (hd : 0 ≤ d) (hT : 0 ≤ T) (hD : 0 ≤ D) (hx : x ≤ Real.exp (Λ * T) * (e0 + D * T))
    (hx' : x' ≤ (1 + Λ * d) * x + d * D) : x' ≤ Real.exp (Λ * (T + d)) * (e0 + D * (T + d)) := by
  have h1 : 1 + Λ * d ≤ Real.exp (Λ * d) := by linarith [Real.add_one_le_exp (Λ * d)]
  have h0 : 0 ≤ 1 + Λ * d := by positivity
  have h2 : (1 + Λ * d) * x ≤ Real.exp (Λ * d) * (Real.exp (Λ * T) * (e0 + D * T)) :=
    (mul_le_mul_of_nonneg_left hx h0).trans (mul_le_mul_of_nonneg_right h1 (by positivity))
  have h3 : Real.exp (Λ * (T + d)) = Real.exp (Λ * d) * Real.exp (Λ * T) := by rw [← Real.exp_add]; ring_nf
  have h4 : 1 ≤ Real.exp (Λ * d) * Real.exp (Λ * T) := one_le_mul_of_one_le_of_one_le (Real.one_le_exp (by positivity)) (Real.one_le_exp (by positivity))
  have h5 : d * D ≤ Real.exp (Λ * d) * Real.exp (Λ * T) * (d * D) := le_mul_of_one_le_left (by positivity) h4
  rw [h3]
  linarith

/-- `‖U(t+h) - U(t) - h U'(t)‖ ≤ M h²/2` if `U'` is Lipschitz with constant `M` -/
theorem taylor_one {n : ℕ} {U V : ℝ → Fin n → ℝ} {a b M : ℝ} (hab : a ≤ b) (hU : ∀ t ∈ Icc a b, HasDerivWithinAt U (V t) (Icc a b) t)
    (hM : ∀ t ∈ Icc a b, ‖V t - V a‖ ≤ M * (t - a)) : ‖U b - U a - (b - a) • V a‖ ≤ M * (b - a) ^ 2 / 2 := by
  have hd : ∀ t ∈ Icc a b, HasDerivWithinAt (fun s => U s - U a - (s - a) • V a) (V t - V a) (Icc a b) t := by
    intro t ht
    have h1 := ((hU t ht).sub_const (U a)).sub (((hasDerivWithinAt_id t (Icc a b)).sub_const a).smul_const (V a))
    rw [one_smul] at h1
    exact h1
  refine image_norm_le_of_norm_deriv_right_le_deriv_boundary (a := a) (b := b) (f := fun s => U s - U a - (s - a) • V a) (f' := fun t => V t - V a)
    (B := fun s => M * (s - a) ^ 2 / 2) (B' := fun s => M * (s - a)) (fun t ht => (hd t ht).continuousWithinAt) ?_ ?_ ?_ ?_ (right_mem_Icc.mpr hab)
  · intro t ht
    exact (hd t ⟨ht.1, ht.2.le⟩).mono_of_mem_nhdsWithin (Icc_mem_nhdsGE_of_mem ht)
  · simp
  · intro t
    have h1 := ((((hasDerivAt_id t).sub_const a).pow 2).const_mul M).div_const 2
    have h2 : M * (((2 : ℕ) : ℝ) * (id t - a) ^ (2 - 1) * 1) / 2 = M * (t - a) := by norm_num; ring
    rw [h2] at h1
    exact h1
  · intro t ht
    exact hM t ⟨ht.1, ht.2.le⟩

end Verif
