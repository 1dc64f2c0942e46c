import Mathlib.Analysis.InnerProductSpace.Basic
import Mathlib.Analysis.InnerProductSpace.PiL2
import Mathlib.Algebra.BigOperators.Fin

/-!
# Nonlinear stability of Runge–Kutta steps: algebra (helper lemmas for C94, C95)
-/

set_option autoImplicit false

namespace Verif

open scoped RealInnerProductSpace

variable {V : Type} [NormedAddCommGroup V] [InnerProductSpace ℝ V] {s : ℕ}

/-- the matrix of algebraic stability -/
def algMat (A : Fin s → Fin s → ℝ) (b : Fin s → ℝ) (i j : Fin s) : ℝ := b i * A i j + b j * A j i - b i * b j

/-- `Σ M_ij ⟨u_i, u_j⟩` -/
noncomputable def form (M : Fin s → Fin s → ℝ) (u : Fin s → V) : ℝ := ∑ i, ∑ j, M i j * ⟪u i, u j⟫

theorem form_sym (M : Fin s → Fin s → ℝ) (u : Fin s → V) : form (fun i j => M j i) u = form M u := by
  unfold form
  rw [Finset.sum_comm]
  exact Finset.sum_congr rfl fun i _ => Finset.sum_congr rfl fun j _ => by rw [real_inner_comm]

theorem form_add (M N : Fin s → Fin s → ℝ) (u : Fin s → V) : form (fun i j => M i j + N i j) u = form M u + form N u := by
  simp only [form, add_mul, Finset.sum_add_distrib]

theorem form_smul (a : ℝ) (M : Fin s → Fin s → ℝ) (u : Fin s → V) : form (fun i j => a * M i j) u = a * form M u := by
  simp only [form, Finset.mul_sum, mul_assoc]

theorem norm_sum_smul_sq (v : Fin s → ℝ) (u : Fin s → V) : ‖∑ i, v i • u i‖ ^ 2 = form (fun i j => v i * v j) u := by
  rw [← real_inner_self_eq_norm_sq, sum_inner]
  unfold form
  refine Finset.sum_congr rfl fun i _ => ?_
  rw [inner_sum]
  refine Finset.sum_congr rfl fun j _ => ?_
  rw [real_inner_smul_left, real_inner_smul_right, mul_assoc]

theorem form_diag (w : Fin s → ℝ) (u : Fin s → V) : form (fun i j => if i = j then w i else 0) u = ∑ i, w i * ‖u i‖ ^ 2 := by
  unfold form
  refine Finset.sum_congr rfl fun i _ => ?_
  rw [Finset.sum_eq_single i]
  · dsimp only
    rw [if_pos rfl, real_inner_self_eq_norm_sq]
  · intro j _ hj
    dsimp only
    rw [if_neg (Ne.symm hj), zero_mul]
  · intro h; exact absurd (Finset.mem_univ i) h

/-- a matrix with small entries has a small form -/
theorem form_small {E : Fin s → Fin s → ℝ} {ε : ℝ} (hE : ∀ i j, |E i j| ≤ ε) (u : Fin s → V) : |form E u| ≤ s * ε * ∑ i, ‖u i‖ ^ 2 := by
  rcases Nat.eq_zero_or_pos s with rfl | hs
  · simp [form]
  have hε : 0 ≤ ε := (abs_nonneg _).trans (hE ⟨0, hs⟩ ⟨0, hs⟩)
  unfold form
  have h1 : ∀ i j, |E i j * ⟪u i, u j⟫| ≤ ε * ((‖u i‖ ^ 2 + ‖u j‖ ^ 2) / 2) := by
    intro i j
    rw [abs_mul]
    refine mul_le_mul (hE i j) ?_ (abs_nonneg _) hε
    refine (abs_real_inner_le_norm _ _).trans ?_
    nlinarith [sq_nonneg (‖u i‖ - ‖u j‖)]
  refine (Finset.abs_sum_le_sum_abs _ _).trans ((Finset.sum_le_sum fun i _ => (Finset.abs_sum_le_sum_abs _ _).trans
    (Finset.sum_le_sum fun j _ => h1 i j)).trans (le_of_eq ?_))
  simp only [← Finset.mul_sum, ← Finset.sum_div, Finset.sum_add_distrib, Finset.sum_const, Finset.card_univ, Fintype.card_fin, nsmul_eq_mul]
  ring

/-- **energy identity** (Burrage–Butcher, Crouzeix): `|e1|² = |e0|² + 2 Σ b_j ⟨P_j, G_j⟩ - Σ m_ij ⟨P_i, P_j⟩` -/
theorem energy (A : Fin s → Fin s → ℝ) (b : Fin s → ℝ) (e0 : V) (P : Fin s → V) :
    ‖e0 + ∑ j, b j • P j‖ ^ 2 = ‖e0‖ ^ 2 + 2 * ∑ j, b j * ⟪P j, e0 + ∑ k, A j k • P k⟫ - form (algMat A b) P := by
  have h1 : ∑ j, b j * ⟪P j, e0 + ∑ k, A j k • P k⟫ = ⟪e0, ∑ j, b j • P j⟫ + form (fun i j => b i * A i j) P := by
    rw [inner_sum]
    unfold form
    rw [← Finset.sum_add_distrib]
    refine Finset.sum_congr rfl fun j _ => ?_
    rw [inner_add_right, inner_sum, mul_add, real_inner_smul_right, real_inner_comm, Finset.mul_sum]
    congr 1
    refine Finset.sum_congr rfl fun k _ => ?_
    rw [real_inner_smul_right]; ring
  have h2 : form (algMat A b) P = form (fun i j => b i * A i j) P + form (fun i j => b i * A i j) P - form (fun i j => b i * b j) P := by
    have h3 := form_sym (fun i j => b i * A i j) P
    have h4 : form (algMat A b) P + form (fun i j => b i * b j) P = form (fun i j => b i * A i j) P + form (fun i j => b j * A j i) P := by
      rw [← form_add, ← form_add]
      congr 1
      funext i j
      unfold algMat; ring
    linarith
  rw [h2, h1, ← norm_sum_smul_sq, norm_add_sq_real]
  ring

/-- **contractivity**: non-negative weights and a non-negative form -/
theorem step_contract {A : Fin s → Fin s → ℝ} {b : Fin s → ℝ} (hb : ∀ j, 0 ≤ b j) (hM : ∀ u : Fin s → V, 0 ≤ form (algMat A b) u) {e0 : V}
    {F : Fin s → V} {h : ℝ} (hh : 0 ≤ h) (hF : ∀ j, ⟪F j, e0 + h • ∑ k, A j k • F k⟫ ≤ 0) : ‖e0 + h • ∑ j, b j • F j‖ ≤ ‖e0‖ := by
  have e := energy A b e0 fun j => h • F j
  have e1 : ∑ j, b j • h • F j = h • ∑ j, b j • F j := by rw [Finset.smul_sum]; exact Finset.sum_congr rfl fun j _ => smul_comm _ _ _
  have e2 : ∀ j, ∑ k, A j k • h • F k = h • ∑ k, A j k • F k := fun j => by
    rw [Finset.smul_sum]; exact Finset.sum_congr rfl fun k _ => smul_comm _ _ _
  rw [e1] at e
  simp only [e2] at e
  have h1 : ∑ j, b j * ⟪h • F j, e0 + h • ∑ k, A j k • F k⟫ ≤ 0 := Finset.sum_nonpos fun j _ => by
    rw [real_inner_smul_left]
    exact mul_nonpos_of_nonneg_of_nonpos (hb j) (mul_nonpos_of_nonneg_of_nonpos hh (hF j))
  have h2 := hM fun j => h • F j
  exact le_of_sq_le_sq (by linarith) (norm_nonneg _)

/-- `γ X² ≤ T² + X T` bounds `X` -/
theorem quad_bound {γ X T : ℝ} (hγ : 0 < γ) (hT : 0 ≤ T) (h : γ * X ^ 2 ≤ T ^ 2 + X * T) : X ≤ (1 + 1 / γ) * T := by
  by_contra hc
  push Not at hc
  have hX : T ≤ X := by
    have : T ≤ (1 + 1 / γ) * T := by
      have : 0 ≤ 1 / γ * T := by positivity
      linarith
    linarith
  have h1 : (1 + 1 / γ) * T * γ = γ * T + T := by field_simp
  have h2 : γ * T + T < γ * X := by nlinarith
  rcases hT.eq_or_lt with h0 | h0
  · subst h0
    nlinarith
  · have hX0 : 0 < X := by linarith
    have h3 : (γ * T + T) * X < γ * X * X := mul_lt_mul_of_pos_right h2 hX0
    have h4 : T * (γ * T + T) ≤ X * (γ * T + T) := mul_le_mul_of_nonneg_right hX (by positivity)
    have : (1 + γ) * T * T ≤ (1 + γ) * T * X := by nlinarith
    nlinarith [mul_pos hγ (mul_pos h0 h0), mul_pos hγ (mul_pos h0 hX0)]

theorem norm_sum_smul_le {ι : Type} [Fintype ι] (w : ι → ℝ) (u : ι → V) {W B : ℝ} (hW : ∑ i, |w i| ≤ W) (hu : ∀ i, ‖u i‖ ≤ B) (hB : 0 ≤ B) :
    ‖∑ i, w i • u i‖ ≤ W * B := by
  refine (norm_sum_le _ _).trans ?_
  refine le_trans (Finset.sum_le_sum fun i _ => ?_) (le_trans (le_of_eq (Finset.sum_mul _ _ _).symm) (mul_le_mul_of_nonneg_right hW hB))
  rw [norm_smul, Real.norm_eq_abs]
  exact mul_le_mul_of_nonneg_left (hu i) (abs_nonneg _)

/-- the data of a coercive, almost algebraically stable tableau: `ω` is the inverse of `A` -/
structure StableData (A : Fin s → Fin s → ℝ) (b : Fin s → ℝ) (ω : Fin s → Fin s → ℝ) (D : Fin s → ℝ) (β ε : ℝ) : Prop where
  hb : ∀ j, 0 ≤ b j
  hε : 0 ≤ ε
  hβ : 0 < β
  hD : ∀ j, 0 ≤ D j
  right : ∀ i k, ∑ j, A i j * ω j k = if i = k then 1 else 0
  left : ∀ i k, ∑ j, ω i j * A j k = if i = k then 1 else 0
  alg : ∀ (V : Type) [NormedAddCommGroup V] [InnerProductSpace ℝ V] (u : Fin s → V), -(ε * ∑ i, ‖u i‖ ^ 2) ≤ form (algMat A b) u
  coer : ∀ (V : Type) [NormedAddCommGroup V] [InnerProductSpace ℝ V] (u : Fin s → V), β * ∑ i, ‖u i‖ ^ 2 ≤ form (fun j k => D j * ω j k) u

/-- what a step with defects `r` in the stage equations looks like -/
structure Perturbed (A : Fin s → Fin s → ℝ) (b d : Fin s → ℝ) (h : ℝ) (e0 e1 : V) (F G r : Fin s → V) : Prop where
  stage : ∀ i, G i = e0 + h • ∑ j, A i j • F j + r i
  weights : ∀ j, ∑ i, d i * A i j = b j
  value : e1 = e0 + h • ∑ j, b j • F j + ∑ i, d i • r i
  mono : ∀ j, ⟪F j, G j⟫ ≤ 0

/-- the increments in terms of the stages -/
theorem Perturbed.increments {A : Fin s → Fin s → ℝ} {b d : Fin s → ℝ} {ω : Fin s → Fin s → ℝ} {h : ℝ} {e0 e1 : V} {F G r : Fin s → V} (hP : Perturbed A b d h e0 e1 F G r)
    (right : ∀ i k, ∑ j, A i j * ω j k = if i = k then 1 else 0) (left : ∀ i k, ∑ j, ω i j * A j k = if i = k then 1 else 0) :
    let P := fun j => h • F j + ∑ k, ω j k • r k
    (∀ i, G i = e0 + ∑ j, A i j • P j) ∧ e1 = e0 + ∑ j, b j • P j ∧ ∀ j, P j = ∑ k, ω j k • (G k - e0) := by
  intro P
  have hsum : ∀ (w : Fin s → ℝ) (z : Fin s → ℝ), (∀ k, ∑ j, w j * ω j k = z k) → ∑ j, w j • P j = h • ∑ j, w j • F j + ∑ k, z k • r k := by
    intro w z hz
    simp only [P, smul_add, Finset.sum_add_distrib, Finset.smul_sum]
    congr 1
    · exact Finset.sum_congr rfl fun j _ => smul_comm _ _ _
    · rw [Finset.sum_comm]
      refine Finset.sum_congr rfl fun k _ => ?_
      rw [← hz k, Finset.sum_smul]
      exact Finset.sum_congr rfl fun j _ => smul_smul _ _ _
  have hG : ∀ i, G i = e0 + ∑ j, A i j • P j := by
    intro i
    rw [hsum (A i) (fun k => if i = k then 1 else 0) (right i), hP.stage i]
    have : ∑ k, (if i = k then (1 : ℝ) else 0) • r k = r i := by simp
    rw [this, add_assoc]
  refine ⟨hG, ?_, ?_⟩
  · rw [hsum b d ?_, hP.value, add_assoc]
    intro k
    simp only [← hP.weights, Finset.sum_mul]
    rw [Finset.sum_comm]
    have : ∀ i, ∑ j, d i * A i j * ω j k = if i = k then d i else 0 := by
      intro i
      have e : (if i = k then d i else 0) = d i * if i = k then 1 else 0 := by split <;> simp
      rw [e, ← right i k, Finset.mul_sum]
      exact Finset.sum_congr rfl fun j _ => by ring
    simp [this]
  · intro j
    have : ∀ k, G k - e0 = ∑ l, A k l • P l := fun k => by rw [hG k, add_sub_cancel_left]
    simp only [this, Finset.smul_sum, smul_smul]
    rw [Finset.sum_comm]
    simp only [← Finset.sum_smul, left]
    simp

/-- the arithmetic at the end of `perturbed_bound` -/
theorem final_square {E ρ W K κ ε : ℝ} (hE : 0 ≤ E) (hρ : 0 ≤ ρ) (hW : 0 ≤ W) (hK : 0 ≤ K) (hκ : 0 ≤ κ) (hε : 0 ≤ ε) (hε1 : ε ≤ 1) :
    E ^ 2 + 2 * (W * (ρ * (E + K * (E + ρ)))) + ε * (κ * (E + ρ) ^ 2) ≤ ((1 + κ * ε) * E + (1 + 2 * W * (1 + K) + κ) * ρ) ^ 2 := by
  obtain ⟨C, hC⟩ : ∃ C, C = 1 + 2 * W * (1 + K) + κ := ⟨_, rfl⟩
  obtain ⟨μ, hμ⟩ : ∃ μ, μ = κ * ε := ⟨_, rfl⟩
  have m1 : 0 ≤ μ := hμ ▸ mul_nonneg hκ hε
  have m2 : μ ≤ κ := hμ ▸ mul_le_of_le_one_right hκ hε1
  have m3 : 0 ≤ W * (1 + K) := by positivity
  have m4 : W * (1 + K) = W + W * K := by ring
  rw [← hC, ← hμ]
  have hC1 : 1 ≤ C := by linarith
  have c1 : 2 * (W * (1 + K)) + 2 * μ ≤ 2 * C := by linarith
  have c2 : 2 * (W * K) + μ ≤ C ^ 2 := by
    have h1 : 2 * (W * K) + μ ≤ C := by linarith
    have h2 : C ≤ C ^ 2 := by rw [sq]; exact le_mul_of_one_le_left (by linarith) hC1
    linarith
  have n1 : 0 ≤ E * ρ := mul_nonneg hE hρ
  have n2 := mul_le_mul_of_nonneg_right c1 n1
  have n3 := mul_le_mul_of_nonneg_right c2 (sq_nonneg ρ)
  have n4 : 0 ≤ μ * E ^ 2 := mul_nonneg m1 (sq_nonneg _)
  have n5 : 0 ≤ μ ^ 2 * E ^ 2 := by positivity
  have n6 : 0 ≤ μ * (C * (E * ρ)) := mul_nonneg m1 (mul_nonneg (by linarith) n1)
  have l : E ^ 2 + 2 * (W * (ρ * (E + K * (E + ρ)))) + ε * (κ * (E + ρ) ^ 2) =
      E ^ 2 + (2 * (W * (1 + K)) + 2 * μ) * (E * ρ) + (2 * (W * K) + μ) * ρ ^ 2 + μ * E ^ 2 := by rw [hμ]; ring
  have r : ((1 + μ) * E + C * ρ) ^ 2 = E ^ 2 + 2 * (μ * E ^ 2) + μ ^ 2 * E ^ 2 + 2 * C * (E * ρ) + 2 * (μ * (C * (E * ρ))) + C ^ 2 * ρ ^ 2 := by ring
  rw [l, r]
  linarith

/-- **stability with defects**: the difference grows by at most the defects, whatever the step size and the right-hand side -/
theorem perturbed_bound {A : Fin s → Fin s → ℝ} {b : Fin s → ℝ} {ω : Fin s → Fin s → ℝ} {D : Fin s → ℝ} {β ε : ℝ}
    (hS : StableData A b ω D β ε) (hε1 : ε ≤ 1) :
    ∃ κ C : ℝ, 0 ≤ κ ∧ 0 ≤ C ∧ ∀ (V : Type) [NormedAddCommGroup V] [InnerProductSpace ℝ V] (d : Fin s → ℝ) (h : ℝ) (e0 e1 : V)
      (F G r : Fin s → V) (ρ : ℝ), 0 ≤ h → 0 ≤ ρ → Perturbed A b d h e0 e1 F G r → (∀ i, ‖r i‖ ≤ ρ) →
      ‖e1‖ ≤ (1 + κ * ε) * ‖e0‖ + C * ρ := by
  obtain ⟨Ω, hΩ⟩ : ∃ Ω, Ω = 1 + ∑ j, ∑ k, |ω j k| := ⟨_, rfl⟩
  have hΩ1 : 1 ≤ Ω := by
    have : 0 ≤ ∑ j, ∑ k, |ω j k| := Finset.sum_nonneg fun _ _ => Finset.sum_nonneg fun _ _ => abs_nonneg _
    linarith
  have hrow : ∀ j, ∑ k, |ω j k| ≤ Ω := fun j => by
    have := Finset.single_le_sum (f := fun j => ∑ k, |ω j k|) (fun _ _ => Finset.sum_nonneg fun _ _ => abs_nonneg _) (Finset.mem_univ j)
    linarith
  obtain ⟨Δ, hΔ⟩ : ∃ Δ, Δ = 1 + ∑ j, D j := ⟨_, rfl⟩
  have hD0 : 0 ≤ ∑ j, D j := Finset.sum_nonneg fun j _ => hS.hD j
  have hΔ1 : 1 ≤ Δ := by linarith
  obtain ⟨B, hB⟩ : ∃ B, B = ∑ j, b j := ⟨_, rfl⟩
  have hB0 : 0 ≤ B := by rw [hB]; exact Finset.sum_nonneg fun j _ => hS.hb j
  obtain ⟨γ, hγ⟩ : ∃ γ, γ = β / ((s + 1) * (Δ * Ω)) := ⟨_, rfl⟩
  have hγ0 : 0 < γ := by rw [hγ]; have := hS.hβ; positivity
  obtain ⟨K, hK⟩ : ∃ K, K = 1 + 1 / γ := ⟨_, rfl⟩
  have hK0 : 0 ≤ K := by rw [hK]; positivity
  obtain ⟨κ, hκ⟩ : ∃ κ, κ = s * Ω ^ 2 * K ^ 2 := ⟨_, rfl⟩
  have hκ0 : 0 ≤ κ := by rw [hκ]; positivity
  obtain ⟨C, hC⟩ : ∃ C, C = 1 + 2 * (B * Ω) * (1 + K) + κ := ⟨_, rfl⟩
  have hC1 : 1 ≤ C := by
    have : 0 ≤ 2 * (B * Ω) * (1 + K) := by positivity
    linarith
  refine ⟨κ, C, hκ0, by linarith, ?_⟩
  intro V _ _ d h e0 e1 F G r ρ hh hρ hP hr
  obtain ⟨hG, he1, hPG⟩ := hP.increments hS.right hS.left
  obtain ⟨σ, hσ⟩ : ∃ σ : Fin s → V, σ = fun j => ∑ k, ω j k • r k := ⟨_, rfl⟩
  have hσn : ∀ j, ‖σ j‖ ≤ Ω * ρ := fun j => by rw [hσ]; exact norm_sum_smul_le _ _ (hrow j) hr hρ
  obtain ⟨P, hPd⟩ : ∃ P : Fin s → V, P = fun j => h • F j + σ j := ⟨_, rfl⟩
  have e : (fun j => h • F j + ∑ k, ω j k • r k) = P := by rw [hPd, hσ]
  have e' : ∀ j, h • F j + ∑ k, ω j k • r k = P j := fun j => congrFun e j
  simp only [e'] at hG he1 hPG
  obtain ⟨H, hH⟩ : ∃ H : Fin s → V, H = fun j => G j - e0 := ⟨_, rfl⟩
  obtain ⟨X, hX⟩ : ∃ X, X = ∑ j, ‖H j‖ := ⟨_, rfl⟩
  have hX0 : 0 ≤ X := by rw [hX]; exact Finset.sum_nonneg fun _ _ => norm_nonneg _
  have hHX : ∀ j, ‖H j‖ ≤ X := fun j => by
    rw [hX]; exact Finset.single_le_sum (f := fun j => ‖H j‖) (fun _ _ => norm_nonneg _) (Finset.mem_univ j)
  have hPn : ∀ j, ‖P j‖ ≤ Ω * X := fun j => by
    rw [hPG j]
    exact norm_sum_smul_le _ _ (hrow j) (fun k => by have := hHX k; rw [hH] at this; exact this) hX0
  have hGn : ∀ j, ‖G j‖ ≤ ‖e0‖ + X := fun j => by
    have h1 : G j = e0 + H j := by rw [hH]; exact (add_sub_cancel e0 (G j)).symm
    rw [h1]
    exact (norm_add_le _ _).trans (by linarith [hHX j])
  have hPGin : ∀ j, ⟪P j, G j⟫ ≤ Ω * ρ * (‖e0‖ + X) := fun j => by
    rw [hPd]
    dsimp only
    rw [inner_add_left, real_inner_smul_left]
    have h1 := mul_nonpos_of_nonneg_of_nonpos hh (hP.mono j)
    have h2 : ⟪σ j, G j⟫ ≤ Ω * ρ * (‖e0‖ + X) :=
      (real_inner_le_norm _ _).trans (mul_le_mul (hσn j) (hGn j) (norm_nonneg _) (by positivity))
    linarith
  have hT : 0 ≤ ‖e0‖ + ρ := by positivity
  -- bound of the stages
  have hXK : X ≤ K * (‖e0‖ + ρ) := by
    rw [hK]
    refine quad_bound hγ0 hT ?_
    have h1 := hS.coer V H
    have h2 : form (fun j k => D j * ω j k) H = ∑ j, D j * ⟪P j, H j⟫ := by
      unfold form
      refine Finset.sum_congr rfl fun j _ => ?_
      rw [hPG j, sum_inner, Finset.mul_sum]
      refine Finset.sum_congr rfl fun k _ => ?_
      have : H k = G k - e0 := by rw [hH]
      rw [real_inner_smul_left, ← this, real_inner_comm]
      ring
    have h3 : ∑ j, D j * ⟪P j, H j⟫ ≤ Δ * (Ω * ρ * (‖e0‖ + X) + Ω * X * ‖e0‖) := by
      have h4 : ∀ j, D j * ⟪P j, H j⟫ ≤ D j * (Ω * ρ * (‖e0‖ + X) + Ω * X * ‖e0‖) := fun j => by
        refine mul_le_mul_of_nonneg_left ?_ (hS.hD j)
        have h5 : H j = G j - e0 := by rw [hH]
        rw [h5, inner_sub_right]
        have h6 : -⟪P j, e0⟫ ≤ Ω * X * ‖e0‖ := by
          have := abs_real_inner_le_norm (P j) e0
          have h7 := mul_le_mul_of_nonneg_right (hPn j) (norm_nonneg e0)
          linarith [neg_abs_le ⟪P j, e0⟫]
        linarith [hPGin j]
      refine (Finset.sum_le_sum fun j _ => h4 j).trans ?_
      rw [← Finset.sum_mul]
      refine mul_le_mul_of_nonneg_right (by linarith) (by positivity)
    have h5 : X ^ 2 ≤ (s + 1) * ∑ j, ‖H j‖ ^ 2 := by
      have := Finset.sum_mul_sq_le_sq_mul_sq Finset.univ (fun _ : Fin s => (1 : ℝ)) fun j => ‖H j‖
      simp only [one_mul, one_pow, Finset.sum_const, Finset.card_univ, Fintype.card_fin, nsmul_eq_mul, mul_one] at this
      rw [← hX] at this
      have h6 : 0 ≤ ∑ j, ‖H j‖ ^ 2 := Finset.sum_nonneg fun _ _ => sq_nonneg _
      nlinarith
    have hβ := hS.hβ
    have h8 : β * X ^ 2 ≤ (s + 1) * (Δ * Ω) * ((‖e0‖ + ρ) ^ 2 + X * (‖e0‖ + ρ)) := by
      have h9 : β * X ^ 2 ≤ (s + 1) * (β * ∑ j, ‖H j‖ ^ 2) := by nlinarith
      have h10 : β * ∑ j, ‖H j‖ ^ 2 ≤ Δ * (Ω * ρ * (‖e0‖ + X) + Ω * X * ‖e0‖) := by linarith [h2 ▸ h1]
      have h11 : Δ * (Ω * ρ * (‖e0‖ + X) + Ω * X * ‖e0‖) ≤ Δ * Ω * ((‖e0‖ + ρ) ^ 2 + X * (‖e0‖ + ρ)) := by
        have : Ω * ρ * (‖e0‖ + X) + Ω * X * ‖e0‖ ≤ Ω * ((‖e0‖ + ρ) ^ 2 + X * (‖e0‖ + ρ)) := by
          have q : ρ * (‖e0‖ + X) + X * ‖e0‖ ≤ (‖e0‖ + ρ) ^ 2 + X * (‖e0‖ + ρ) := by
            nlinarith [mul_nonneg hρ (norm_nonneg e0), sq_nonneg ‖e0‖, sq_nonneg ρ]
          calc Ω * ρ * (‖e0‖ + X) + Ω * X * ‖e0‖ = Ω * (ρ * (‖e0‖ + X) + X * ‖e0‖) := by ring
            _ ≤ _ := mul_le_mul_of_nonneg_left q (by linarith)
        calc Δ * (Ω * ρ * (‖e0‖ + X) + Ω * X * ‖e0‖) ≤ Δ * (Ω * ((‖e0‖ + ρ) ^ 2 + X * (‖e0‖ + ρ))) :=
              mul_le_mul_of_nonneg_left this (by linarith)
          _ = _ := by ring
      have hs1 : (0 : ℝ) ≤ s + 1 := by positivity
      calc β * X ^ 2 ≤ (s + 1) * (β * ∑ j, ‖H j‖ ^ 2) := h9
        _ ≤ (s + 1) * (Δ * Ω * ((‖e0‖ + ρ) ^ 2 + X * (‖e0‖ + ρ))) := mul_le_mul_of_nonneg_left (h10.trans h11) hs1
        _ = _ := by ring
    have hden : 0 < (s + 1 : ℝ) * (Δ * Ω) := by positivity
    rw [hγ, div_mul_eq_mul_div, div_le_iff₀ hden]
    linarith
  -- the new difference
  have hen := energy A b e0 P
  rw [← he1] at hen
  simp only [← hG] at hen
  have g1 : ∑ j, b j * ⟪P j, G j⟫ ≤ B * (Ω * ρ * (‖e0‖ + X)) := by
    rw [hB, Finset.sum_mul]
    exact Finset.sum_le_sum fun j _ => mul_le_mul_of_nonneg_left (hPGin j) (hS.hb j)
  have g2 : ε * ∑ i, ‖P i‖ ^ 2 ≤ ε * (s * (Ω * X) ^ 2) := by
    refine mul_le_mul_of_nonneg_left ?_ hS.hε
    refine (Finset.sum_le_sum fun i _ => pow_le_pow_left₀ (norm_nonneg _) (hPn i) 2).trans (le_of_eq ?_)
    simp
  have g3 := hS.alg V P
  have g4 : (s : ℝ) * (Ω * X) ^ 2 ≤ κ * (‖e0‖ + ρ) ^ 2 := by
    have : X ^ 2 ≤ (K * (‖e0‖ + ρ)) ^ 2 := pow_le_pow_left₀ hX0 hXK 2
    rw [hκ]
    calc (s : ℝ) * (Ω * X) ^ 2 = s * Ω ^ 2 * X ^ 2 := by ring
      _ ≤ s * Ω ^ 2 * (K * (‖e0‖ + ρ)) ^ 2 := mul_le_mul_of_nonneg_left this (by positivity)
      _ = _ := by ring
  have g5 : B * (Ω * ρ * (‖e0‖ + X)) ≤ B * Ω * (ρ * (‖e0‖ + K * (‖e0‖ + ρ))) := by
    have : ρ * (‖e0‖ + X) ≤ ρ * (‖e0‖ + K * (‖e0‖ + ρ)) := mul_le_mul_of_nonneg_left (by linarith) hρ
    calc B * (Ω * ρ * (‖e0‖ + X)) = B * Ω * (ρ * (‖e0‖ + X)) := by ring
      _ ≤ _ := mul_le_mul_of_nonneg_left this (by positivity)
  have hfin : ‖e1‖ ^ 2 ≤ ((1 + κ * ε) * ‖e0‖ + C * ρ) ^ 2 := by
    have g6 : ‖e1‖ ^ 2 ≤ ‖e0‖ ^ 2 + 2 * (B * Ω * (ρ * (‖e0‖ + K * (‖e0‖ + ρ)))) + ε * (κ * (‖e0‖ + ρ) ^ 2) := by
      have := mul_le_mul_of_nonneg_left g4 hS.hε
      linarith
    refine g6.trans ?_
    rw [hC]
    exact final_square (norm_nonneg _) hρ (by positivity) hK0 hκ0 hS.hε hε1
  exact le_of_sq_le_sq hfin (by
    have : 0 ≤ κ * ε := mul_nonneg hκ0 hS.hε
    have hE := norm_nonneg e0
    have : 0 ≤ C * ρ := mul_nonneg (by linarith) hρ
    positivity)

end Verif
