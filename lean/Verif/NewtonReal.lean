import Verif.NewtonLemmas
import Mathlib.LinearAlgebra.Matrix.ToLin

/-!
# Helper lemmas about newton.hpp in exact arithmetic
-/

namespace Verif
variable {n : ℕ}

theorem dot_real (u v : Vec ℝ n) : dot u v = ∑ i, u i * v i := sumFin_real _

theorem mulVec_real (M : Mat ℝ n) (v : Vec ℝ n) : mulVec M v = (Matrix.of M).mulVec v := by
  funext i
  simp [mulVec, sumFin_real, Matrix.mulVec, dotProduct]

theorem matMul_real (M N : Mat ℝ n) : Matrix.of (matMul M N) = Matrix.of M * Matrix.of N := by
  ext i k
  simp [matMul, sumFin_real, Matrix.mul_apply]

theorem vecMul_real (v : Vec ℝ n) (M : Mat ℝ n) : vecMul v M = Matrix.vecMul v (Matrix.of M) := by
  funext j
  simp [vecMul, sumFin_real, Matrix.vecMul, dotProduct]

theorem dot_self_nonneg (v : Vec ℝ n) : 0 ≤ dot v v := by
  rw [dot_real]; exact Finset.sum_nonneg fun i _ => mul_self_nonneg _

theorem normInf_zero : normInf (fun _ : Fin n => (0 : ℝ)) = 0 := by
  unfold normInf
  have : ∀ l : List (Fin n), l.foldl (fun acc i => cmax acc (sabs (0 : ℝ))) (lit 0 : ℝ) = 0 := by
    intro l
    induction l with
    | nil => simp
    | cons a l ih => rw [List.foldl_cons]; simpa using ih
  exact this _

/-- the limited direction is a non-negative multiple of the direction -/
theorem limitDir_scale {ms2 lam : ℝ} (hl : 0 < lam) (d : Vec ℝ n) :
    ∃ c : ℝ, 0 ≤ c ∧ c ≤ 1 ∧ limitDir ms2 lam d = fun i => d i * c := by
  unfold limitDir
  by_cases h : ltb (lit 0) ms2 = true
  · rw [if_pos h]
    simp only
    by_cases h2 : ltb ms2 (lam * lam * dot d d) = true
    · rw [if_pos h2]
      refine ⟨_, by rw [ssqrt_real]; positivity, ?_, rfl⟩
      simp only [ltb_real, lit_real, Rat.cast_zero] at h h2
      have hN : 0 < dot d d := by
        by_contra hc
        have h0 : dot d d = 0 := le_antisymm (not_lt.mp hc) (dot_self_nonneg d)
        rw [h0] at h2; simp at h2; linarith
      rw [ssqrt_real, div_le_one hl, Real.sqrt_le_left hl.le, div_le_iff₀ hN]
      nlinarith
    · rw [if_neg h2]; exact ⟨1, zero_le_one, le_rfl, by simp⟩
  · rw [if_neg h]; exact ⟨1, zero_le_one, le_rfl, by simp⟩

/-- the limited step is no longer than `max_step` -/
theorem limitDir_le {ms2 lam : ℝ} (hm : 0 < ms2) (hl : 0 < lam) (d : Vec ℝ n) :
    ∑ i, (lam * limitDir ms2 lam d i) ^ 2 ≤ ms2 := by
  unfold limitDir
  rw [if_pos (by simpa using hm)]
  by_cases h2 : ltb ms2 (lam * lam * dot d d) = true
  · rw [if_pos h2]
    simp only [ltb_real] at h2
    have hN : 0 < dot d d := by
      by_contra hc
      have h0 : dot d d = 0 := le_antisymm (not_lt.mp hc) (dot_self_nonneg d)
      rw [h0] at h2; simp at h2; linarith
    have : ∀ i, (lam * (d i * (ssqrt (ms2 / dot d d) / lam))) ^ 2 = ms2 / dot d d * (d i * d i) := by
      intro i
      have e : lam * (d i * (ssqrt (ms2 / dot d d) / lam)) = d i * Real.sqrt (ms2 / dot d d) := by
        rw [ssqrt_real]; field_simp
      rw [e, mul_pow, Real.sq_sqrt (by positivity)]; ring
    simp only [this]
    rw [← Finset.mul_sum, ← dot_real, div_mul_cancel₀ _ hN.ne']
  · rw [if_neg h2]
    simp only [ltb_real, not_lt] at h2
    calc ∑ i, (lam * d i) ^ 2 = lam * lam * ∑ i, d i * d i := by
          rw [Finset.mul_sum]; exact Finset.sum_congr rfl fun i _ => by ring
      _ ≤ ms2 := by rw [← dot_real]; exact h2

/-- without limit the direction is unchanged -/
theorem limitDir_off {ms2 lam : ℝ} (hm : ms2 ≤ 0) (d : Vec ℝ n) : limitDir ms2 lam d = d := by
  unfold limitDir
  rw [if_neg (by simpa using hm)]

theorem scaleMat_real (J : Mat ℝ n) :
    Matrix.of (scaleMat J) = Matrix.diagonal (fun i => if J i i = 0 then 1 else 1 / J i i) := by
  ext i j
  by_cases h : i = j
  · subst h; simp [scaleMat, precondDiag]
  · simp [scaleMat, precondDiag, zeroMat, h]

theorem scaleMat_unit (J : Mat ℝ n) : IsUnit (Matrix.of (scaleMat J)).det := by
  rw [scaleMat_real, Matrix.det_diagonal, isUnit_iff_ne_zero, Finset.prod_ne_zero_iff]
  intro i _
  split_ifs with h
  · exact one_ne_zero
  · exact one_div_ne_zero h

/-- Jacobi scaling does not change the solution of an invertible system -/
theorem precond_solve {la : LinAlg ℝ} (hla : la.Exact) {J : Mat ℝ n} (hJ : IsUnit (Matrix.of J).det)
    (r : Vec ℝ n) : la.solve (matMul (scaleMat J) J) (mulVec (scaleMat J) r) = la.solve J r := by
  have hD := scaleMat_unit J
  have h1 : IsUnit (Matrix.of (matMul (scaleMat J) J)).det := by
    rw [matMul_real, Matrix.det_mul]; exact hD.mul hJ
  rw [hla.solve _ _ h1, hla.solve _ _ hJ, matMul_real, mulVec_real, Matrix.mul_inv_rev, Matrix.mulVec_mulVec,
    Matrix.mul_assoc, Matrix.nonsing_inv_mul _ hD, Matrix.mul_one]

theorem newtonLambda_pos (fl : NewtonFlags) {res2 : ℝ} (h : 0 ≤ res2) : 0 < newtonLambda fl res2 := by
  unfold newtonLambda
  split_ifs
  · simp only [lit_real, Rat.cast_one]; positivity
  · simp

end Verif
