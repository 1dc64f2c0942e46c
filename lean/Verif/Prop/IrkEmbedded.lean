import Verif.Prop.IrkOrder

/-!
# Property C49: by how much the embedded formulas miss the conditions of order
-/

set_option autoImplicit false

namespace Verif

/-- **C49, the sizes.**  The embedded formulas of RADAU_IIA_32 and LOBATTO_IIIC_85 have the weights `4/3` and `1 + gamma` in all (1 is the
condition of order 1); those of LOBATTO_IIIC_43, LOBATTO_IIIC_64 and GAUSS_LEGENDRE_42 have weight 1, hence order 1, and
`Σ b2_i c_i` is `3/4`, `2/3 + √5/30` and `1/6 + √3/6` instead of `1/2`. -/
theorem C49_embedded_exact :
    ((irkCoeffs 210 : SolverCoeffs ℝ).gamma + ∑ i ∈ Finset.range 2, (irkCoeffs 210 : SolverCoeffs ℝ).bw2 i = 4 / 3) ∧
    ((irkCoeffs 232 : SolverCoeffs ℝ).gamma + ∑ i ∈ Finset.range 5, (irkCoeffs 232 : SolverCoeffs ℝ).bw2 i =
      1 + 1894964436645163 / 10 ^ 16) ∧
    ((irkCoeffs 230 : SolverCoeffs ℝ).gamma = 0 ∧ ∑ i ∈ Finset.range 3, (irkCoeffs 230 : SolverCoeffs ℝ).bw2 i = 1 ∧
      ∑ i ∈ Finset.range 3, (irkCoeffs 230 : SolverCoeffs ℝ).bw2 i * (irkCoeffs 230 : SolverCoeffs ℝ).cn i = 3 / 4) ∧
    ((irkCoeffs 231 : SolverCoeffs ℝ).gamma = 0 ∧ ∑ i ∈ Finset.range 4, (irkCoeffs 231 : SolverCoeffs ℝ).bw2 i = 1 ∧
      ∑ i ∈ Finset.range 4, (irkCoeffs 231 : SolverCoeffs ℝ).bw2 i * (irkCoeffs 231 : SolverCoeffs ℝ).cn i = 2 / 3 + Real.sqrt 5 / 30) ∧
    ((irkCoeffs 240 : SolverCoeffs ℝ).gamma = 0 ∧ ∑ i ∈ Finset.range 3, (irkCoeffs 240 : SolverCoeffs ℝ).bw2 i = 1 ∧
      ∑ i ∈ Finset.range 3, (irkCoeffs 240 : SolverCoeffs ℝ).bw2 i * (irkCoeffs 240 : SolverCoeffs ℝ).cn i = 1 / 6 + Real.sqrt 3 / 6) := by
  have h5 : Real.sqrt 5 * Real.sqrt 5 = 5 := Real.mul_self_sqrt (by norm_num)
  have h3 : Real.sqrt 3 * Real.sqrt 3 = 3 := Real.mul_self_sqrt (by norm_num)
  refine ⟨?_, ?_, ⟨?_, ?_, ?_⟩, ⟨?_, ?_, ?_⟩, ⟨?_, ?_, ?_⟩⟩
  · simp [irkCoeffs, radauIIA32, Finset.sum_range_succ, SolverCoeffs.bw2, q]; norm_num
  · simp [irkCoeffs, lobattoIIIC85, Finset.sum_range_succ, SolverCoeffs.bw2, q]; norm_num
  · simp [irkCoeffs, lobattoIIIC43]
  · simp [irkCoeffs, lobattoIIIC43, Finset.sum_range_succ, SolverCoeffs.bw2, q]; norm_num
  · simp [irkCoeffs, lobattoIIIC43, Finset.sum_range_succ, SolverCoeffs.bw2, SolverCoeffs.cn, q]; norm_num
  · simp [irkCoeffs, lobattoIIIC64]
  · simp [irkCoeffs, lobattoIIIC64, Finset.sum_range_succ, SolverCoeffs.bw2, q]; norm_num
  · simp [irkCoeffs, lobattoIIIC64, Finset.sum_range_succ, SolverCoeffs.bw2, SolverCoeffs.cn, q, ssqrt]; ring
  · simp [irkCoeffs, gaussLegendre42]
  · simp [irkCoeffs, gaussLegendre42, Finset.sum_range_succ, SolverCoeffs.bw2, ssqrt]; ring
  · simp [irkCoeffs, gaussLegendre42, Finset.sum_range_succ, SolverCoeffs.bw2, SolverCoeffs.cn, ssqrt]; nlinarith
end Verif
