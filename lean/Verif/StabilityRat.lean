import Verif.StabilityLemmas
import Mathlib.Topology.MetricSpace.Pseudo.Basic

/-!
# Numerators and denominators of the stability functions of the stiff methods

Padé approximants of the exponential function: `(s-1, s)` for Radau IIA, `(s-2, s)` for Lobatto IIIC.
-/

set_option linter.unusedSectionVars false
set_option linter.unusedVariables false

namespace Verif

/-- A quotient of polynomials whose numerator has the smaller degree, given with the reversed polynomials. -/
theorem rat_limit {num den rnum rden : ℂ → ℂ} (s : ℕ) (hn : ∀ z, z ≠ 0 → num z = z ^ s * rnum z⁻¹)
    (hd : ∀ z, z ≠ 0 → den z = z ^ s * rden z⁻¹) (cn : Continuous rnum) (cd : Continuous rden) (h0 : rnum 0 = 0)
    (h1 : rden 0 ≠ 0) {ε : ℝ} (hε : 0 < ε) : ∃ r : ℝ, ∀ z : ℂ, r ≤ ‖z‖ → den z ≠ 0 ∧ ‖num z / den z‖ < ε := by
  have c1 : ContinuousAt (fun w => rnum w / rden w) 0 := cn.continuousAt.div cd.continuousAt h1
  have c2 := Metric.continuousAt_iff.1 c1 ε hε
  obtain ⟨δ, hδ, H⟩ := c2
  obtain ⟨δ', hδ', H'⟩ := Metric.continuousAt_iff.1 cd.continuousAt ‖rden 0‖ (norm_pos_iff.2 h1)
  refine ⟨(min δ δ')⁻¹ + 1, fun z hz => ?_⟩
  have hm : 0 < min δ δ' := lt_min hδ hδ'
  have hzpos : 0 < ‖z‖ := lt_of_lt_of_le (by positivity) hz
  have hz0 : z ≠ 0 := norm_pos_iff.1 hzpos
  have hw : ‖z⁻¹‖ < min δ δ' := by
    rw [norm_inv]
    exact inv_lt_of_inv_lt₀ hm (by linarith)
  have hr : rden z⁻¹ ≠ 0 := by
    intro h
    have := H' (x := z⁻¹) (by rw [dist_zero_right]; exact lt_of_lt_of_le hw (min_le_right _ _))
    rw [h, dist_zero_left] at this
    exact lt_irrefl _ this
  have hp : z ^ s ≠ 0 := pow_ne_zero _ hz0
  refine ⟨by rw [hd z hz0]; exact mul_ne_zero hp hr, ?_⟩
  have := H (x := z⁻¹) (by rw [dist_zero_right]; exact lt_of_lt_of_le hw (min_le_left _ _))
  rw [h0, zero_div, dist_zero_right] at this
  rwa [hn z hz0, hd z hz0, mul_div_mul_left _ _ hp]

/-- coefficients `1..s` of the denominator, and numerator minus denominator divided by `z` -/
def stabCoeffs (m : ℤ) : List ℚ × List ℚ :=
  if m = 200 then ([-1], [1])
  else if m = 210 then ([-2 / 3, 1 / 6], [1, -1 / 6])
  else if m = 211 then ([-3 / 5, 3 / 20, -1 / 60], [1, -1 / 10, 1 / 60])
  else if m = 230 then ([-3 / 4, 1 / 4, -1 / 24], [1, -1 / 4, 1 / 24])
  else if m = 231 then ([-2 / 3, 1 / 5, -1 / 30, 1 / 360], [1, -1 / 6, 1 / 30, -1 / 360])
  else if m = 232 then ([-5 / 8, 5 / 28, -5 / 168, 1 / 336, -1 / 6720], [1, -1 / 8, 11 / 336, -1 / 336, 1 / 6720])
  else ([], [])

noncomputable def num200 (z : ℂ) : ℂ := 1
noncomputable def den200 (z : ℂ) : ℂ := 1 + z * (-1)

theorem pade200 {z : ℂ} (hz : z.re ≤ 0) :
    Complex.normSq (num200 z) ≤ Complex.normSq (den200 z) ∧ 1 ≤ Complex.normSq (den200 z) := by
  obtain ⟨x, v⟩ := z
  obtain ⟨u, rfl⟩ : ∃ u, x = -u := ⟨-x, (neg_neg x).symm⟩
  have hu : 0 ≤ u := by simpa using hz
  have e1 : Complex.normSq (den200 ⟨-u, v⟩) - Complex.normSq (num200 ⟨-u, v⟩) =
      v ^ 2 + 2 * u + u ^ 2 := by
    simp [num200, den200, Complex.normSq_apply]; ring
  have e2 : Complex.normSq (den200 ⟨-u, v⟩) - 1 =
      v ^ 2 + 2 * u + u ^ 2 := by
    simp [den200, Complex.normSq_apply]; ring
  refine ⟨sub_nonneg.1 ?_, sub_nonneg.1 ?_⟩
  · rw [e1]; positivity
  · rw [e2]; positivity

theorem limit200 {ε : ℝ} (hε : 0 < ε) : ∃ r : ℝ, ∀ z : ℂ, r ≤ ‖z‖ → den200 z ≠ 0 ∧ ‖num200 z / den200 z‖ < ε := by
  refine rat_limit 1 (rnum := fun w => 0 + w * (1))
    (rden := fun w => -1 + w * (1)) ?_ ?_ (by fun_prop) (by fun_prop) (by norm_num) (by norm_num) hε
  · intro z hz; simp only [num200]; field_simp; try ring
  · intro z hz; simp only [den200]; field_simp; try ring

noncomputable def num210 (z : ℂ) : ℂ := 1 + z * (1 / 3)
noncomputable def den210 (z : ℂ) : ℂ := 1 + z * (-2 / 3 + z * (1 / 6))

theorem pade210 {z : ℂ} (hz : z.re ≤ 0) :
    Complex.normSq (num210 z) ≤ Complex.normSq (den210 z) ∧ 1 ≤ Complex.normSq (den210 z) := by
  obtain ⟨x, v⟩ := z
  obtain ⟨u, rfl⟩ : ∃ u, x = -u := ⟨-x, (neg_neg x).symm⟩
  have hu : 0 ≤ u := by simpa using hz
  have e1 : Complex.normSq (den210 ⟨-u, v⟩) - Complex.normSq (num210 ⟨-u, v⟩) =
      1 / 36 * v ^ 4 + 2 * u + 2 / 9 * u * v ^ 2 + 2 / 3 * u ^ 2 + 1 / 18 * u ^ 2 * v ^ 2 +
      2 / 9 * u ^ 3 + 1 / 36 * u ^ 4 := by
    simp [num210, den210, Complex.normSq_apply]; ring
  have e2 : Complex.normSq (den210 ⟨-u, v⟩) - 1 =
      1 / 9 * v ^ 2 + 1 / 36 * v ^ 4 + 4 / 3 * u + 2 / 9 * u * v ^ 2 + 7 / 9 * u ^ 2 +
      1 / 18 * u ^ 2 * v ^ 2 + 2 / 9 * u ^ 3 + 1 / 36 * u ^ 4 := by
    simp [den210, Complex.normSq_apply]; ring
  refine ⟨sub_nonneg.1 ?_, sub_nonneg.1 ?_⟩
  · rw [e1]; positivity
  · rw [e2]; positivity

theorem limit210 {ε : ℝ} (hε : 0 < ε) : ∃ r : ℝ, ∀ z : ℂ, r ≤ ‖z‖ → den210 z ≠ 0 ∧ ‖num210 z / den210 z‖ < ε := by
  refine rat_limit 2 (rnum := fun w => 0 + w * (1 / 3 + w * (1)))
    (rden := fun w => 1 / 6 + w * (-2 / 3 + w * (1))) ?_ ?_ (by fun_prop) (by fun_prop) (by norm_num) (by norm_num) hε
  · intro z hz; simp only [num210]; field_simp; try ring
  · intro z hz; simp only [den210]; field_simp; try ring

noncomputable def num211 (z : ℂ) : ℂ := 1 + z * (2 / 5 + z * (1 / 20))
noncomputable def den211 (z : ℂ) : ℂ := 1 + z * (-3 / 5 + z * (3 / 20 + z * (-1 / 60)))

theorem pade211 {z : ℂ} (hz : z.re ≤ 0) :
    Complex.normSq (num211 z) ≤ Complex.normSq (den211 z) ∧ 1 ≤ Complex.normSq (den211 z) := by
  obtain ⟨x, v⟩ := z
  obtain ⟨u, rfl⟩ : ∃ u, x = -u := ⟨-x, (neg_neg x).symm⟩
  have hu : 0 ≤ u := by simpa using hz
  have e1 : Complex.normSq (den211 ⟨-u, v⟩) - Complex.normSq (num211 ⟨-u, v⟩) =
      1 / 3600 * v ^ 6 + 2 * u + 3 / 25 * u * v ^ 2 + 1 / 200 * u * v ^ 4 + 2 / 5 * u ^ 2 +
      1 / 25 * u ^ 2 * v ^ 2 + 1 / 1200 * u ^ 2 * v ^ 4 + 19 / 75 * u ^ 3 + 1 / 100 * u ^ 3 * v ^ 2 +
      1 / 25 * u ^ 4 + 1 / 1200 * u ^ 4 * v ^ 2 + 1 / 200 * u ^ 5 + 1 / 3600 * u ^ 6 := by
    simp [num211, den211, Complex.normSq_apply]; ring
  have e2 : Complex.normSq (den211 ⟨-u, v⟩) - 1 =
      3 / 50 * v ^ 2 + 1 / 400 * v ^ 4 + 1 / 3600 * v ^ 6 + 6 / 5 * u + 2 / 25 * u * v ^ 2 +
      1 / 200 * u * v ^ 4 + 33 / 50 * u ^ 2 + 9 / 200 * u ^ 2 * v ^ 2 + 1 / 1200 * u ^ 2 * v ^ 4 +
      16 / 75 * u ^ 3 + 1 / 100 * u ^ 3 * v ^ 2 + 17 / 400 * u ^ 4 + 1 / 1200 * u ^ 4 * v ^ 2 +
      1 / 200 * u ^ 5 + 1 / 3600 * u ^ 6 := by
    simp [den211, Complex.normSq_apply]; ring
  refine ⟨sub_nonneg.1 ?_, sub_nonneg.1 ?_⟩
  · rw [e1]; positivity
  · rw [e2]; positivity

theorem limit211 {ε : ℝ} (hε : 0 < ε) : ∃ r : ℝ, ∀ z : ℂ, r ≤ ‖z‖ → den211 z ≠ 0 ∧ ‖num211 z / den211 z‖ < ε := by
  refine rat_limit 3 (rnum := fun w => 0 + w * (1 / 20 + w * (2 / 5 + w * (1))))
    (rden := fun w => -1 / 60 + w * (3 / 20 + w * (-3 / 5 + w * (1)))) ?_ ?_ (by fun_prop) (by fun_prop) (by norm_num) (by norm_num) hε
  · intro z hz; simp only [num211]; field_simp; try ring
  · intro z hz; simp only [den211]; field_simp; try ring

noncomputable def num230 (z : ℂ) : ℂ := 1 + z * (1 / 4)
noncomputable def den230 (z : ℂ) : ℂ := 1 + z * (-3 / 4 + z * (1 / 4 + z * (-1 / 24)))

theorem pade230 {z : ℂ} (hz : z.re ≤ 0) :
    Complex.normSq (num230 z) ≤ Complex.normSq (den230 z) ∧ 1 ≤ Complex.normSq (den230 z) := by
  obtain ⟨x, v⟩ := z
  obtain ⟨u, rfl⟩ : ∃ u, x = -u := ⟨-x, (neg_neg x).symm⟩
  have hu : 0 ≤ u := by simpa using hz
  have e1 : Complex.normSq (den230 ⟨-u, v⟩) - Complex.normSq (num230 ⟨-u, v⟩) =
      1 / 576 * v ^ 6 + 2 * u + 1 / 8 * u * v ^ 2 + 1 / 48 * u * v ^ 4 + u ^ 2 + 1 / 8 * u ^ 2 * v ^ 2 +
      1 / 192 * u ^ 2 * v ^ 4 + 11 / 24 * u ^ 3 + 1 / 24 * u ^ 3 * v ^ 2 + 1 / 8 * u ^ 4 +
      1 / 192 * u ^ 4 * v ^ 2 + 1 / 48 * u ^ 5 + 1 / 576 * u ^ 6 := by
    simp [num230, den230, Complex.normSq_apply]; ring
  have e2 : Complex.normSq (den230 ⟨-u, v⟩) - 1 =
      1 / 16 * v ^ 2 + 1 / 576 * v ^ 6 + 3 / 2 * u + 1 / 8 * u * v ^ 2 + 1 / 48 * u * v ^ 4 +
      17 / 16 * u ^ 2 + 1 / 8 * u ^ 2 * v ^ 2 + 1 / 192 * u ^ 2 * v ^ 4 + 11 / 24 * u ^ 3 +
      1 / 24 * u ^ 3 * v ^ 2 + 1 / 8 * u ^ 4 + 1 / 192 * u ^ 4 * v ^ 2 + 1 / 48 * u ^ 5 +
      1 / 576 * u ^ 6 := by
    simp [den230, Complex.normSq_apply]; ring
  refine ⟨sub_nonneg.1 ?_, sub_nonneg.1 ?_⟩
  · rw [e1]; positivity
  · rw [e2]; positivity

theorem limit230 {ε : ℝ} (hε : 0 < ε) : ∃ r : ℝ, ∀ z : ℂ, r ≤ ‖z‖ → den230 z ≠ 0 ∧ ‖num230 z / den230 z‖ < ε := by
  refine rat_limit 3 (rnum := fun w => 0 + w * (0 + w * (1 / 4 + w * (1))))
    (rden := fun w => -1 / 24 + w * (1 / 4 + w * (-3 / 4 + w * (1)))) ?_ ?_ (by fun_prop) (by fun_prop) (by norm_num) (by norm_num) hε
  · intro z hz; simp only [num230]; field_simp; try ring
  · intro z hz; simp only [den230]; field_simp; try ring

noncomputable def num231 (z : ℂ) : ℂ := 1 + z * (1 / 3 + z * (1 / 30))
noncomputable def den231 (z : ℂ) : ℂ := 1 + z * (-2 / 3 + z * (1 / 5 + z * (-1 / 30 + z * (1 / 360))))

theorem pade231 {z : ℂ} (hz : z.re ≤ 0) :
    Complex.normSq (num231 z) ≤ Complex.normSq (den231 z) ∧ 1 ≤ Complex.normSq (den231 z) := by
  obtain ⟨x, v⟩ := z
  obtain ⟨u, rfl⟩ : ∃ u, x = -u := ⟨-x, (neg_neg x).symm⟩
  have hu : 0 ≤ u := by simpa using hz
  have e1 : Complex.normSq (den231 ⟨-u, v⟩) - Complex.normSq (num231 ⟨-u, v⟩) =
      1 / 129600 * v ^ 8 + 2 * u + 4 / 45 * u * v ^ 2 + 1 / 450 * u * v ^ 4 + 1 / 5400 * u * v ^ 6 +
      2 / 3 * u ^ 2 + 2 / 45 * u ^ 2 * v ^ 2 + 1 / 450 * u ^ 2 * v ^ 4 + 1 / 32400 * u ^ 2 * v ^ 6 +
      16 / 45 * u ^ 3 + 13 / 675 * u ^ 3 * v ^ 2 + 1 / 1800 * u ^ 3 * v ^ 4 + 4 / 45 * u ^ 4 +
      1 / 225 * u ^ 4 * v ^ 2 + 1 / 21600 * u ^ 4 * v ^ 4 + 23 / 1350 * u ^ 5 + 1 / 1800 * u ^ 5 * v ^ 2 +
      1 / 450 * u ^ 6 + 1 / 32400 * u ^ 6 * v ^ 2 + 1 / 5400 * u ^ 7 + 1 / 129600 * u ^ 8 := by
    simp [num231, den231, Complex.normSq_apply]; ring
  have e2 : Complex.normSq (den231 ⟨-u, v⟩) - 1 =
      2 / 45 * v ^ 2 + 1 / 900 * v ^ 4 + 1 / 129600 * v ^ 8 + 4 / 3 * u + 1 / 15 * u * v ^ 2 +
      1 / 450 * u * v ^ 4 + 1 / 5400 * u * v ^ 6 + 38 / 45 * u ^ 2 + 7 / 150 * u ^ 2 * v ^ 2 +
      1 / 450 * u ^ 2 * v ^ 4 + 1 / 32400 * u ^ 2 * v ^ 6 + 1 / 3 * u ^ 3 + 13 / 675 * u ^ 3 * v ^ 2 +
      1 / 1800 * u ^ 3 * v ^ 4 + 9 / 100 * u ^ 4 + 1 / 225 * u ^ 4 * v ^ 2 + 1 / 21600 * u ^ 4 * v ^ 4 +
      23 / 1350 * u ^ 5 + 1 / 1800 * u ^ 5 * v ^ 2 + 1 / 450 * u ^ 6 + 1 / 32400 * u ^ 6 * v ^ 2 +
      1 / 5400 * u ^ 7 + 1 / 129600 * u ^ 8 := by
    simp [den231, Complex.normSq_apply]; ring
  refine ⟨sub_nonneg.1 ?_, sub_nonneg.1 ?_⟩
  · rw [e1]; positivity
  · rw [e2]; positivity

theorem limit231 {ε : ℝ} (hε : 0 < ε) : ∃ r : ℝ, ∀ z : ℂ, r ≤ ‖z‖ → den231 z ≠ 0 ∧ ‖num231 z / den231 z‖ < ε := by
  refine rat_limit 4 (rnum := fun w => 0 + w * (0 + w * (1 / 30 + w * (1 / 3 + w * (1)))))
    (rden := fun w => 1 / 360 + w * (-1 / 30 + w * (1 / 5 + w * (-2 / 3 + w * (1))))) ?_ ?_ (by fun_prop) (by fun_prop) (by norm_num) (by norm_num) hε
  · intro z hz; simp only [num231]; field_simp; try ring
  · intro z hz; simp only [den231]; field_simp; try ring

noncomputable def num232 (z : ℂ) : ℂ := 1 + z * (3 / 8 + z * (3 / 56 + z * (1 / 336)))
noncomputable def den232 (z : ℂ) : ℂ := 1 + z * (-5 / 8 + z * (5 / 28 + z * (-5 / 168 + z * (1 / 336 + z * (-1 / 6720)))))

theorem pade232 {z : ℂ} (hz : z.re ≤ 0) :
    Complex.normSq (num232 z) ≤ Complex.normSq (den232 z) ∧ 1 ≤ Complex.normSq (den232 z) := by
  obtain ⟨x, v⟩ := z
  obtain ⟨u, rfl⟩ : ∃ u, x = -u := ⟨-x, (neg_neg x).symm⟩
  have hu : 0 ≤ u := by simpa using hz
  have e1 : Complex.normSq (den232 ⟨-u, v⟩) - Complex.normSq (num232 ⟨-u, v⟩) =
      1 / 45158400 * v ^ 10 + 2 * u + 15 / 224 * u * v ^ 2 + 1 / 784 * u * v ^ 4 + 1 / 56448 * u * v ^ 6 +
      1 / 1128960 * u * v ^ 8 + 1 / 2 * u ^ 2 + 5 / 224 * u ^ 2 * v ^ 2 + 1 / 1568 * u ^ 2 * v ^ 4 +
      1 / 56448 * u ^ 2 * v ^ 6 + 1 / 9031680 * u ^ 2 * v ^ 8 + 221 / 672 * u ^ 3 +
      9 / 784 * u ^ 3 * v ^ 2 + 5 / 18816 * u ^ 3 * v ^ 4 + 1 / 282240 * u ^ 3 * v ^ 6 +
      47 / 672 * u ^ 4 + 13 / 4704 * u ^ 4 * v ^ 2 + 1 / 18816 * u ^ 4 * v ^ 4 +
      1 / 4515840 * u ^ 4 * v ^ 6 + 11 / 735 * u ^ 5 + 3 / 6272 * u ^ 5 * v ^ 2 +
      1 / 188160 * u ^ 5 * v ^ 4 + 5 / 2352 * u ^ 6 + 1 / 18816 * u ^ 6 * v ^ 2 +
      1 / 4515840 * u ^ 6 * v ^ 4 + 13 / 56448 * u ^ 7 + 1 / 282240 * u ^ 7 * v ^ 2 + 1 / 56448 * u ^ 8 +
      1 / 9031680 * u ^ 8 * v ^ 2 + 1 / 1128960 * u ^ 9 + 1 / 45158400 * u ^ 10 := by
    simp [num232, den232, Complex.normSq_apply]; ring
  have e2 : Complex.normSq (den232 ⟨-u, v⟩) - 1 =
      15 / 448 * v ^ 2 + 1 / 1568 * v ^ 4 + 1 / 112896 * v ^ 6 + 1 / 45158400 * v ^ 10 + 5 / 4 * u +
      5 / 112 * u * v ^ 2 + 3 / 3136 * u * v ^ 4 + 1 / 56448 * u * v ^ 6 + 1 / 1128960 * u * v ^ 8 +
      335 / 448 * u ^ 2 + 11 / 392 * u ^ 2 * v ^ 2 + 25 / 37632 * u ^ 2 * v ^ 4 +
      1 / 56448 * u ^ 2 * v ^ 6 + 1 / 9031680 * u ^ 2 * v ^ 8 + 95 / 336 * u ^ 3 +
      17 / 1568 * u ^ 3 * v ^ 2 + 5 / 18816 * u ^ 3 * v ^ 4 + 1 / 282240 * u ^ 3 * v ^ 6 +
      353 / 4704 * u ^ 4 + 5 / 1792 * u ^ 4 * v ^ 2 + 1 / 18816 * u ^ 4 * v ^ 4 +
      1 / 4515840 * u ^ 4 * v ^ 6 + 689 / 47040 * u ^ 5 + 3 / 6272 * u ^ 5 * v ^ 2 +
      1 / 188160 * u ^ 5 * v ^ 4 + 241 / 112896 * u ^ 6 + 1 / 18816 * u ^ 6 * v ^ 2 +
      1 / 4515840 * u ^ 6 * v ^ 4 + 13 / 56448 * u ^ 7 + 1 / 282240 * u ^ 7 * v ^ 2 + 1 / 56448 * u ^ 8 +
      1 / 9031680 * u ^ 8 * v ^ 2 + 1 / 1128960 * u ^ 9 + 1 / 45158400 * u ^ 10 := by
    simp [den232, Complex.normSq_apply]; ring
  refine ⟨sub_nonneg.1 ?_, sub_nonneg.1 ?_⟩
  · rw [e1]; positivity
  · rw [e2]; positivity

theorem limit232 {ε : ℝ} (hε : 0 < ε) : ∃ r : ℝ, ∀ z : ℂ, r ≤ ‖z‖ → den232 z ≠ 0 ∧ ‖num232 z / den232 z‖ < ε := by
  refine rat_limit 5 (rnum := fun w => 0 + w * (0 + w * (1 / 336 + w * (3 / 56 + w * (3 / 8 + w * (1))))))
    (rden := fun w => -1 / 6720 + w * (1 / 336 + w * (-5 / 168 + w * (5 / 28 + w * (-5 / 8 + w * (1)))))) ?_ ?_ (by fun_prop) (by fun_prop) (by norm_num) (by norm_num) hε
  · intro z hz; simp only [num232]; field_simp; try ring
  · intro z hz; simp only [den232]; field_simp; try ring

/-- numerator and denominator by method code -/
noncomputable def stabNum (m : ℤ) : ℂ → ℂ :=
  if m = 200 then num200 else if m = 210 then num210 else if m = 211 then num211
  else if m = 230 then num230 else if m = 231 then num231 else num232
noncomputable def stabDen (m : ℤ) : ℂ → ℂ :=
  if m = 200 then den200 else if m = 210 then den210 else if m = 211 then den211
  else if m = 230 then den230 else if m = 231 then den231 else den232

/-- the methods of C60 -/
def stiffMethods : List ℤ := [200, 210, 211, 230, 231, 232]

theorem flOK_shipped : ∀ m ∈ stiffMethods, flOK (irkCoeffs m : SolverCoeffs (QS (rootOf m))).A
    (irkCoeffs m : SolverCoeffs (QS (rootOf m))).b (stabCoeffs m).1 (stabCoeffs m).2 = true := by
  decide +kernel

theorem stiff_implemented : ∀ m ∈ stiffMethods, m ∈ irkImplemented := by decide

theorem stabCoeffs_eq {m : ℤ} (hm : m ∈ stiffMethods) (z : ℂ) :
    1 + z * horner z ((stabCoeffs m).1.map fun x : ℚ => (x : ℂ)) = stabDen m z ∧
    stabDen m z + z * horner z ((stabCoeffs m).2.map fun x : ℚ => (x : ℂ)) = stabNum m z := by
  simp only [stiffMethods, List.mem_cons, List.not_mem_nil, or_false] at hm
  rcases hm with rfl | rfl | rfl | rfl | rfl | rfl
  · norm_num [stabCoeffs, stabDen, stabNum, num200, den200, horner]; try ring
  · norm_num [stabCoeffs, stabDen, stabNum, num210, den210, horner]; try ring
  · norm_num [stabCoeffs, stabDen, stabNum, num211, den211, horner]; try ring
  · norm_num [stabCoeffs, stabDen, stabNum, num230, den230, horner]; try ring
  · norm_num [stabCoeffs, stabDen, stabNum, num231, den231, horner]; try ring
  · norm_num [stabCoeffs, stabDen, stabNum, num232, den232, horner]; try ring

theorem stab_shipped {m : ℤ} (hm : m ∈ stiffMethods) {z : ℂ} (hz : stabDen m z ≠ 0) :
    stabilityFunction z (irkCoeffs m : SolverCoeffs ℝ).A (irkCoeffs m : SolverCoeffs ℝ).b =
      .ret (stabNum m z / stabDen m z) := by
  have hI := stiff_implemented m hm
  have img := img_shipped hI
  obtain ⟨e1, e2⟩ := stabCoeffs_eq hm z
  have hs : ∀ m ∈ stiffMethods, (irkCoeffs m : SolverCoeffs (QS (rootOf m))).A.length =
      (irkCoeffs m : SolverCoeffs (QS (rootOf m))).b.length ∧
      ((irkCoeffs m : SolverCoeffs (QS (rootOf m))).A.headD []).length =
      (irkCoeffs m : SolverCoeffs (QS (rootOf m))).b.length := by decide +kernel
  rw [stab_of_flOK img.A img.b (hs m hm).1 (hs m hm).2 (flOK_shipped m hm) z (by rw [e1]; exact hz), e1, ← e2]
  congr 1
  field_simp

theorem stiff_bounds {m : ℤ} (hm : m ∈ stiffMethods) {z : ℂ} (hz : z.re ≤ 0) :
    Complex.normSq (stabNum m z) ≤ Complex.normSq (stabDen m z) ∧ 1 ≤ Complex.normSq (stabDen m z) := by
  simp only [stiffMethods, List.mem_cons, List.not_mem_nil, or_false] at hm
  rcases hm with rfl | rfl | rfl | rfl | rfl | rfl
  · exact pade200 hz
  · exact pade210 hz
  · exact pade211 hz
  · exact pade230 hz
  · exact pade231 hz
  · exact pade232 hz

theorem stiff_limit {m : ℤ} (hm : m ∈ stiffMethods) {ε : ℝ} (hε : 0 < ε) :
    ∃ r : ℝ, ∀ z : ℂ, r ≤ ‖z‖ → stabDen m z ≠ 0 ∧ ‖stabNum m z / stabDen m z‖ < ε := by
  simp only [stiffMethods, List.mem_cons, List.not_mem_nil, or_false] at hm
  rcases hm with rfl | rfl | rfl | rfl | rfl | rfl
  · exact limit200 hε
  · exact limit210 hε
  · exact limit211 hε
  · exact limit230 hε
  · exact limit231 hε
  · exact limit232 hε

end Verif
