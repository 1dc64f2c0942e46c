import Verif.GammaEig
import Verif.ErkShipped

/-!
# Property C90: the weight `gamma` is a real eigenvalue of the matrix
-/

set_option linter.unusedSectionVars false
set_option autoImplicit false

namespace Verif

/-- **C90, the claim** (comments in irk.cpp, lines 370 and 422): `gamma` is a real eigenvalue of `A`, for every method that sets it. -/
def C90_claim : Prop := ∀ m ∈ irkImplemented, (irkCoeffs m : SolverCoeffs ℝ).gamma ≠ 0 →
  IsEigenvalue (irkCoeffs m) (irkCoeffs m : SolverCoeffs ℝ).gamma

theorem near_shipped : ∀ p ∈ ([(211, 1 / 10 ^ 15), (212, 1 / 10 ^ 16), (213, 1 / 10 ^ 36), (232, 8 / 10 ^ 7), (243, 1 / 10 ^ 18)] :
    List (ℤ × ℚ)), nearOK p.1 p.2 = true := by decide +kernel

theorem far_shipped : ∀ p ∈ ([(0, 210, 1 / 100), (0, 222, 1 / 100), (499, 232, 7 / 10 ^ 7)] : List (ℕ × ℤ × ℚ)),
    farOK p.1 p.2.1 p.2.2 = true := by decide +kernel

/-- **C90 (up to rounding).**  The matrices of RADAU_IIA_53, RADAU_IIA_95, RADAU_IIA_137, LOBATTO_IIIC_85 and GAUSS_LEGENDRE_147 have a
real eigenvalue within `1e-15`, `1e-16`, `1e-36`, `8e-7` and `1e-18` of `gamma`.  Missing: RADAU_IIA_32 and LOBATTO_IIIA_127, for which the
claim is false (`C90_far`). -/
theorem C90_near_partial {m : ℤ} {e : ℝ} (hm : (m, e) ∈ ([(211, 1 / 10 ^ 15), (212, 1 / 10 ^ 16), (213, 1 / 10 ^ 36), (232, 8 / 10 ^ 7),
    (243, 1 / 10 ^ 18)] : List (ℤ × ℝ))) :
    ∃ l : ℝ, |l - (irkCoeffs m : SolverCoeffs ℝ).gamma| ≤ e ∧ IsEigenvalue (irkCoeffs m) l := by
  have key : ∃ e' : ℚ, (m, e') ∈ ([(211, 1 / 10 ^ 15), (212, 1 / 10 ^ 16), (213, 1 / 10 ^ 36), (232, 8 / 10 ^ 7),
      (243, 1 / 10 ^ 18)] : List (ℤ × ℚ)) ∧ e = e' ∧ m ∈ irkImplemented := by
    simp only [List.mem_cons, Prod.mk.injEq, List.not_mem_nil, or_false] at hm
    rcases hm with ⟨rfl, rfl⟩ | ⟨rfl, rfl⟩ | ⟨rfl, rfl⟩ | ⟨rfl, rfl⟩ | ⟨rfl, rfl⟩
    · exact ⟨1 / 10 ^ 15, by simp, by norm_num, by decide⟩
    · exact ⟨1 / 10 ^ 16, by simp, by norm_num, by decide⟩
    · exact ⟨1 / 10 ^ 36, by simp, by norm_num, by decide⟩
    · exact ⟨8 / 10 ^ 7, by simp, by norm_num, by decide⟩
    · exact ⟨1 / 10 ^ 18, by simp, by norm_num, by decide⟩
  obtain ⟨e', h1, rfl, h2⟩ := key
  exact near_spec h2 (near_shipped _ h1)

/-- **C90 (failures).**  RADAU_IIA_32 and LOBATTO_IIIA_127 have no real eigenvalue within `1e-2` of `gamma`; that of
LOBATTO_IIIC_85 differs from `gamma` in the seventh digit. -/
theorem C90_far {m : ℤ} {e : ℝ} (hm : (m, e) ∈ ([(210, 1 / 100), (222, 1 / 100), (232, 7 / 10 ^ 7)] : List (ℤ × ℝ))) {l : ℝ}
    (hl : |l - (irkCoeffs m : SolverCoeffs ℝ).gamma| ≤ e) : ¬ IsEigenvalue (irkCoeffs m) l := by
  have key : ∃ (k : ℕ) (e' : ℚ), (k, m, e') ∈ ([(0, 210, 1 / 100), (0, 222, 1 / 100), (499, 232, 7 / 10 ^ 7)] : List (ℕ × ℤ × ℚ)) ∧
      e = e' ∧ m ∈ irkImplemented := by
    simp only [List.mem_cons, Prod.mk.injEq, List.not_mem_nil, or_false] at hm
    rcases hm with ⟨rfl, rfl⟩ | ⟨rfl, rfl⟩ | ⟨rfl, rfl⟩
    · exact ⟨0, 1 / 100, by simp, by norm_num, by decide⟩
    · exact ⟨0, 1 / 100, by simp, by norm_num, by decide⟩
    · exact ⟨499, 7 / 10 ^ 7, by simp, by norm_num, by decide⟩
  obtain ⟨k, e', h1, rfl, h2⟩ := key
  exact far_spec h2 (far_shipped _ h1) hl

theorem C90_refuted : ¬ C90_claim := by
  intro h
  have g : (irkCoeffs 210 : SolverCoeffs ℝ).gamma = 1 / 3 := by
    show (q 1 3 : ℝ) = _; simp [q]
  refine C90_far (m := 210) (e := 1 / 100) (by simp) (l := (irkCoeffs 210 : SolverCoeffs ℝ).gamma) (by norm_num)
    (h 210 (by decide) (by rw [g]; norm_num))

/-- the eigenvalue of RADAU_IIA_53 lies between 0.2748888 and 0.2748889 -/
example : ∃ l : ℝ, 0.2748888 ≤ l ∧ l ≤ 0.2748889 ∧ IsEigenvalue (irkCoeffs 211) l := by
  obtain ⟨l, h1, h2⟩ := C90_near_partial (m := 211) (e := 1 / 10 ^ 15) (by simp)
  have g : (irkCoeffs 211 : SolverCoeffs ℝ).gamma = 274888829595677 / 10 ^ 15 := by
    rw [gamma_eq (by decide) (by decide +kernel), show gammaQ 211 = 274888829595677 / 10 ^ 15 by decide +kernel]
    norm_num
  rw [g] at h1
  obtain ⟨a, b⟩ := abs_le.mp h1
  exact ⟨l, by norm_num at a ⊢; linarith, by norm_num at b ⊢; linarith, h2⟩

/-- the only eigenvalue of a strictly lower triangular matrix is 0 -/
theorem explicit_eigenvalue {sc : SolverCoeffs ℝ} (hx : Explicit sc) (hn : 0 < sc.ns) (l : ℝ) : IsEigenvalue sc l ↔ l = 0 := by
  constructor
  · rintro ⟨v, hv, h⟩
    by_contra hl
    apply hv
    have key : ∀ k : ℕ, ∀ i : Fin sc.ns, i.val < k → v i = 0 := by
      intro k
      induction k with
      | zero => intro i hi; omega
      | succ k ih =>
        intro i hi
        have h0 : ∑ j : Fin sc.ns, sc.a i j * v j = 0 := by
          refine Finset.sum_eq_zero fun j _ => ?_
          by_cases hj : j.val < i.val
          · rw [ih j (by omega), mul_zero]
          · rw [hx i j i.isLt j.isLt (by omega), zero_mul]
        have h1 := h i
        rw [h0] at h1
        exact (mul_eq_zero.mp h1.symm).resolve_left hl
    funext i
    exact key sc.ns i i.isLt
  · rintro rfl
    refine ⟨fun i => if i.val = sc.ns - 1 then 1 else 0, ?_, ?_⟩
    · intro h
      have := congrFun h ⟨sc.ns - 1, by omega⟩
      simp at this
    · intro i
      rw [zero_mul]
      refine Finset.sum_eq_zero fun j _ => ?_
      by_cases hj : j.val = sc.ns - 1
      · rw [hx i j i.isLt j.isLt (by have := i.isLt; omega), zero_mul]
      · simp [hj]

theorem explicit_gamma (m : ℤ) : (erkCoeffs m : SolverCoeffs ℝ).gamma = 0 := by
  unfold erkCoeffs
  split_ifs <;> simp [explicitEuler, rungeKutta4, bogackiShampine32, cashKarp54, dormandPrince54, fehlberg54]

/-- **C90, explicit methods.**  For every explicit method `gamma` (which `erk.cpp` sets to 0 on line 17) is the one and only
eigenvalue of the matrix. -/
theorem C90_explicit {m : ℤ} (hm : m ∈ erkImplemented) (l : ℝ) :
    IsEigenvalue (erkCoeffs m) l ↔ l = (erkCoeffs m : SolverCoeffs ℝ).gamma := by
  rw [explicit_gamma, explicit_eigenvalue (shipped_facts hm).1 (shipped_facts hm).2.2.1]

/-- the seven stages of DORMAND_PRINCE_54 -/
example : IsEigenvalue (erkCoeffs 131) 0 ∧ ¬ IsEigenvalue (erkCoeffs 131) 1 := by
  rw [C90_explicit (by decide), C90_explicit (by decide), explicit_gamma]
  norm_num

end Verif
