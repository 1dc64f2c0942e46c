import Verif.ErkShipped

/-!
# Property C08 (explicit part): coefficients verify exactly for the implemented methods
-/

set_option linter.unusedSectionVars false

namespace Verif
variable {F : Type} [Add F] [Sub F] [Mul F] [Div F] [Neg F] [Scalar F] {n : ℕ}

/-- **C08 (erk).**  For every `int` code and every arithmetic in which `0.0 == 0.0`: the coefficients pass
`verify_solver_coeffs` exactly for the six implemented methods. -/
theorem C08_erk (h0 : eqb (lit 0 : F) (lit 0) = true) (m : ℤ) :
    erkVerify (erkCoeffs m : SolverCoeffs F) = true ↔
      m ∈ ([100, 110, 120, 130, 131, 132] : List ℤ) := by
  simp only [List.mem_cons, List.not_mem_nil, or_false]
  by_cases h1 : m = 100
  · subst h1
    simp [erkCoeffs, erkVerify, explicitEuler, SolverCoeffs.nRows, SolverCoeffs.nCols,
      SolverCoeffs.a, h0]
  by_cases h2 : m = 110
  · subst h2
    simp [erkCoeffs, erkVerify, rungeKutta4, SolverCoeffs.nRows, SolverCoeffs.nCols,
      SolverCoeffs.a, h0, List.range_succ, List.range'_succ]
  by_cases h3 : m = 120
  · subst h3
    simp [erkCoeffs, erkVerify, bogackiShampine32, SolverCoeffs.nRows, SolverCoeffs.nCols,
      SolverCoeffs.a, h0, List.range_succ, List.range'_succ]
  by_cases h4 : m = 130
  · subst h4
    simp [erkCoeffs, erkVerify, cashKarp54, SolverCoeffs.nRows, SolverCoeffs.nCols,
      SolverCoeffs.a, h0, List.range_succ, List.range'_succ]
  by_cases h5 : m = 131
  · subst h5
    simp [erkCoeffs, erkVerify, dormandPrince54, SolverCoeffs.nRows, SolverCoeffs.nCols,
      SolverCoeffs.a, h0, List.range_succ, List.range'_succ]
  by_cases h6 : m = 132
  · subst h6
    simp [erkCoeffs, erkVerify, fehlberg54, SolverCoeffs.nRows, SolverCoeffs.nCols,
      SolverCoeffs.a, h0, List.range_succ, List.range'_succ]
  simp [erkCoeffs, h1, h2, h3, h4, h5, h6, erkVerify, SolverCoeffs.nRows, SolverCoeffs.nCols]

/-- **C08 (erk::odeint).**  An unsupported code never returns a solution: with assertions the run stops at the
assertion, without them it reads an uninitialised order. -/
theorem C08_erk_unsupported {nd : Bool} {f : F → Vec F n → Vec F n} {t0 t1 : F} {y0 : Vec F n}
    {o : ErkOpts F} {oo : OutOpts} {m : ℤ} {dt : F} {fuel : ℕ}
    (hm : m ∉ ([100, 110, 120, 130, 131, 132] : List ℤ)) :
    erkOdeint nd f t0 t1 y0 o oo m dt fuel = some (if nd then .ub else .assertFail) := by
  have hb := erkCoeffs_order_none (F := F) hm
  have hv : erkVerify (erkCoeffs m : SolverCoeffs F) = false := by
    simp only [List.mem_cons, List.not_mem_nil, or_false, not_or] at hm
    obtain ⟨h1, h2, h3, h4, h5, h6⟩ := hm
    simp [erkCoeffs, h1, h2, h3, h4, h5, h6, erkVerify, SolverCoeffs.nRows, SolverCoeffs.nCols]
  unfold erkOdeint
  cases nd
  · simp [hv]
  · simp only [Bool.not_true, Bool.false_and, if_true]
    split_ifs <;> simp_all [erkGuts, minOrder]

/-- the method code 133 with assertions, and the implicit method code 230 without them -/
example : erkOdeint (F := ℝ) (n := 1) false (fun _ y => y) 0 1 (fun _ => 1)
      { adaptive := true, relTol := 1, absTol := 1, maxDt := 0, maxSteps := -1 } OutOpts.dflt 133 1 0 = some .assertFail ∧
    erkOdeint (F := ℝ) (n := 1) true (fun _ y => y) 0 1 (fun _ => 1)
      { adaptive := true, relTol := 1, absTol := 1, maxDt := 0, maxSteps := -1 } OutOpts.dflt 230 1 0 = some .ub :=
  ⟨C08_erk_unsupported (by decide), C08_erk_unsupported (by decide)⟩

example : erkVerify (erkCoeffs 131 : SolverCoeffs ℝ) = true := (C08_erk (by simp) 131).mpr (by decide)
example : erkVerify (erkCoeffs 133 : SolverCoeffs ℝ) = false := by
  have := (C08_erk (F := ℝ) (by simp) 133).not.mpr (by decide)
  simpa using this
/-- the hypothesis of `C08_erk` is met by exact arithmetic -/
example : eqb (lit 0 : ℝ) (lit 0) = true := by simp

end Verif
