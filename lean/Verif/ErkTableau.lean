import Verif.Coeffs

/-!
# Model of erk.cpp `get_coefficients` and `verify_solver_coeffs`
-/

namespace Verif
variable {F : Type}

section coeffs
variable [Neg F] [Div F] [Lit F]

/-- a quotient of two floating literals, e.g. `35.0/384.0` (erk.cpp 110-164) -/
def q (a b : ℚ) : F := lit a / lit b
/-- a quotient with a negated numerator, e.g. `-56.0/15.0`, parsed by C++ as `(-56.0)/15.0` (erk.cpp 110-164) -/
def nq (a b : ℚ) : F := (- lit a) / lit b

/-- `case EXPLICIT_EULER` (erk.cpp 25-32) -/
def explicitEuler : SolverCoeffs F :=
  { A := [[lit 0]], b := [lit 1], c := [lit 0], order := some 1, order2 := some 0,
    gamma := lit 0 }

/-- `case RUNGE_KUTTA_4` (erk.cpp 34-43), with `one_third`, `one_six` of lines 12-13 -/
def rungeKutta4 : SolverCoeffs F :=
  { A := [[lit 0, lit 0, lit 0, lit 0],
          [lit (1/2), lit 0, lit 0, lit 0],
          [lit 0, lit (1/2), lit 0, lit 0],
          [lit 0, lit 0, lit 1, lit 0]],
    b := [q 1 6, q 1 3, q 1 3, q 1 6],
    c := [lit 0, lit (1/2), lit (1/2), lit 1],
    order := some 4, order2 := some 0, gamma := lit 0 }

/-- `case BOGACKI_SHAMPINE_32` (erk.cpp 46-61) -/
def bogackiShampine32 : SolverCoeffs F :=
  { A := [[lit 0, lit 0, lit 0, lit 0],
          [lit (1/2), lit 0, lit 0, lit 0],
          [lit 0, lit (3/4), lit 0, lit 0],
          [q 2 9, q 1 3, q 4 9, lit 0]],
    b := [q 2 9, q 1 3, q 4 9, lit 0],
    b2 := [q 7 24, lit (1/4), q 1 3, q 1 8],
    c := [lit 0, lit (1/2), lit (3/4), lit 1],
    fsal := true, order := some 3, order2 := some 2, gamma := lit 0 }

/-- `case CASH_KARP_54` (erk.cpp 63-109) -/
def cashKarp54 : SolverCoeffs F :=
  { A := [[lit 0, lit 0, lit 0, lit 0, lit 0, lit 0],
          [q 1 5, lit 0, lit 0, lit 0, lit 0, lit 0],
          [q 3 40, q 9 40, lit 0, lit 0, lit 0, lit 0],
          [q 3 10, nq 9 10, q 6 5, lit 0, lit 0, lit 0],
          [nq 11 54, q 5 2, nq 70 27, q 35 27, lit 0, lit 0],
          [q 1631 55296, q 175 512, q 575 13824, q 44275 110592, q 253 4096, lit 0]],
    b := [q 37 378, lit 0, q 250 621, q 125 594, lit 0, q 512 1771],
    b2 := [q 2825 27648, lit 0, q 18575 48384, q 13525 55296, q 277 14336, q 1 4],
    c := [lit 0, lit (1/5), lit (3/10), lit (3/5), lit 1, q 7 8],
    order := some 5, order2 := some 4, gamma := lit 0 }

/-- `case DORMAND_PRINCE_54` (erk.cpp 110-164) -/
def dormandPrince54 : SolverCoeffs F :=
  { A := [[lit 0, lit 0, lit 0, lit 0, lit 0, lit 0, lit 0],
          [q 1 5, lit 0, lit 0, lit 0, lit 0, lit 0, lit 0],
          [q 3 40, q 9 40, lit 0, lit 0, lit 0, lit 0, lit 0],
          [q 44 45, nq 56 15, q 32 9, lit 0, lit 0, lit 0, lit 0],
          [q 19372 6561, nq 25360 2187, q 64448 6561, nq 212 729, lit 0, lit 0, lit 0],
          [q 9017 3168, nq 355 33, q 46732 5247, q 49 176, nq 5103 18656, lit 0, lit 0],
          [q 35 384, lit 0, q 500 1113, q 125 192, nq 2187 6784, q 11 84, lit 0]],
    c := [lit 0, lit (1/5), lit (3/10), lit (4/5), q 8 9, lit 1, lit 1],
    b := [q 35 384, lit 0, q 500 1113, q 125 192, nq 2187 6784, q 11 84, lit 0],
    b2 := [q 5179 57600, lit 0, q 7571 16695, q 393 640, nq 92097 339200, q 187 2100, q 1 40],
    order := some 5, order2 := some 4, fsal := true, gamma := lit 0 }

/-- `case FEHLBERG_54` (erk.cpp 166-203) -/
def fehlberg54 : SolverCoeffs F :=
  { A := [[lit 0, lit 0, lit 0, lit 0, lit 0, lit 0],
          [q 1 4, lit 0, lit 0, lit 0, lit 0, lit 0],
          [q 3 32, q 9 32, lit 0, lit 0, lit 0, lit 0],
          [q 1932 2197, nq 7200 2197, q 7296 2197, lit 0, lit 0, lit 0],
          [q 439 216, - lit 8, q 3680 513, nq 845 4104, lit 0, lit 0],
          [nq 8 27, lit 2, nq 3544 2565, q 1859 4104, nq 11 40, lit 0]],
    c := [lit 0, lit (1/4), lit (3/8), q 12 13, lit 1, lit (1/2)],
    b := [q 16 135, lit 0, q 6656 12825, q 28561 56430, nq 9 50, q 2 55],
    b2 := [q 25 216, lit 0, q 1408 2565, q 2197 4104, nq 1 5, lit 0],
    order := some 5, order2 := some 4, gamma := lit 0 }

/-- `erk::get_coefficients` (erk.cpp 9-221).  The consistency warning of lines 206-218 only writes to
`std::cerr`.  Unknown methods keep empty vectors and uninitialised orders. -/
def erkCoeffs (method : ℤ) : SolverCoeffs F :=
  if method = 100 then explicitEuler
  else if method = 110 then rungeKutta4
  else if method = 120 then bogackiShampine32
  else if method = 130 then cashKarp54
  else if method = 131 then dormandPrince54
  else if method = 132 then fehlberg54
  else { gamma := lit 0 }

end coeffs

/-- `erk::verify_solver_coeffs` (erk.cpp 237-256). -/
def erkVerify [Scalar F] (sc : SolverCoeffs F) : Bool :=
  let N := sc.b.length
  if N ≠ sc.c.length ∨ N ≠ sc.nRows ∨ N ≠ sc.nCols then false
  else if N = 0 then false
  else (List.range N).all fun i => (List.range' i (N - i)).all fun j => eqb (sc.a i j) (lit 0)

/-- the implemented explicit methods with their coefficients -/
def erkImplemented : List ℤ := [100, 110, 120, 130, 131, 132]

/-- the rational tableau determines the real one -/
theorem erkCoeffs_cast (m : ℤ) :
    (erkCoeffs m : SolverCoeffs ℝ) = (erkCoeffs m : SolverCoeffs ℚ).map (fun x : ℚ => (x : ℝ)) := by
  unfold erkCoeffs
  split_ifs <;>
    simp [SolverCoeffs.map, explicitEuler, rungeKutta4, bogackiShampine32, cashKarp54,
      dormandPrince54, fehlberg54, q, nq]

end Verif
