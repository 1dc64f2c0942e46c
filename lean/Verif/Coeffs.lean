import Verif.Core

/-!
# Butcher tableaux (`solver_coeffs`)
-/

namespace Verif

/-- `solver_coeffs` (erk.hpp 65-86, irk.hpp 68-89).  `A` is given by rows.  `order`, `order2` are `int`s that
`get_coefficients` leaves uninitialised for some methods: `none`.  The field `name` (used for logging) is
omitted. -/
structure SolverCoeffs (F : Type) where
  A : List (List F) := []
  b : List F := []
  c : List F := []
  b2 : List F := []
  order : Option ℤ := none
  order2 : Option ℤ := none
  fsal : Bool := false
  gamma : F
  bInterp : List (List F) := []

namespace SolverCoeffs
variable {F : Type}

/-- number of stages, `sc.b.size()` (erk.hpp 290, irk.hpp 557) -/
def ns (sc : SolverCoeffs F) : ℕ := sc.b.length

section
variable [Lit F]

/-- `sc.A(i,j)` (erk.hpp 351).  Out-of-range access is a checked Armadillo error in the code; all uses are in range for
coefficients that pass `verify_solver_coeffs`, the value 0 is a dummy. -/
def a (sc : SolverCoeffs F) (i j : ℕ) : F := (sc.A.getD i []).getD j (lit 0)
/-- `sc.b(i)` (erk.hpp 357, irk.hpp 600) -/
def bw (sc : SolverCoeffs F) (i : ℕ) : F := sc.b.getD i (lit 0)
/-- `sc.b2(i)` (erk.hpp 364, irk.hpp 601) -/
def bw2 (sc : SolverCoeffs F) (i : ℕ) : F := sc.b2.getD i (lit 0)
/-- `sc.c(i)` (erk.hpp 353, irk.hpp 382) -/
def cn (sc : SolverCoeffs F) (i : ℕ) : F := sc.c.getD i (lit 0)
end

/-- `sc.A.n_rows` (erk.cpp 237-256, irk.cpp 99-108) -/
def nRows (sc : SolverCoeffs F) : ℕ := sc.A.length
/-- `sc.A.n_cols` (erk.cpp 237-256, irk.cpp 99-108; an Armadillo matrix is rectangular: the length of the first row) -/
def nCols (sc : SolverCoeffs F) : ℕ := (sc.A.headD []).length

/-- change of scalars; not in the code, used to compute tableaux exactly -/
def map {G : Type} (φ : F → G) (sc : SolverCoeffs F) : SolverCoeffs G :=
  { A := sc.A.map (List.map φ), b := sc.b.map φ, c := sc.c.map φ, b2 := sc.b2.map φ,
    order := sc.order, order2 := sc.order2, fsal := sc.fsal, gamma := φ sc.gamma,
    bInterp := sc.bInterp.map (List.map φ) }

end SolverCoeffs
end Verif
