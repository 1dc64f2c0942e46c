import Mathlib.LinearAlgebra.Matrix.NonsingularInverse
import Mathlib.Analysis.Complex.Basic
import Verif.Methods
import Verif.ErkTableau
import Verif.IrkTableau

/-!
# Model of the stability-region program

stability_region/main.cpp.  `std::complex<double>` is modelled by `ℂ`, `double` by `ℝ` (exact arithmetic).
-/

namespace Verif

/-- `A(i,j)` as a complex number (main.cpp 40; out of range: 0, never used) -/
noncomputable def cxEntry (A : List (List ℝ)) (i j : ℕ) : ℂ := (((A.getD i []).getD j 0 : ℝ) : ℂ)

/-- `I - z*A` (main.cpp 40), an `N × N` matrix -/
noncomputable def stabMat (N : ℕ) (z : ℂ) (A : List (List ℝ)) : Matrix (Fin N) (Fin N) ℂ :=
  fun i j => (if i = j then 1 else 0) - z * cxEntry A i j

open Classical in
/-- `stability_function` (main.cpp 33-44).  `I - z*A` throws if the sizes differ; `arma::inv` throws if the matrix is
singular.  (In finite precision `arma::inv` may accept a nearly singular matrix; not modelled.) -/
noncomputable def stabilityFunction (z : ℂ) (A : List (List ℝ)) (b : List ℝ) : Outcome ℂ :=
  let N := b.length
  if A.length ≠ N ∨ (A.headD []).length ≠ N then .throws
  else if (stabMat N z A).det = 0 then .throws
  else .ret (1 + z * ∑ i : Fin N, ((b.getD i 0 : ℝ) : ℂ) * ∑ j, (stabMat N z A)⁻¹ i j * 1)

/-- `rk_to_stab_region` (main.cpp 47-79): rows belong to `X`, columns to `Y` -/
noncomputable def rkToStabRegion (X Y : List ℝ) (sc : SolverCoeffs ℝ) (embedded : Bool) : Outcome (List (List ℝ)) :=
  X.mapM fun x => Y.mapM fun y =>
    (if embedded then stabilityFunction ⟨x, y⟩ sc.A sc.b2 else stabilityFunction ⟨x, y⟩ sc.A sc.b).bind fun R =>
      .ret ‖R‖

/-- `arma::linspace(start, stop, num)` (main.cpp 111-112) -/
noncomputable def linspace (start stop : ℝ) (num : ℕ) : List ℝ :=
  (List.range num).map fun i : ℕ => start + (i : ℝ) * ((stop - start) / (num - 1 : ℕ))

/-- `irk::name_to_method` (main.cpp 89 and 110) on the tables as initialised (C05, C06: the history of calls does not matter) -/
def irkNamed (name : String) : ℤ := ((Tables.init irkMethods).nameToMethod name).1
/-- `erk::name_to_method` (main.cpp 96 and 121) -/
def erkNamed (name : String) : ℤ := ((Tables.init erkMethods).nameToMethod name).1

/-- The matrix `S` that `stability_region` (main.cpp 107-129) ends up with; `none`: still empty.  The second branch
calls `irk::get_coefficients` (main.cpp 123). -/
noncomputable def regionMatrix (X Y : List ℝ) (name : String) (embedded : Bool) : Outcome (Option (List (List ℝ))) :=
  let first : Outcome (Option (List (List ℝ))) :=
    if irkNamed name ≠ 0 then some <$> rkToStabRegion X Y (irkCoeffs (irkNamed name)) embedded else pure none
  first >>= fun S =>
    if erkNamed name ≠ 0 then some <$> rkToStabRegion X Y (irkCoeffs (erkNamed name)) embedded else pure S

/-- `stability_region` (main.cpp 107-136): the lines `x y S(i,j)` written, blank lines left out.  Access to an element
of an empty `S` is a checked Armadillo error. -/
noncomputable def stabilityRegion (name : String) (embedded : Bool) : Outcome (List (ℝ × ℝ × ℝ)) := do
  let X := linspace (-190) 10 400
  let Y := linspace (-20) 20 80
  let S ← regionMatrix X Y name embedded
  match S with
  | none => .throws
  | some S => return (List.range Y.length).flatMap fun j => (List.range X.length).map fun i =>
      (X.getD i 0, Y.getD j 0, (S.getD i []).getD j 0)

/-- `X` in `stability_limit` (main.cpp 84-86) -/
noncomputable def limitPoints : List ℝ :=
  [-1e8, -1e7, -1e6, -1e5, -1e4, -1e3, -1e2, -10, -9, -8, -7, -6, -5, -4, -3, -2, -1.5, -1, -0.9, -0.8, -0.7, -0.6,
   -0.5, -0.4, -0.3, -0.2, -0.1, 0, 0.1, 0.2, 0.3, 0.4, 0.5, 0.5, 1]

/-- lines `x |R(x)| |R_embedded(x)|` (main.cpp 88-103) -/
noncomputable def limitLines (sc : SolverCoeffs ℝ) : Outcome (List (ℝ × ℝ × ℝ)) :=
  limitPoints.mapM fun x => do
    let R ← stabilityFunction ⟨x, 0⟩ sc.A sc.b
    let R2 ← stabilityFunction ⟨x, 0⟩ sc.A sc.b2
    return (x, ‖R‖, ‖R2‖)

/-- `stability_limit` (main.cpp 82-104) -/
noncomputable def stabilityLimit (name : String) : Outcome (List (ℝ × ℝ × ℝ)) :=
  if irkNamed name ≠ 0 then limitLines (irkCoeffs (irkNamed name))
  else if erkNamed name ≠ 0 then limitLines (erkCoeffs (erkNamed name))
  else return []

end Verif
