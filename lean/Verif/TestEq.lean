import Verif.Irk
import Mathlib.Analysis.SpecialFunctions.Trigonometric.Basic

/-!
# Model of test_equations.hpp

Right-hand sides and Jacobi matrices over an arbitrary scalar; the closed-form solutions over `ℝ`, because `exp`,
`sin` and `cos` are not among the operations of `Scalar`.
-/

set_option linter.unusedSectionVars false

namespace Verif.TestEq

section model
variable {F : Type} [Add F] [Sub F] [Mul F] [Div F] [Neg F] [Scalar F]

/-- `exponential` (test_equations.hpp 37-59).  `fun` accepts vectors of every length, `jac` is always 1×1; the model
has dimension 1. -/
def exponential (l : F) : OdeFun F 1 :=
  { fn := fun _ y i => l * y i
    jac := fun _ _ => ![![l]] }

/-- `harmonic` (test_equations.hpp 63-84) -/
def harmonic (w : F) : OdeFun F 2 :=
  { fn := fun _ y => ![w * y 1, (-w) * y 0]
    jac := fun _ _ => ![![lit 0, w], ![-w, lit 0]] }

/-- `vdpol` (test_equations.hpp 91-115) -/
def vdpol (mu : F) : OdeFun F 2 :=
  { fn := fun _ y => ![y 1, ((lit 1 - y 0 * y 0) * y 1 - y 0) / mu]
    jac := fun _ y => ![![lit 0, lit 1],
                        ![(-(lit 2 * y 0 * y 1 + lit 1)) / mu, (lit 1 - y 0 * y 0) / mu]] }

/-- `bruss` (test_equations.hpp 120-145) -/
def bruss (a b : F) : OdeFun F 2 :=
  { fn := fun _ y => ![a + y 0 * y 0 * y 1 - b * y 0 - y 0, b * y 0 - y 0 * y 0 * y 1]
    jac := fun _ y => ![![lit 2 * y 0 * y 1 - b - lit 1, y 0 * y 0],
                        ![b - lit 2 * y 0 * y 1, (- y 0) * y 0]] }

/-- `rober` (test_equations.hpp 150-176) -/
def rober : OdeFun F 3 :=
  { fn := fun _ y => ![(- lit (4/100)) * y 0 + lit (10^4) * y 1 * y 2,
                       lit (4/100) * y 0 - lit (10^4) * y 1 * y 2 - lit (3 * 10^7) * y 1 * y 1,
                       lit (3 * 10^7) * y 1 * y 1]
    jac := fun _ y => ![![- lit (4/100), lit (10^4) * y 2, lit (10^4) * y 1],
                        ![lit (4/100), (- lit (10^4)) * y 2 - lit (6 * 10^7) * y 1, (- lit (10^4)) * y 1],
                        ![lit 0, lit (6 * 10^7) * y 1, lit 0]] }

/-- `dimer` (test_equations.hpp 180-203), `irate = 1.0/rate` -/
def dimer (rate : F) : OdeFun F 2 :=
  let irate := lit 1 / rate
  { fn := fun _ y => ![(- lit 2) * rate * y 0 * y 0 + lit 2 * irate * y 1, rate * y 0 * y 0 - irate * y 1]
    jac := fun _ y => ![![(- lit 4) * rate * y 0, lit 2 * irate],
                        ![lit 2 * rate * y 0, - irate]] }

/-- the matrix of `stiff_eq` (test_equations.hpp 219-225) -/
def stiffA : Mat F 2 := ![![lit 0, lit 1], ![- lit 1000, - lit 1001]]

/-- `stiff_eq` (test_equations.hpp 207-250) -/
def stiffEq : OdeFun F 2 :=
  { fn := fun _ y => mulVec stiffA y
    jac := fun _ _ => stiffA }

/-- `three_body::fun` (test_equations.hpp 263-305).  Note line 300: `dydt[9]` contains `x3mx2`, not `y3my2`. -/
def threeBodyFun (m1 m2 m3 : F) (y : Vec F 12) : Vec F 12 :=
  let x2mx1 := y 2 - y 0
  let y2my1 := y 3 - y 1
  let x3mx1 := y 4 - y 0
  let y3my1 := y 5 - y 1
  let x3mx2 := y 4 - y 2
  let y3my2 := y 5 - y 3
  let r12_2 := x2mx1 * x2mx1 + y2my1 * y2my1
  let r13_2 := x3mx1 * x3mx1 + y3my1 * y3my1
  let r23_2 := x3mx2 * x3mx2 + y3my2 * y3my2
  let r12_3 := r12_2 * ssqrt r12_2
  let r13_3 := r13_2 * ssqrt r13_2
  let r23_3 := r23_2 * ssqrt r23_2
  ![y 6 / m1, y 7 / m1, y 8 / m2, y 9 / m2, y 10 / m3, y 11 / m3,
    m1 * m3 * x3mx1 / r13_3 + m1 * m2 * x2mx1 / r12_3,
    m1 * m3 * y3my1 / r13_3 + m1 * m2 * y2my1 / r12_3,
    (- m1) * m2 * x2mx1 / r12_3 + m2 * m3 * x3mx2 / r23_3,
    (- m1) * m2 * y2my1 / r12_3 + m2 * m3 * x3mx2 / r23_3,
    (- m2) * m3 * x3mx2 / r23_3 - m1 * m3 * x3mx1 / r13_3,
    (- m2) * m3 * y3my2 / r23_3 - m1 * m3 * y3my1 / r13_3]

/-- `three_body::jac` (test_equations.hpp 307-421): the matrix `J` before the final minus sign.  The entries below the
diagonal of the block 6..11 are computed, those above copied (389-407). -/
def threeBodyJ (m1 m2 m3 : F) (y : Vec F 12) : Mat F 12 :=
  let x2mx1 := y 2 - y 0
  let y2my1 := y 3 - y 1
  let x3mx1 := y 4 - y 0
  let y3my1 := y 5 - y 1
  let x3mx2 := y 4 - y 2
  let y3my2 := y 5 - y 3
  let x2mx1_2 := x2mx1 * x2mx1
  let y2my1_2 := y2my1 * y2my1
  let x3mx1_2 := x3mx1 * x3mx1
  let y3my1_2 := y3my1 * y3my1
  let x3mx2_2 := x3mx2 * x3mx2
  let y3my2_2 := y3my2 * y3my2
  let r12_2 := x2mx1_2 + y2my1_2
  let r13_2 := x3mx1_2 + y3my1_2
  let r23_2 := x3mx2_2 + y3my2_2
  let r12_3 := r12_2 * ssqrt r12_2
  let r13_3 := r13_2 * ssqrt r13_2
  let r23_3 := r23_2 * ssqrt r23_2
  let r12_5 := r12_3 * r12_2
  let r13_5 := r13_3 * r13_2
  let r23_5 := r23_3 * r23_2
  let z : F := lit 0
  let j66 := (- m1) * m3 / r13_3 + lit 3 * m1 * m3 * x3mx1_2 / r13_5 - m1 * m2 / r12_3 + lit 3 * m1 * m2 * x2mx1_2 / r12_5
  let j88 := (- m2) * m3 / r23_3 + lit 3 * m2 * m3 * x3mx2_2 / r23_5 - m1 * m2 / r12_3 + lit 3 * m1 * m2 * x2mx1_2 / r12_5
  let jaa := (- m1) * m3 / r13_3 + lit 3 * m1 * m3 * x3mx1_2 / r13_5 - m2 * m3 / r23_3 + lit 3 * m2 * m3 * x3mx2_2 / r23_5
  let j77 := (- m1) * m3 / r13_3 + lit 3 * m1 * m3 * y3my1_2 / r13_5 - m1 * m2 / r12_3 + lit 3 * m1 * m2 * y2my1_2 / r12_5
  let j99 := (- m2) * m3 / r23_3 + lit 3 * m2 * m3 * y3my2_2 / r23_5 - m1 * m2 / r13_3 + lit 3 * m1 * m2 * y2my1_2 / r12_5
  let jbb := (- m1) * m3 / r13_3 + lit 3 * m1 * m3 * y3my1_2 / r13_5 - m2 * m3 / r23_3 + lit 3 * m2 * m3 * y3my2_2 / r23_5
  let j76 := lit 3 * m1 * m3 * x3mx1 * y3my1 / r13_5 + lit 3 * m1 * m2 * x2mx1 * y2my1 / r12_5
  let j86 := m1 * m2 / r12_3 - lit 3 * m1 * m2 * x2mx1_2 / r12_5
  let j96 := (- lit 3) * m1 * m2 * x2mx1 * y2my1 / r12_5
  let ja6 := m1 * m3 / r13_3 - lit 3 * m1 * m3 * x3mx1_2 / r13_5
  let jb6 := (- lit 3) * m1 * m3 * x3mx1 * y3my1 / r13_5
  let j87 := (- lit 3) * m1 * m2 * x2mx1 * y2my1 / r12_5
  let j97 := m1 * m2 / r12_3 - lit 3 * m1 * m2 * y2my1_2 / r12_5
  let ja7 := (- lit 3) * m1 * m3 * x3mx1 * y3my1 / r13_5
  let jb7 := m1 * m3 / r13_2 - lit 3 * m1 * m3 * y3my1_2 / r13_5
  let j98 := lit 3 * m2 * m3 * x3mx2 * y3my2 / r23_5 + lit 3 * m1 * m2 * x2mx1 * y2my1 / r12_5
  let ja8 := m2 * m3 / r23_3 - lit 3 * m2 * m3 * x3mx2_2 / r23_5
  let jb8 := (- lit 3) * m2 * m3 * x3mx2 * y3my2 / r23_5
  let ja9 := (- lit 3) * m2 * m3 * x3mx2 * y3my2 / r23_5
  let jb9 := m2 * m3 / r23_3 - lit 3 * m2 * m3 * y3my2_2 / r23_5
  let jba := lit 3 * m2 * m3 * x3mx2 * y3my2 / r23_5 + lit 3 * m1 * m3 * x3mx1 * y3my1 / r13_5
  ![![lit 1 / m1, z, z, z, z, z, z, z, z, z, z, z],
    ![z, lit 1 / m1, z, z, z, z, z, z, z, z, z, z],
    ![z, z, lit 1 / m2, z, z, z, z, z, z, z, z, z],
    ![z, z, z, lit 1 / m2, z, z, z, z, z, z, z, z],
    ![z, z, z, z, lit 1 / m3, z, z, z, z, z, z, z],
    ![z, z, z, z, z, lit 1 / m3, z, z, z, z, z, z],
    ![z, z, z, z, z, z, j66, j76, j86, j96, ja6, jb6],
    ![z, z, z, z, z, z, j76, j77, j87, j97, ja7, jb7],
    ![z, z, z, z, z, z, j86, j87, j88, j98, ja8, jb8],
    ![z, z, z, z, z, z, j96, j97, j98, j99, ja9, jb9],
    ![z, z, z, z, z, z, ja6, ja7, ja8, ja9, jaa, jba],
    ![z, z, z, z, z, z, jb6, jb7, jb8, jb9, jba, jbb]]

/-- `three_body` (test_equations.hpp 254-481); the members `m1r`, `m2r` are written but never read -/
def threeBody (m1 m2 m3 : F) : OdeFun F 12 :=
  { fn := fun _ y => threeBodyFun m1 m2 m3 y
    jac := fun _ y i j => - threeBodyJ m1 m2 m3 y i j }

/-- `three_body::kin_energy` (test_equations.hpp 424-438): the masses do not occur -/
def kinEnergy (y : Vec F 12) : F :=
  lit (5/10) * (y 6 * y 6 + y 7 * y 7 + (y 8 * y 8 + y 9 * y 9) + (y 10 * y 10 + y 11 * y 11))

/-- `three_body::pot_energy` (test_equations.hpp 440-460) -/
def potEnergy (m1 m2 m3 : F) (y : Vec F 12) : F :=
  let r12_x := y 2 - y 0
  let r12_y := y 3 - y 1
  let r13_x := y 4 - y 0
  let r13_y := y 5 - y 1
  let r23_x := y 4 - y 2
  let r23_y := y 5 - y 3
  let r12 := ssqrt (r12_x * r12_x + r12_y * r12_y)
  let r13 := ssqrt (r13_x * r13_x + r13_y * r13_y)
  let r23 := ssqrt (r23_x * r23_x + r23_y * r23_y)
  (- m1) * m2 / r12 - m1 * m3 / r13 - m2 * m3 / r23

/-- `kinetic_4` (test_equations.hpp 484-515) -/
def kinetic4 (b2 b3 b4 : F) : OdeFun F 4 :=
  { fn := fun _ y =>
      ![(- lit 2) * y 0 * y 0 - y 0 * (y 1 + y 2) + (lit 2 * b2 * y 1 + b3 * y 2 + b4 * y 3),
        y 0 * y 0 - y 0 * y 1 + b3 * y 2 - b2 * y 1,
        y 0 * y 1 - y 0 * y 2 + b4 * y 3 - b3 * y 2,
        y 0 * y 2 - b4 * y 3]
    jac := fun _ y =>
      ![![(- lit 4) * y 0 - y 1 - y 2, - y 0 + lit 2 * b2, - y 0 + b3, b4],
        ![lit 2 * y 0 - y 1, - y 0 - b2, b3, lit 0],
        ![y 1 - y 2, y 0, - y 0 - b3, b4],
        ![y 2, lit 0, y 0, - b4]] }

/-- `lorenz` (test_equations.hpp 519-543) -/
def lorenz (s r b : F) : OdeFun F 3 :=
  { fn := fun _ y => ![s * (y 1 - y 0), y 0 * (r - y 2) - y 1, y 0 * y 1 - b * y 2]
    jac := fun _ y => ![![- s, s, lit 0], ![r - y 2, - lit 1, - y 0], ![y 1, y 0, - b]] }

end model

/-- `exponential::sol` (test_equations.hpp 43-46) -/
noncomputable def exponentialSol (l t : ℝ) : Vec ℝ 1 := ![Real.exp (l * t)]

/-- `harmonic::sol` (test_equations.hpp 68-71) -/
noncomputable def harmonicSol (w t : ℝ) : Vec ℝ 2 := ![Real.sin (w * t), Real.cos (w * t)]

/-- `stiff_eq::sol` (test_equations.hpp 227-235) -/
noncomputable def stiffSol (t : ℝ) : Vec ℝ 2 :=
  ![- Real.exp (-1000 * t) / 999 + 1000 * Real.exp (-t) / 999,
    (1000 * Real.exp (-1000 * t) - 1000 * Real.exp (-t)) / 999]

end Verif.TestEq
