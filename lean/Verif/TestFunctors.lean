import Verif.Newton

/-!
# Model of the functors of test/newton.cpp
-/

namespace Verif
namespace TestFun

section model
variable {F : Type} [Add F] [Sub F] [Mul F] [Div F] [Neg F] [Scalar F]

/-- `rosenbrock_func::f` (test/newton.cpp 13-19) -/
def rosen (a b : F) (x : Vec F 2) : F :=
  let ap := a - x 0
  let bp := x 1 - x 0 * x 0
  ap * ap + b * bp * bp

/-- `rosenbrock_func::fun` and `jac` (test/newton.cpp 22-37) -/
def rosenFun (a b : F) : NFun F 2 where
  fn x :=
    let ap := a - x 0
    let bp := x 1 - x 0 * x 0
    ![- lit 2 * ap - lit 4 * b * bp * x 0, lit 2 * b * bp]
  jac x :=
    let bp := x 1 - x 0 * x 0
    ![![lit 2 + lit 8 * b * x 0 * x 0 - lit 4 * b * bp, - lit 4 * b * x 0], ![- lit 4 * b * x 0, lit 2 * b]]

/-- the first and the second index of pair `k`: the loops of test/newton.cpp 55, 68 and 82 visit `i = 2k` and use `i` and `i + 1` -/
def fstIdx {N : ℕ} (k : Fin N) : Fin (2 * N) := ⟨2 * k, by omega⟩

/-- see `fstIdx` -/
def sndIdx {N : ℕ} (k : Fin N) : Fin (2 * N) := ⟨2 * k + 1, by omega⟩

/-- the pair of an index -/
def pairOf {N : ℕ} (j : Fin (2 * N)) : Fin N := ⟨j / 2, by omega⟩

/-- `higher_order_rosenbrock_func::f` (test/newton.cpp 52-61) -/
def higher {N : ℕ} (a b : F) (x : Vec F (2 * N)) : F :=
  (List.finRange N).foldl (fun res k =>
    let ap := a - x (fstIdx k)
    let bp := x (fstIdx k) - x (sndIdx k) * x (sndIdx k)
    res + (ap * ap + b * bp * bp)) (lit 0)

/-- `higher_order_rosenbrock_func::fun` and `jac` (test/newton.cpp 64-90).  Every entry of the vector and of the blocks of the
matrix is assigned once, so the loops are written as functions of the index. -/
def higherFun (N : ℕ) (a b : F) : NFun F (2 * N) where
  fn x := fun j =>
    let k := pairOf j
    let ap := a - x (fstIdx k)
    let bp := x (fstIdx k) - x (sndIdx k) * x (sndIdx k)
    if j.val % 2 = 0 then - lit 2 * ap + lit 2 * b * bp else - lit 4 * b * bp * x (sndIdx k)
  jac x := fun i j =>
    let k := pairOf i
    let bp := x (fstIdx k) - x (sndIdx k) * x (sndIdx k)
    if pairOf j = k then
      if i.val % 2 = 0 then (if j.val % 2 = 0 then lit 2 * (lit 1 + b) else lit 0)
      else if j.val % 2 = 0 then lit 0
      else - lit 4 * b * bp - lit 4 * b * x (sndIdx k) * (- lit 2 * x (sndIdx k))
    else lit 0

/-- `inverse_power::fun` and `jac` (test/newton.cpp 107-124) -/
def inversePower (a : F) : NFun F 1 where
  fn x :=
    let x32 := x 0 * ssqrt (x 0)
    let xm := lit 1 - x 0
    let xm32 := xm * ssqrt xm
    ![a / x32 - lit 1 / xm32]
  jac x :=
    let x52 := x 0 * x 0 * ssqrt (x 0)
    let xm := lit 1 - x 0
    let xm52 := xm * xm * ssqrt xm
    ![![- lit (3 / 2) * (a / x52 + lit 1 / xm52)]]

end model
end TestFun
end Verif
