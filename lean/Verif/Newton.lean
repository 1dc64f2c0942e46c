import Verif.LinAlg

/-!
# Model of newton.hpp
-/

namespace Verif

section model
variable {F : Type} [Add F] [Sub F] [Mul F] [Div F] [Neg F] [Scalar F] {n : ℕ}

/-- a functor for the non-linear solvers (newton.hpp 101-150): residual and Jacobi matrix -/
structure NFun (F : Type) (n : ℕ) where
  fn : Vec F n → Vec F n
  jac : Vec F n → Mat F n

/-- `newton::options` (newton.hpp 57-78) -/
structure NewtonOpts (F : Type) where
  tol : F
  dxDelta : F
  maxit : ℤ
  timeInternals : Bool
  maxStep : F
  refreshJac : ℤ
  precondition : Bool
  limitStep : Bool

/-- default constructor (newton.hpp 58-60) -/
def NewtonOpts.dflt : NewtonOpts F :=
  { tol := lit (1 / 10 ^ 4), dxDelta := lit (1 / 10 ^ 4), maxit := 5000, timeInternals := false,
    maxStep := - lit 1, refreshJac := 10, precondition := false, limitStep := false }

/-- `newton::status` (newton.hpp 83-91); `conv`: 0 SUCCESS, 1 INCREMENT_DIVERGE, 2 ITERATION_ERROR_TOO_LARGE,
3 MAXIT_EXCEEDED, 4 GENERIC_ERROR (newton.hpp 45-51).  `jacCalls`, `funCalls` are ghost counters of user calls. -/
structure NewtonStatus (F : Type) where
  conv : ℤ
  res : F
  iters : ℕ
  etaFinal : F
  jacCalls : ℕ := 0
  funCalls : ℕ := 0

/-- the template arguments of `newton_iterate_impl` (newton.hpp 362-363) -/
structure NewtonFlags where
  refresh : ℤ
  precondition : Bool
  timeInternals : Bool
  limitStep : Bool
  quiet : Bool
  deriving DecidableEq, Repr

/-- local variables of `newton_iterate_impl` at the loop head (newton.hpp 367-420).  `x0 = xn` there (line 476), so
only `xn` is kept; `f0`, `incr0`, `theta_k` are never read; `eta_k` is constantly 1. -/
structure NewtonState (F : Type) (n : ℕ) where
  xn : Vec F n
  r : Vec F n
  res2 : F
  J : Mat F n
  /-- `L`, `U`, `P`; `none` after a failed `arma::lu`, which resets them -/
  lup : Option (Mat F n × Mat F n × Mat F n)
  incr : F
  iters : ℕ
  term : Bool
  jacCalls : ℕ
  funCalls : ℕ

/-- `lambda` (newton.hpp 425-428) -/
def newtonLambda (fl : NewtonFlags) (res2 : F) : F :=
  if fl.limitStep then lit 1 / (lit 1 + res2) else lit 1

/-- `P(i,i) = 1/J(i,i)` or 1, other entries unchanged (newton.hpp 432-438) -/
def precondDiag (J P : Mat F n) : Mat F n := fun i j =>
  if i = j then (if eqb (J i i) (lit 0) then lit 1 else lit 1 / J i i) else P i j

/-- the body of the `try` block (newton.hpp 430-462): the new `L, U, P` and the direction; `none` if something
throws.  The direction of the stored-LU branch has no minus sign, as in the code. -/
def newtonDir (la : LinAlg F) (fl : NewtonFlags) (s : NewtonState F n) :
    Option (Option (Mat F n × Mat F n × Mat F n) × Vec F n) :=
  if fl.precondition then
    match s.lup with
    | none => none
    | some (L, U, P) =>
      let P := precondDiag s.J P
      match la.solve (matMul P s.J) (mulVec P s.r) with
      | none => none
      | some z => some (some (L, U, P), fun i => - z i)
  else if fl.refresh ≤ 3 then
    match la.solve s.J s.r with
    | none => none
    | some z => some (s.lup, fun i => - z i)
  else
    match s.lup with
    | none => none
    | some (L, U, P) =>
      match la.solveL L (mulVec P s.r) with
      | none => none
      | some t2 =>
        match la.solveU U t2 with
        | none => none
        | some z => some (s.lup, z)

/-- `max_step2` (newton.hpp 286-288, 381-383) -/
def maxStep2 (o : NewtonOpts F) : F :=
  if ltb (lit 0) o.maxStep then o.maxStep * o.maxStep else - lit 1

/-- limiting the step (newton.hpp 311-316, 465-470) -/
def limitDir (ms2 lam : F) (d : Vec F n) : Vec F n :=
  if ltb (lit 0) ms2 then
    let norm2 := dot d d
    if ltb ms2 (lam * lam * norm2) then
      fun i => d i * (ssqrt (ms2 / norm2) / lam)
    else d
  else d

/-- what follows the loop (newton.hpp 524-543); `x` is the initial guess -/
def newtonFinish (x : Vec F n) (o : NewtonOpts F) (s : NewtonState F n) : Vec F n × NewtonStatus F :=
  let res := ssqrt s.res2
  let conv : ℤ := if (s.iters : ℤ) = o.maxit then 3 else 0
  let conv : ℤ := if isFin res then conv else 4
  (if conv = 0 then s.xn else x,
    { conv := conv, res := res, iters := s.iters, etaFinal := lit 1,
      jacCalls := s.jacCalls, funCalls := s.funCalls })

/-- one pass through the loop of `newton_iterate_impl` (newton.hpp 422-521) -/
def newtonBody (la : LinAlg F) (fn : NFun F n) (x : Vec F n) (o : NewtonOpts F) (fl : NewtonFlags)
    (st0 : NewtonStatus F) (s : NewtonState F n) :
    LoopStep (NewtonState F n) (Vec F n × NewtonStatus F) :=
  if s.term = false ∧ (s.iters : ℤ) < o.maxit then
    let lam := newtonLambda fl s.res2
    match newtonDir la fl s with
    | none => .done (.ret (x, { st0 with conv := 4, iters := s.iters,
                                          jacCalls := s.jacCalls, funCalls := s.funCalls }))
    | some (lup, d) =>
      let d := limitDir (maxStep2 o) lam d
      let xn : Vec F n := fun i => s.xn i + lam * d i
      let J := if fl.refresh ≠ 0 then fn.jac xn else s.J
      let lup := if 3 < fl.refresh then la.lu J else lup
      let r := fn.fn xn
      let incr := normInf d
      .next { xn := xn, r := r, res2 := dot r r, J := J, lup := lup, incr := incr,
              iters := s.iters + 1, term := ltb incr o.dxDelta,
              jacCalls := if fl.refresh ≠ 0 then s.jacCalls + 1 else s.jacCalls,
              funCalls := s.funCalls + 1 }
  else .done (.ret (newtonFinish x o s))

/-- state before the loop (newton.hpp 367-420) -/
def newtonInit (la : LinAlg F) (fn : NFun F n) (x : Vec F n) (fl : NewtonFlags) : NewtonState F n :=
  let r := fn.fn x
  let J := fn.jac x
  { xn := x, r := r, res2 := dot r r, J := J,
    lup := if 3 < fl.refresh then la.lu J else some (zeroMat n, zeroMat n, zeroMat n),
    incr := lit 0, iters := 0, term := false, jacCalls := 1, funCalls := 1 }

/-- `newton_iterate_impl` (newton.hpp 362-544).  The loop is run with enough fuel, see `newtonImpl_returns`. -/
def newtonImpl (la : LinAlg F) (fl : NewtonFlags) (fn : NFun F n) (x : Vec F n) (o : NewtonOpts F)
    (st0 : NewtonStatus F) : Option (Outcome (Vec F n × NewtonStatus F)) :=
  runLoop (newtonBody la fn x o fl st0) (o.maxit.toNat + 1) (newtonInit la fn x fl)

/-- `option_bits` (newton.hpp 562-567) -/
def newtonBits (o : NewtonOpts F) (quiet : Bool) : ℕ :=
  1 * (if 0 < o.refreshJac then 1 else 0) + 2 * (if o.precondition then 1 else 0) +
  4 * (if o.timeInternals then 1 else 0) + 8 * (if o.limitStep then 1 else 0) +
  16 * (if quiet then 1 else 0)

/-- the `switch` (newton.hpp 571-670): template arguments of each case, as written there -/
def newtonSwitch : ℕ → NewtonFlags
  | 0 => ⟨0, false, false, false, false⟩
  | 1 => ⟨1, false, false, false, false⟩
  | 2 => ⟨0, true, false, false, false⟩
  | 3 => ⟨1, true, false, false, false⟩
  | 4 => ⟨0, false, true, false, false⟩
  | 5 => ⟨1, false, true, false, false⟩
  | 6 => ⟨0, true, true, false, false⟩
  | 7 => ⟨1, true, true, false, false⟩
  | 8 => ⟨0, false, false, true, false⟩
  | 9 => ⟨1, false, false, true, false⟩
  | 10 => ⟨0, true, false, true, false⟩
  | 11 => ⟨1, true, false, true, false⟩
  | 12 => ⟨0, false, true, true, false⟩
  | 13 => ⟨1, false, true, true, false⟩
  | 14 => ⟨0, true, true, true, false⟩
  | 15 => ⟨1, true, true, true, false⟩
  | 16 => ⟨0, false, false, false, true⟩
  | 17 => ⟨1, false, false, false, true⟩
  | 18 => ⟨0, true, false, false, true⟩
  | 19 => ⟨1, true, false, false, true⟩
  | 20 => ⟨0, false, true, false, true⟩
  | 21 => ⟨1, false, true, false, true⟩
  | 22 => ⟨0, true, true, false, true⟩
  | 23 => ⟨1, true, true, false, true⟩
  | 24 => ⟨0, false, false, true, true⟩
  | 25 => ⟨1, false, false, true, true⟩
  | 26 => ⟨0, true, false, true, true⟩
  | 27 => ⟨1, true, false, true, true⟩
  | 28 => ⟨0, false, true, true, true⟩
  | 29 => ⟨1, false, true, true, true⟩
  | 30 => ⟨0, true, true, true, true⟩
  | 31 => ⟨1, true, true, true, true⟩
  | _ => ⟨0, false, false, false, false⟩

/-- `newton_iterate` (newton.hpp 557-671) -/
def newtonIterate (la : LinAlg F) (fn : NFun F n) (x : Vec F n) (o : NewtonOpts F) (st0 : NewtonStatus F)
    (quiet : Bool) : Option (Outcome (Vec F n × NewtonStatus F)) :=
  newtonImpl la (newtonSwitch (newtonBits o quiet)) fn x o st0

/-! ### Broyden -/

/-- local variables of `broyden_iterate` at the loop head (newton.hpp 271-289); there `x0 = x` and `f0 = r` -/
structure BroydenState (F : Type) (n : ℕ) where
  x : Vec F n
  f0 : Vec F n
  Jaci : Mat F n
  res2 : F
  iters : ℕ
  term : Bool

/-- `lambda` (newton.hpp 308) -/
def broydenLambda (res2 : F) : F := lit 1 / ssqrt (lit 1 + res2)

/-- `direction` (newton.hpp 309-316) -/
def broydenDir (o : NewtonOpts F) (s : BroydenState F n) : Vec F n :=
  let lam := broydenLambda s.res2
  limitDir (maxStep2 o) lam (fun i => (- lam) * mulVec s.Jaci s.f0 i)

/-- the update of the inverse Jacobi matrix (newton.hpp 319-329) -/
def broydenUpdate (Jaci : Mat F n) (dx df : Vec F n) : Mat F n :=
  let xtJ := vecMul dx Jaci
  let norm := dot xtJ df
  let left : Vec F n := fun i => dx i - mulVec Jaci df i
  fun i j => Jaci i j + left i * xtJ j / norm

/-- one pass through the loop (newton.hpp 305-345) -/
def broydenBody (fn : Vec F n → Vec F n) (o : NewtonOpts F) (st0 : NewtonStatus F) (s : BroydenState F n) :
    LoopStep (BroydenState F n) (Vec F n × NewtonStatus F) :=
  if s.term = false ∧ (s.iters : ℤ) < o.maxit then
    let d := broydenDir o s
    let incr := normInf d
    let x : Vec F n := fun i => s.x i + d i
    let r := fn x
    let res2 := dot r r
    .next { x := x, f0 := r, Jaci := broydenUpdate s.Jaci (fun i => x i - s.x i) (fun i => r i - s.f0 i),
            res2 := res2, iters := s.iters + 1,
            term := ltb incr o.dxDelta || ltb res2 (o.tol * o.tol) }
  else .done (.ret (s.x, { st0 with conv := 0, res := ssqrt s.res2, iters := s.iters }))

/-- state before the loop (newton.hpp 271-289) -/
def broydenInit (fn : Vec F n → Vec F n) (x : Vec F n) : BroydenState F n :=
  let r := fn x
  { x := x, f0 := r, Jaci := eye n, res2 := dot r r, iters := 1, term := false }

/-- `broyden_iterate` (newton.hpp 266-349).  Enough fuel, see `broyden_returns`. -/
def broydenIterate (fn : Vec F n → Vec F n) (x : Vec F n) (o : NewtonOpts F) (st0 : NewtonStatus F) :
    Option (Outcome (Vec F n × NewtonStatus F)) :=
  runLoop (broydenBody fn o st0) (o.maxit.toNat + 1) (broydenInit fn x)

/-! ### Finite-difference Jacobian -/

/-- one column (newton.hpp 197-214).  State: `new_yp`, `new_ym`, the matrix, and a ghost list of the points at which
the function was evaluated. -/
def approxJacobiStep (fn : Vec F n → Vec F n) (y : Vec F n) (h : F)
    (st : Vec F n × Vec F n × Mat F n × List (Vec F n)) (j : Fin n) :
    Vec F n × Vec F n × Mat F n × List (Vec F n) :=
  let yp := Function.update st.1 j (st.1 j + h)
  let ym := Function.update st.2.1 j (st.2.1 j - h)
  let fp := fn yp
  let fm := fn ym
  let delta : Vec F n := fun i => (fp i - fm i) / (lit 2 * h)
  (Function.update yp j (y j), Function.update ym j (y j),
    (fun i k => if k = j then delta i else st.2.2.1 i k), st.2.2.2 ++ [yp, ym])

/-- the loop over the columns (newton.hpp 190-216) -/
def approxJacobiLoop (fn : Vec F n → Vec F n) (y : Vec F n) (h : F) :
    Vec F n × Vec F n × Mat F n × List (Vec F n) :=
  (List.finRange n).foldl (approxJacobiStep fn y h) (y, y, zeroMat n, [y])

/-- `approx_jacobi_matrix` (newton.hpp 186-218) -/
def approxJacobi (fn : Vec F n → Vec F n) (y : Vec F n) (h : F) : Mat F n :=
  (approxJacobiLoop fn y h).2.2.1

/-- `verify_jacobi_matrix` (newton.hpp 229-252).  Line 240 assigns to `delta2`, not to `max_diff2`. -/
def verifyJacobi (fn : NFun F n) (y : Vec F n) : Bool :=
  let Ja := approxJacobi fn.fn y (lit (1 / 10 ^ 4))
  let Jf := fn.jac y
  let maxDiff2 : F := (List.finRange n).foldl (fun md i =>
    (List.finRange n).foldl (fun md j =>
      let delta := Ja i j - Jf i j
      let delta2 := delta * delta
      let _delta2 := if ltb md delta2 then md else delta2
      md) md) (lit 0)
  let maxDiff := ssqrt maxDiff2
  if ltb (lit (1 / 10 ^ 12)) maxDiff then false else true

end model
end Verif
