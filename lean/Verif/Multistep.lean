import Verif.Irk
import Verif.CyclicBuffer

/-!
# Model of multistep.hpp
-/

set_option linter.unusedSectionVars false

namespace Verif

section model
variable {F : Type} [Add F] [Sub F] [Mul F] [Div F] [Neg F] [Scalar F] {n : ℕ}

/-- `multistep_output` / `basic_output` (multistep.hpp 56-57, output.hpp 30-35) -/
structure MsOutput (F : Type) (n : ℕ) where
  status : ℤ
  tVals : List F
  yVals : List (Vec F n)

/-- the table `C` of `adams_bashforth_step` (multistep.hpp 71-77), row `order - 1` -/
def abRow : ℤ → List F
  | 1 => [lit 1, lit 0, lit 0, lit 0, lit 0]
  | 2 => [lit (3/2), lit (-1/2), lit 0, lit 0, lit 0]
  | 3 => [q 23 12, nq 16 12, q 5 12, lit 0, lit 0]
  | 4 => [q 55 24, nq 59 24, q 37 24, nq 9 24, lit 0]
  | 5 => [q 1901 720, nq 2774 720, q 2616 720, nq 1274 720, q 251 720]
  | _ => []

/-- entry `C[order-1][j]` (multistep.hpp 71-77) -/
def abC (order : ℤ) (j : ℕ) : F := (abRow order).getD j (lit 0)

/-- `adams_bashforth_step` (multistep.hpp 65-111): the new `Y`.  Every call of the right-hand side is made with the
current time `t`.  In the first case the factor `C[0][0]` does not occur.  An order outside 1..5 fails an assertion, or
leaves `Y` unchanged in a build without assertions.  The order in which the calls are made is unspecified in C++ (pure
functors are assumed). -/
def abStep (nd : Bool) (f : F → Vec F n → Vec F n) (order : ℤ) (Y : Vec F n) (t dt : F) (h : CBuf (Vec F n)) :
    Outcome (Vec F n) :=
  if order = 1 then do
    let h0 ← h.index nd 0
    return fun k => Y k + dt * f t h0 k
  else if order = 2 then do
    let h0 ← h.index nd 0
    let h1 ← h.index nd 1
    return fun k => Y k + dt * (abC 2 0 * f t h0 k + abC 2 1 * f t h1 k)
  else if order = 3 then do
    let h0 ← h.index nd 0
    let h1 ← h.index nd 1
    let h2 ← h.index nd 2
    return fun k => Y k + dt * (abC 3 0 * f t h0 k + abC 3 1 * f t h1 k + abC 3 2 * f t h2 k)
  else if order = 4 then do
    let h0 ← h.index nd 0
    let h1 ← h.index nd 1
    let h2 ← h.index nd 2
    let h3 ← h.index nd 3
    return fun k => Y k + dt * (abC 4 0 * f t h0 k + abC 4 1 * f t h1 k + abC 4 2 * f t h2 k + abC 4 3 * f t h3 k)
  else if order = 5 then do
    let h0 ← h.index nd 0
    let h1 ← h.index nd 1
    let h2 ← h.index nd 2
    let h3 ← h.index nd 3
    let h4 ← h.index nd 4
    return fun k => Y k + dt * (abC 5 0 * f t h0 k + abC 5 1 * f t h1 k + abC 5 2 * f t h2 k + abC 5 3 * f t h3 k +
      abC 5 4 * f t h4 k)
  else if nd then .ret Y
  else .assertFail

/-- the options of the bootstrap integrator (multistep.hpp 128-132) -/
def bootOpts : IrkOpts F :=
  { IrkOpts.dflt with relTol := lit (1 / 10 ^ 10), absTol := lit (1 / 10 ^ 9), newtonOpts := some NewtonOpts.dflt }

/-- the output options of the bootstrap integrator (multistep.hpp 119-120): `NO_OUTPUT = 0` -/
def bootOut : OutOpts := { OutOpts.dflt with mode := 0 }

/-- the call of `irk::odeint` in the bootstrap (multistep.hpp 135-136): `LOBATTO_IIIC_85`, default `dt = 1e-6` -/
def bootRun (nd : Bool) (la : LinAlg F) (fn : OdeFun F n) (fuel : ℕ) (oo : OutOpts) (t dt : F) (y : Vec F n) :
    Option (Outcome (IrkOutput F ((irkCoeffs 232 : SolverCoeffs F).ns * n) n)) :=
  irkOdeint nd la fn t (t + dt) y bootOpts oo 232 (lit (1 / 10 ^ 6)) fuel

/-- `k` passes of the loop of `bootstrap_history` (multistep.hpp 134-141), from time `t` and the last value `y`.
`t_vals.size() = 0` would make the index wrap around. -/
def bootIter (nd : Bool) (la : LinAlg F) (fn : OdeFun F n) (fuel : ℕ) (dt : F) :
    ℕ → F → Vec F n → Option (Outcome (List (F × Vec F n)))
  | 0, _, _ => some (.ret [])
  | k + 1, t, y =>
    match bootRun nd la fn fuel bootOut t dt y with
    | none => none
    | some .assertFail => some .assertFail
    | some .throws => some .throws
    | some .ub => some .ub
    | some (.ret out) =>
      if out.tVals.length = 0 then some .ub
      else
        match out.yVals[out.tVals.length - 1]? with
        | none => some .ub
        | some y' =>
          match bootIter nd la fn fuel dt k (t + dt) y' with
          | none => none
          | some .assertFail => some .assertFail
          | some .throws => some .throws
          | some .ub => some .ub
          | some (.ret l) => some (.ret ((t + dt, y') :: l))

/-- `bootstrap_history` (multistep.hpp 115-144): times and values.  `fuel` bounds each run of the integrator. -/
def bootstrap (nd : Bool) (la : LinAlg F) (fn : OdeFun F n) (fuel : ℕ) (order : ℤ) (y : Vec F n) (t dt : F) :
    Option (Outcome (List (F × Vec F n))) :=
  match bootIter nd la fn fuel dt (order - 1).toNat t y with
  | some (.ret l) => some (.ret ((t, y) :: l))
  | r => r

/-- local variables of `adams_bashforth` and `bdf` at the loop head (multistep.hpp 187, 314); `status` only for `bdf` -/
structure MsState (F : Type) (n : ℕ) where
  t : F
  y : Vec F n
  hist : CBuf (Vec F n)
  sol : MsOutput F n
  newton : NewtonStatus F

/-- appending a sample (multistep.hpp 192-193, 339-340) -/
def MsOutput.push (o : MsOutput F n) (t : F) (y : Vec F n) : MsOutput F n :=
  { o with tVals := o.tVals ++ [t], yVals := o.yVals ++ [y] }

/-- one pass through the loop of `adams_bashforth` (multistep.hpp 187-194) -/
def abBody (nd : Bool) (f : F → Vec F n → Vec F n) (t1 : F) (order : ℤ) (dt : F) (s : MsState F n) :
    LoopStep (MsState F n) (MsOutput F n) :=
  if ltb s.t t1 then
    match abStep nd f order s.y s.t dt s.hist with
    | .assertFail => .done .assertFail
    | .throws => .done .throws
    | .ub => .done .ub
    | .ret y =>
      match s.hist.pushBack y with
      | .assertFail => .done .assertFail
      | .throws => .done .throws
      | .ub => .done .ub
      | .ret h => .next { s with t := s.t + dt, y := y, hist := h, sol := s.sol.push (s.t + dt) y }
  else .done (.ret s.sol)

/-- what happens between the bootstrap and the loop (multistep.hpp 178-185, 263-270): the samples are stored and pushed
to the history; `t`, `y` are the last ones (`hist` is not empty) -/
def msStart (b : CBuf (Vec F n)) (l : List (F × Vec F n)) (st0 : NewtonStatus F) : Outcome (MsState F n) :=
  match b.pushAll (l.map Prod.snd) with
  | .assertFail => .assertFail
  | .throws => .throws
  | .ub => .ub
  | .ret h =>
    match l.getLast? with
    | none => .ub
    | some (t, y) => .ret { t := t, y := y, hist := h, sol := ⟨0, l.map Prod.fst, l.map Prod.snd⟩, newton := st0 }

/-- `adams_bashforth` (multistep.hpp 147-197).  `fuelB` bounds the runs of the bootstrap integrator, `fuel` the loop.
`st0` plays no role.  Default-constructed buffer elements are empty vectors; `fun _ => lit 0` stands for them (they are
never read, see C01). -/
def adamsBashforth (nd : Bool) (la : LinAlg F) (fn : OdeFun F n) (t0 t1 : F) (y0 : Vec F n) (order : ℤ) (dt : F)
    (st0 : NewtonStatus F) (fuelB fuel : ℕ) : Option (Outcome (MsOutput F n)) :=
  let dt := clipDt t0 t1 dt
  if !nd && !(ltb (lit 0) dt) then some .assertFail
  else
    match CBuf.construct (fun _ => lit 0 : Vec F n) order with
    | .assertFail => some .assertFail
    | .throws => some .throws
    | .ub => some .ub
    | .ret b =>
      match bootstrap nd la fn fuelB order y0 t0 dt with
      | none => none
      | some .assertFail => some .assertFail
      | some .throws => some .throws
      | some .ub => some .ub
      | some (.ret l) =>
        match msStart b l st0 with
        | .assertFail => some .assertFail
        | .throws => some .throws
        | .ub => some .ub
        | .ret s => runLoop (abBody nd fn.fn t1 order dt) fuel s

/-- the table `C` of `bdf` (multistep.hpp 235-242), row `order - 1` -/
def bdfRow : ℤ → List F
  | 1 => [- lit 1, lit 0, lit 0, lit 0, lit 0, lit 0]
  | 2 => [nq 4 3, q 1 3, lit 0, lit 0, lit 0, lit 0]
  | 3 => [nq 18 11, q 9 11, nq 2 11, lit 0, lit 0, lit 0]
  | 4 => [nq 48 25, q 36 25, nq 16 25, q 3 25, lit 0, lit 0]
  | 5 => [nq 300 137, q 300 137, nq 200 137, q 75 137, nq 12 137, lit 0]
  | 6 => [nq 360 147, q 450 147, nq 400 147, q 225 147, nq 72 147, q 10 147]
  | _ => []

/-- `bdf_params[i]` (multistep.hpp 246-253) -/
def bdfC (order : ℤ) (i : ℕ) : F := (bdfRow order).getD i (lit 0)

/-- `bdf_rhs_weight[order-1]` (multistep.hpp 243-244) -/
def bdfW : ℤ → F
  | 1 => lit 1
  | 2 => q 2 3
  | 3 => q 6 11
  | 4 => q 12 25
  | 5 => q 60 137
  | 6 => q 60 147
  | _ => lit 0

/-- `interpolation_part` (multistep.hpp 315-319), `k` further terms from index `i` on -/
def bdfInterp (nd : Bool) (order : ℤ) (h : CBuf (Vec F n)) : ℕ → ℕ → Vec F n → Outcome (Vec F n)
  | 0, _, acc => .ret acc
  | k + 1, i, acc =>
    match h.index nd i with
    | .assertFail => .assertFail
    | .throws => .throws
    | .ub => .ub
    | .ret v => bdfInterp nd order h k (i + 1) fun p => acc p + bdfC order i * v p

/-- `newton_multistep_helper` (multistep.hpp 287-310) -/
def bdfFun (fn : OdeFun F n) (w tNext : F) (c : Vec F n) : NFun F n :=
  { fn := fun y k => y k + c k - w * fn.fn tNext y k
    jac := fun y i j => eye n i j - w * fn.jac tNext y i j }

/-- the options of the non-linear solver (multistep.hpp 280-285) -/
def bdfNewton : NewtonOpts F :=
  { NewtonOpts.dflt with tol := lit (1 / 10 ^ 4), dxDelta := lit (1 / 10 ^ 10), maxit := 500, timeInternals := true }

/-- one pass through the loop of `bdf` (multistep.hpp 314-342).  `quiet` has its default `true`. -/
def bdfBody (nd : Bool) (la : LinAlg F) (fn : OdeFun F n) (t1 : F) (order : ℤ) (dt : F) (s : MsState F n) :
    LoopStep (MsState F n) (MsOutput F n) :=
  if ltb s.t t1 then
    match bdfInterp nd order s.hist order.toNat 0 (fun _ => lit 0) with
    | .assertFail => .done .assertFail
    | .throws => .done .throws
    | .ub => .done .ub
    | .ret c =>
      match newtonIterate la (bdfFun fn (dt * bdfW order) (s.t + dt) c) s.y bdfNewton s.newton true with
      | none => .done .ub
      | some .assertFail => .done .assertFail
      | some .throws => .done .throws
      | some .ub => .done .ub
      | some (.ret (y, st)) =>
        if st.conv ≠ 0 then .done (.ret { s.sol with status := 16 })
        else
          match s.hist.pushBack y with
          | .assertFail => .done .assertFail
          | .throws => .done .throws
          | .ub => .done .ub
          | .ret h =>
            .next { s with t := s.t + dt, y := y, hist := h, sol := s.sol.push (s.t + dt) y, newton := st }
  else .done (.ret s.sol)

/-- `bdf` (multistep.hpp 201-347); `st0` is the uninitialised `newton_status`.  The `none` of `newtonIterate` never
occurs (`C27_returns`). -/
def bdf (nd : Bool) (la : LinAlg F) (fn : OdeFun F n) (t0 t1 : F) (y0 : Vec F n) (order : ℤ) (dt : F)
    (st0 : NewtonStatus F) (fuelB fuel : ℕ) : Option (Outcome (MsOutput F n)) :=
  if 6 < order then some (.ret ⟨4, [], []⟩)
  else if order ≤ 0 then some (.ret ⟨4, [], []⟩)
  else
    let dt := clipDt t0 t1 dt
    if !nd && !(ltb (lit 0) dt) then some .assertFail
    else
      match CBuf.construct (fun _ => lit 0 : Vec F n) (order + 1) with
      | .assertFail => some .assertFail
      | .throws => some .throws
      | .ub => some .ub
      | .ret b =>
        match bootstrap nd la fn fuelB (order + 1) y0 t0 dt with
        | none => none
        | some .assertFail => some .assertFail
        | some .throws => some .throws
        | some .ub => some .ub
        | some (.ret l) =>
          match msStart b l st0 with
          | .assertFail => some .assertFail
          | .throws => some .throws
          | .ub => some .ub
          | .ret s => runLoop (bdfBody nd la fn t1 order dt) fuel s

end model
end Verif
