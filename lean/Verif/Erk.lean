import Verif.ErkTableau
import Verif.Options

/-!
# Model of erk.hpp: `erk_guts` and `odeint`

Transcribed over an arbitrary scalar type `F`; `n` is the number of equations.
-/

namespace Verif

section model
variable {F : Type} [Add F] [Sub F] [Mul F] [Div F] [Neg F] [Scalar F] {n : ℕ}

/-- `erk::solver_options` as used by `erk_guts` (options.hpp 40-85, erk.hpp 93-111).  Fields that only affect
logging or are unused by the explicit integrator are omitted. -/
structure ErkOpts (F : Type) where
  adaptive : Bool
  relTol : F
  absTol : F
  maxDt : F
  maxSteps : ℤ

/-- `default_solver_options()` (erk.cpp 224-228, options.hpp 49-58, erk.hpp 95-98);
`abs_tol(10*rel_tol)`. -/
def ErkOpts.dflt : ErkOpts F :=
  { adaptive := true, relTol := lit (1/10000), absTol := lit 10 * lit (1/10000), maxDt := lit 0,
    maxSteps := -1 }

/-- `erk::rk_output` with `basic_output` and `counters` (erk.hpp 127-144, output.hpp 30-35).
`elapsed_time` is omitted; `accept_frac` is `none` while uninitialised.  A stage record is the list
of the columns of `Ks` (`vectorise` flattens them in this order).  Two ghost fields are added: `calls`
(arguments of every call of the user's right-hand side, in order) and `file` (lines written to the output
stream, as time and value). -/
structure ErkOutput (F : Type) (n : ℕ) where
  status : ℤ
  tVals : List F
  yVals : List (Vec F n)
  stages : List (List (Vec F n))
  errEst : List (Vec F n)
  err : List F
  acceptFrac : Option F
  attempt : ℕ
  rejectErr : ℕ
  funEvals : ℕ
  calls : List (F × Vec F n)
  file : List (F × Vec F n)

/-- Local variables of `erk_guts` at the loop head (erk.hpp 285-329).  `Ks` is given by columns.
`dts`, `errs` are written but never read and are omitted.  `step` is `long long` in the code. -/
structure ErkState (F : Type) (n : ℕ) where
  t : F
  dt : F
  y : Vec F n
  Ks : ℕ → Vec F n
  step : ℕ
  err : F
  errEst : Vec F n
  sol : ErkOutput F n

/-- The columns of the stage matrix as a list (`arma::vectorise(Ks)`, erk.hpp 441). -/
def ksList (sc : SolverCoeffs F) (Ks : ℕ → Vec F n) : List (Vec F n) := (List.range sc.ns).map Ks

/-- the lambda `eval_fun` (erk.hpp 321-322): count and call -/
def evalFun (f : F → Vec F n → Vec F n) (t : F) (Y : Vec F n) (sol : ErkOutput F n) :
    Vec F n × ErkOutput F n :=
  (f t Y, { sol with funEvals := sol.funEvals + 1, calls := sol.calls ++ [(t, Y)] })

/-- `tmp = y; for j < i: tmp += dt*A(i,j)*Ks.col(j)` (erk.hpp 349-352) -/
def stageArg (sc : SolverCoeffs F) (dt : F) (y : Vec F n) (Ks : ℕ → Vec F n) (i : ℕ) : Vec F n :=
  (List.range i).foldl (fun tmp j => fun k => tmp k + (dt * sc.a i j) * Ks j k) y

/-- the stage loop (erk.hpp 348-354), `start = stage_iter_start` -/
def stageLoop (f : F → Vec F n → Vec F n) (sc : SolverCoeffs F) (t dt : F) (y : Vec F n)
    (start : ℕ) (Ks : ℕ → Vec F n) (sol : ErkOutput F n) : (ℕ → Vec F n) × ErkOutput F n :=
  (List.range' start (sc.ns - start)).foldl (fun st i =>
    let r := evalFun f (t + sc.cn i * dt) (stageArg sc dt y st.1 i) st.2
    (Function.update st.1 i r.1, r.2)) (Ks, sol)

/-- `Ks*w` for a weight vector (erk.hpp 357, 364) -/
def combine (sc : SolverCoeffs F) (Ks : ℕ → Vec F n) (w : ℕ → F) : Vec F n :=
  fun k => sumRange sc.ns (fun j => Ks j k * w j)

/-- `err_tot` (erk.hpp 367-379) -/
def errTot (o : ErkOpts F) (y yn errEst : Vec F n) : F :=
  (List.finRange n).foldl (fun acc i =>
    let sci := o.absTol + o.relTol * cmax (sabs (y i)) (sabs (yn i))
    let add := errEst i / sci
    acc + add * add) (lit 0)

/-- `machine_precision` (enums.hpp 129) -/
def machinePrecision : F := lit (1 / 10 ^ 17)

/-- `err = sqrt(err_tot/n); if (err < machine_precision) err = machine_precision` (erk.hpp 380-385) -/
def errNorm (n : ℕ) (et : F) : F :=
  let err := ssqrt (et / lit n)
  if ltb err machinePrecision then machinePrecision else err

/-- step size controller (erk.hpp 400-415); `mo = min_order` -/
def newDt (o : ErkOpts F) (mo : ℕ) (dt err : F) : F :=
  let expt := lit 1 / (lit 1 + lit mo)
  let errInv := lit 1 / err
  let scale27 := spow errInv expt
  let nd := lit (9/10) * dt * cmin (lit 4) scale27
  if ltb (lit 0) o.maxDt then cmin o.maxDt nd else nd

/-- `fsal_hook_fptr` (erk.hpp 230-243): copies the last stage to the first, or does nothing -/
def fsalHook (sc : SolverCoeffs F) (Ks : ℕ → Vec F n) : ℕ → Vec F n :=
  if sc.fsal then Function.update Ks 0 (Ks (sc.ns - 1)) else Ks

/-- `stage_iter_start` (erk.hpp 316-326) -/
def stageStart (sc : SolverCoeffs F) : ℕ := if sc.fsal then 1 else 0

/-- What one pass through the loop computes up to the accept/reject decision (erk.hpp 332-415). -/
structure Attempt (F : Type) (n : ℕ) where
  dt : F
  Ks : ℕ → Vec F n
  sol : ErkOutput F n
  yn : Vec F n
  errEst : Vec F n
  errTot : F
  err : F
  newDt : F
  reject : Bool

/-- erk.hpp 332-334 -/
def clipDt (t t1 dt : F) : F := if ltb t1 (t + dt) then t1 - t else dt

/-- erk.hpp 344-415: stages, new value, error estimate, new step size. -/
def attempt (f : F → Vec F n → Vec F n) (o : ErkOpts F) (sc : SolverCoeffs F) (mo : ℕ)
    (s : ErkState F n) (dt : F) (sol : ErkOutput F n) : Attempt F n :=
  let st := stageLoop f sc s.t dt s.y (stageStart sc) s.Ks sol
  let Ks := st.1
  let dy := combine sc Ks sc.bw
  let yn : Vec F n := fun k => s.y k + dt * dy k
  if o.adaptive then
    let dalt := combine sc Ks sc.bw2
    let ee : Vec F n := fun k => dt * (dalt k - dy k)
    let et := errTot o s.y yn ee
    let err := errNorm n et
    let rej := leb (lit 1) err
    { dt := dt, Ks := Ks, yn := yn, errEst := ee, errTot := et, err := err,
      newDt := newDt o mo dt err, reject := rej,
      sol := if rej then { st.2 with rejectErr := st.2.rejectErr + 1 } else st.2 }
  else
    { dt := dt, Ks := Ks, yn := yn, errEst := s.errEst, errTot := lit 0, err := s.err,
      newDt := dt, reject := false, sol := st.2 }

/-- erk.hpp 433-449: record an accepted step. -/
def accept (sc : SolverCoeffs F) (s : ErkState F n) (a : Attempt F n) (sol : ErkOutput F n) :
    ErkState F n :=
  { t := s.t + a.dt, dt := a.newDt, y := a.yn, Ks := fsalHook sc a.Ks, step := s.step + 1,
    err := a.err, errEst := a.errEst,
    sol := { sol with
      tVals := sol.tVals ++ [s.t + a.dt]
      yVals := sol.yVals ++ [a.yn]
      stages := sol.stages ++ [ksList sc a.Ks]
      errEst := sol.errEst ++ [a.errEst]
      err := sol.err ++ [a.err] } }

/-- a rejected attempt keeps `t`, `y` and the records and only changes `dt` (erk.hpp 433, 452-457) -/
def rejectStep (s : ErkState F n) (a : Attempt F n) (sol : ErkOutput F n) : ErkState F n :=
  { s with dt := a.newDt, Ks := a.Ks, err := a.err, errEst := a.errEst, sol := sol }

/-- `sol.count.attempt++` (erk.hpp 335) -/
def ErkOutput.bump (sol : ErkOutput F n) : ErkOutput F n := { sol with attempt := sol.attempt + 1 }

/-- writing one line to the output stream (erk.hpp 424-430); called with the time `t` *before* the update
and the new value `y_n` -/
def ErkOutput.line (oo : OutOpts) (t : F) (yn : Vec F n) (sol : ErkOutput F n) : ErkOutput F n :=
  if oo.writeToFile then { sol with file := sol.file ++ [(t, yn)] } else sol

/-- The attempt made from state `s` (erk.hpp 332-415). -/
def attemptAt (f : F → Vec F n → Vec F n) (t1 : F) (o : ErkOpts F) (sc : SolverCoeffs F) (mo : ℕ)
    (s : ErkState F n) : Attempt F n :=
  attempt f o sc mo s (clipDt s.t t1 s.dt) s.sol.bump

/-- One pass through `while (t < t1)` of `erk_guts` (erk.hpp 329-458).  `nd`: compiled with `NDEBUG`.
`Ks*sc.b2` throws if the sizes differ (line 364).  Writing to an unset stream pointer is undefined. -/
def erkBody (nd : Bool) (f : F → Vec F n → Vec F n) (t1 : F) (o : ErkOpts F) (oo : OutOpts)
    (sc : SolverCoeffs F) (mo : ℕ) (s : ErkState F n) :
    LoopStep (ErkState F n) (ErkOutput F n) :=
  if ltb s.t t1 then
    if 0 ≤ o.maxSteps ∧ o.maxSteps < s.step then
      .done (.ret { s.sol.bump with status := 128 })
    else if o.adaptive ∧ sc.b2.length ≠ sc.ns then .done .throws
    else
      let a := attemptAt f t1 o sc mo s
      if o.adaptive && !nd && !(leb (lit 0) a.errTot) then .done .assertFail
      else if oo.writeToFile && !oo.streamSet then .done .ub
      else if !o.adaptive || !a.reject then .next (accept sc s a (a.sol.line oo s.t a.yn))
      else .next (rejectStep s a (a.sol.line oo s.t a.yn))
  else
    .done (.ret { s.sol with
      acceptFrac := some (lit (s.step : ℚ) / lit (s.sol.attempt : ℚ)) })

/-- State at the first loop test (erk.hpp 283-327).  `mat_type Ks(Neq,Ns)` is zero-filled (Armadillo 10.5 and
later). -/
def erkInit (f : F → Vec F n → Vec F n) (t0 : F) (y0 : Vec F n) (dt : F) (sc : SolverCoeffs F) :
    ErkState F n :=
  let Ks : ℕ → Vec F n := fun _ _ => lit 0
  let sol : ErkOutput F n :=
    { status := 0, tVals := [t0], yVals := [y0], stages := [ksList sc Ks],
      errEst := [fun _ => lit 0], err := [lit 0], acceptFrac := none, attempt := 0,
      rejectErr := 0, funEvals := 0, calls := [], file := [] }
  if sc.fsal then
    let r := evalFun f t0 y0 sol
    { t := t0, dt := dt, y := y0, Ks := Function.update Ks 0 r.1, step := 0, err := lit 0,
      errEst := fun _ => lit 0, sol := r.2 }
  else
    { t := t0, dt := dt, y := y0, Ks := Ks, step := 0, err := lit 0, errEst := fun _ => lit 0,
      sol := sol }

/-- `std::size_t min_order = std::min(sc.order, sc.order2)` (erk.hpp 312): reading an uninitialised `int` is
undefined; a negative value wraps. -/
def minOrder (sc : SolverCoeffs F) : Option ℕ :=
  match sc.order, sc.order2 with
  | some a, some b => some ((min a b) % 2 ^ 64).toNat
  | _, _ => none

/-- `erk_guts` (erk.hpp 263-463). -/
def erkGuts (nd : Bool) (f : F → Vec F n → Vec F n) (t0 t1 : F) (y0 : Vec F n) (o : ErkOpts F)
    (dt : F) (sc : SolverCoeffs F) (oo : OutOpts) (fuel : ℕ) : Option (Outcome (ErkOutput F n)) :=
  let dt := clipDt t0 t1 dt
  if !nd && !(ltb (lit 0) dt) then some .assertFail
  else
    match minOrder sc with
    | none => some .ub
    | some mo => runLoop (erkBody nd f t1 o oo sc mo) fuel (erkInit f t0 y0 dt sc)

/-- `erk::odeint` (erk.hpp 480-495). -/
def erkOdeint (nd : Bool) (f : F → Vec F n → Vec F n) (t0 t1 : F) (y0 : Vec F n) (o : ErkOpts F)
    (oo : OutOpts) (method : ℤ) (dt : F) (fuel : ℕ) : Option (Outcome (ErkOutput F n)) :=
  let sc : SolverCoeffs F := erkCoeffs method
  let o := if o.adaptive && sc.b2.length == 0 then { o with adaptive := false } else o
  if !nd && !erkVerify sc then some .assertFail
  else erkGuts nd f t0 t1 y0 o dt sc oo fuel

/-- the four-argument `erk::odeint` (erk.hpp 511-517): default options, `DORMAND_PRINCE_54`, `dt = 1e-6` -/
def erkOdeintDefault (nd : Bool) (f : F → Vec F n → Vec F n) (t0 t1 : F) (y0 : Vec F n)
    (fuel : ℕ) : Option (Outcome (ErkOutput F n)) :=
  erkOdeint nd f t0 t1 y0 ErkOpts.dflt OutOpts.dflt 131 (lit (1 / 10 ^ 6)) fuel

end model
end Verif
