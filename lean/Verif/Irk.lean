import Verif.Erk
import Verif.IrkTableau
import Verif.Newton
import Mathlib.Data.Int.Bitwise

/-!
# Model of irk.hpp: stage solver, `irk_guts` and `odeint`

Transcribed over an arbitrary scalar type `F`; `n` is the number of equations.  A stage vector has `Ns*Neq` entries,
entry `k` of stage `i` at position `k + Neq*i` (`finProdFinEquiv (i,k)`).
-/

namespace Verif

section model
variable {F : Type} [Add F] [Sub F] [Mul F] [Div F] [Neg F] [Scalar F] {n : ℕ}

/-- the user's functor: right-hand side and Jacobi matrix (functor.hpp) -/
structure OdeFun (F : Type) (n : ℕ) where
  fn : F → Vec F n → Vec F n
  jac : F → Vec F n → Mat F n

/-- `irk::solver_options` as used by `irk_guts` (irk.hpp 95-124, options.hpp 40-85).  `newtonOpts` is the pointer
`newton_opts`, `none` for the null pointer. -/
structure IrkOpts (F : Type) where
  adaptive : Bool
  relTol : F
  absTol : F
  maxDt : F
  maxSteps : ℤ
  newtonOpts : Option (NewtonOpts F)

/-- `default_solver_options()` (irk.cpp 692-696, irk.hpp 102-107, options.hpp 49-58) -/
def IrkOpts.dflt : IrkOpts F :=
  { adaptive := true, relTol := lit (1/10000), absTol := lit 10 * lit (1/10000), maxDt := lit 0, maxSteps := -1,
    newtonOpts := none }

/-- the tolerances, as `ErkOpts`, for the parts of the error estimate shared with the explicit integrator (irk.hpp 733-756) -/
def IrkOpts.toErk (o : IrkOpts F) : ErkOpts F :=
  { adaptive := o.adaptive, relTol := o.relTol, absTol := o.absTol, maxDt := o.maxDt, maxSteps := o.maxSteps }

/-- `rk_output::counters` (irk.hpp 142-154) with ghost call logs -/
structure IrkCounters where
  attempt : ℕ := 0
  rejectNewton : ℕ := 0
  rejectErr : ℕ := 0
  newtonSuccess : ℕ := 0
  newtonIncrDiverge : ℕ := 0
  newtonIterErrorTooLarge : ℕ := 0
  newtonMaxitExceed : ℕ := 0
  funEvals : ℕ := 0
  jacEvals : ℕ := 0
  deriving DecidableEq, Repr

/-- the user calls made so far (ghost) -/
structure CallLog (F : Type) (n : ℕ) where
  funs : List (F × Vec F n) := []
  jacs : List (F × Vec F n) := []

/-- `irk::rk_output` (irk.hpp 140-163, output.hpp 30-35); `m = Ns*Neq`.  `elapsed`, `acceptFrac`: `none` while
uninitialised; the clock reading assigned to `elapsed_time` on success is not modelled.  Ghost fields: `log` (user
calls), `file` (lines written to the output stream). -/
structure IrkOutput (F : Type) (m n : ℕ) where
  status : ℤ
  tVals : List F
  yVals : List (Vec F n)
  stages : List (Vec F m)
  errEst : List (Vec F n)
  err : List F
  elapsed : Option F
  acceptFrac : Option F
  count : IrkCounters
  log : CallLog F n
  file : List (F × Vec F n)

/-- `arma::kron(A, B)` (irk.hpp 384, 427) -/
def kron {m n : ℕ} (A : Mat F m) (B : Mat F n) : Mat F (m * n) :=
  fun p q => A p.divNat q.divNat * B p.modNat q.modNat

/-- `sc.A` as a square matrix (irk.hpp 599) -/
def SolverCoeffs.mat (sc : SolverCoeffs F) : Mat F sc.ns := fun i j => sc.a i j

/-- component `k` of stage `i`: `Y.subvec(Neq*i, Neq*i+Neq-1)` (irk.hpp 377-380) -/
def stageOf {m : ℕ} (Y : Vec F (m * n)) (i : Fin m) : Vec F n := fun k => Y (finProdFinEquiv (i, k))

/-- time and argument of the right-hand side at stage `i` (irk.hpp 381) -/
def stageArgI (sc : SolverCoeffs F) (t dt : F) (y : Vec F n) (Y : Vec F (sc.ns * n)) (i : Fin sc.ns) :
    F × Vec F n :=
  (t + sc.cn i * dt, fun k => y k + stageOf Y i k)

/-- the vector `F` of `construct_R` (irk.hpp 372-383) -/
def stageFuns (f : F → Vec F n → Vec F n) (sc : SolverCoeffs F) (t dt : F) (y : Vec F n) (Y : Vec F (sc.ns * n)) :
    Vec F (sc.ns * n) :=
  fun p => f (stageArgI sc t dt y Y p.divNat).1 (stageArgI sc t dt y Y p.divNat).2 p.modNat

/-- `construct_R` (irk.hpp 366-386): `R = Y - dt*kron(A,I)*F` -/
def constructR (f : F → Vec F n → Vec F n) (sc : SolverCoeffs F) (t dt : F) (y : Vec F n) (Y : Vec F (sc.ns * n)) :
    Vec F (sc.ns * n) :=
  fun p => Y p - mulVec (fun p q => dt * kron sc.mat (eye n) p q) (stageFuns f sc t dt y Y) p

/-- the calls made by `construct_R` (irk.hpp 366-386), ghost -/
def constructCalls (sc : SolverCoeffs F) (t dt : F) (y : Vec F n) (Y : Vec F (sc.ns * n)) : List (F × Vec F n) :=
  (List.finRange sc.ns).map (stageArgI sc t dt y Y)

/-- `J_Y = eye - dt*kron(A,J)` (irk.hpp 426-427) -/
def stageJac (sc : SolverCoeffs F) (dt : F) (J : Mat F n) : Mat F (sc.ns * n) :=
  fun p q => eye (sc.ns * n) p q - dt * kron sc.mat J p q

/-- local variables of `newton_solve_stages` at the loop head (irk.hpp 407-458) -/
structure StageState (F : Type) (m n : ℕ) where
  iters : ℕ
  Y : Vec F m
  R : Vec F m
  /-- `L`, `U`, `P`; `none`: empty, because `arma::lu` sits inside an `assert` that `NDEBUG` removes -/
  lup : Option (Mat F m × Mat F m × Mat F m)
  J : Mat F n
  count : IrkCounters
  log : CallLog F n

/-- what `newton_solve_stages` (irk.hpp 398-493) gives back: status, `Y`, `J`, `stats.iters`, counters; `Rnorm2` is its last value
(stored in `stats.res`), `xnorm2` (ghost) the last value in case of success -/
structure StageResult (F : Type) (m n : ℕ) where
  status : ℤ
  Y : Vec F m
  J : Mat F n
  iters : ℕ
  Rnorm2 : F
  xnorm2 : F
  count : IrkCounters
  log : CallLog F n

/-- the lambda `refresh_jacobi_matrix` (irk.hpp 422-436) -/
def refreshJac (nd : Bool) (la : LinAlg F) (fn : OdeFun F n) (sc : SolverCoeffs F) (t dt : F) (y : Vec F n)
    (s : StageState F (sc.ns * n) n) : Outcome (StageState F (sc.ns * n) n) :=
  let J := fn.jac t y
  let s' := { s with
    J := J, count := { s.count with jacEvals := s.count.jacEvals + 1 },
    log := { s.log with jacs := s.log.jacs ++ [(t, y)] } }
  if nd then .ret s'
  else match la.lu (stageJac sc dt J) with
    | none => .assertFail
    | some lup => .ret { s' with lup := some lup }

/-- `dY = solve(trimatu(U), solve(trimatl(-L), P*R))` (irk.hpp 460-462) -/
def stageDir (la : LinAlg F) {m : ℕ} (lup : Option (Mat F m × Mat F m × Mat F m)) (R : Vec F m) : Outcome (Vec F m) :=
  match lup with
  | none => .throws      -- the product of the empty `P` with `R`
  | some (L, U, P) =>
    match la.solveL (fun i j => - L i j) (mulVec P R) with
    | none => .throws
    | some tmp =>
      match la.solveU U tmp with
      | none => .throws
      | some dY => .ret dY

/-- One pass of the loop of `newton_solve_stages` (irk.hpp 458-488) with `adaptive_step = false`,
`PLU_decomposition = true`; `step` is 1. -/
def stageStep (nd : Bool) (la : LinAlg F) (fn : OdeFun F n) (sc : SolverCoeffs F) (t dt : F) (y : Vec F n)
    (refresh : ℤ) (xtol Rtol : F) (s : StageState F (sc.ns * n) n) :
    Outcome (StageState F (sc.ns * n) n ⊕ StageResult F (sc.ns * n) n) :=
  (stageDir la s.lup s.R).bind fun dY =>
    let xnorm2 := dot dY dY
    let Y : Vec F (sc.ns * n) := fun p => s.Y p + lit 1 * dY p
    let R := constructR fn.fn sc t dt y Y
    let Rnorm2 := dot R R
    let count := { s.count with funEvals := s.count.funEvals + sc.ns }
    let log := { s.log with funs := s.log.funs ++ constructCalls sc t dt y Y }
    if ltb Rnorm2 (Rtol * Rtol) || ltb xnorm2 (xtol * xtol) then
      .ret (.inr { status := 0, Y := Y, J := s.J, iters := s.iters, Rnorm2 := Rnorm2, xnorm2 := xnorm2,
                   count := count, log := log })
    else if refresh = 0 then .ub       -- `iters % 0`
    else
      let s' := { s with Y := Y, R := R, count := count, log := log }
      (if (s.iters : ℤ) % refresh = 0 then refreshJac nd la fn sc t dt y s' else .ret s').bind fun s'' =>
        .ret (.inl { s'' with iters := s.iters + 1 })

/-- the loop (irk.hpp 458-488), at most `k` further passes (`k = maxit - iters`) -/
def stageIter (nd : Bool) (la : LinAlg F) (fn : OdeFun F n) (sc : SolverCoeffs F) (t dt : F) (y : Vec F n)
    (refresh : ℤ) (xtol Rtol : F) : ℕ → StageState F (sc.ns * n) n → Outcome (StageResult F (sc.ns * n) n)
  | 0, s => .ret { status := 3, Y := s.Y, J := s.J, iters := s.iters, Rnorm2 := dot s.R s.R, xnorm2 := lit 0,
                   count := s.count, log := s.log }
  | k + 1, s =>
    (stageStep nd la fn sc t dt y refresh xtol Rtol s).bind fun r =>
      match r with
      | .inr res => .ret res
      | .inl s' => stageIter nd la fn sc t dt y refresh xtol Rtol k s'

/-- `newton_solve_stages` (irk.hpp 398-493), for `0 < Neq` and a tableau with as many nodes as weights; otherwise
`subvec` or `sc.c(i)` throws when there is a stage.  `int` overflow of counters is not modelled. -/
def newtonSolveStages (nd : Bool) (la : LinAlg F) (fn : OdeFun F n) (sc : SolverCoeffs F) (t dt : F) (y : Vec F n)
    (maxit refresh : ℤ) (xtol Rtol : F) (count : IrkCounters) (log : CallLog F n) :
    Outcome (StageResult F (sc.ns * n) n) :=
  let Y : Vec F (sc.ns * n) := fun _ => lit 0
  let s0 : StageState F (sc.ns * n) n :=
    { iters := 1, Y := Y, R := Y, lup := none, J := fn.jac t y, count := count, log := log }
  (refreshJac nd la fn sc t dt y s0).bind fun s1 =>
    if sc.ns ≠ 0 ∧ (n = 0 ∨ sc.c.length < sc.ns) then .throws
    else
      let s2 := { s1 with
        R := constructR fn.fn sc t dt y Y
        count := { s1.count with funEvals := s1.count.funEvals + sc.ns }
        log := { s1.log with funs := s1.log.funs ++ constructCalls sc t dt y Y } }
      stageIter nd la fn sc t dt y refresh xtol Rtol (maxit - 1).toNat s2

/-- Local variables of `irk_guts` at the loop head (irk.hpp 544-604).  `dts[2]`, `errs[2]`, `yo`, `new_dt` are never
read there and omitted; `K_np` stays zero. -/
structure IrkState (F : Type) (m n : ℕ) where
  t : F
  dt : F
  y : Vec F n
  step : ℕ
  dts0 : F
  dts1 : F
  errs0 : F
  errs1 : F
  err : F
  errEst : Vec F n
  alt : Bool
  newtonMaxit : ℤ
  lastRelax : ℕ
  sol : IrkOutput F m n

/-- `YYs*w`, `YYs = reshape(Y, Neq, Ns)` (irk.hpp 695-696) -/
def combineI (sc : SolverCoeffs F) (Y : Vec F (sc.ns * n)) (w : Vec F sc.ns) : Vec F n :=
  fun k => sumFin sc.ns (fun i => stageOf Y i k * w i)

/-- the step size controller (irk.hpp 771-801); `mo = min_order` -/
def newDtI (o : IrkOpts F) (mo : ℕ) (dt err errs0 errs1 dts0 dts1 : F) (maxit : ℤ) (iters : ℕ) : F :=
  let fac := lit (9/10) * (lit (maxit : ℚ) + lit 1) / lit ((maxit + iters : ℤ) : ℚ)
  let expt := lit 1 / (lit 1 + lit (mo : ℚ))
  let errInv := lit 1 / err
  let scale27 := spow errInv expt
  let dtRat := dts0 / dts1
  let errFrac := if eqb errs1 (lit 0) || eqb errs0 (lit 0) then lit 1 else errs1 / errs0
  let errRat := spow errFrac expt
  let scale28 := scale27 * dtRat * errRat
  let nd := fac * dt * cmin (lit 8) (cmin scale27 scale28)
  if ltb (lit 0) o.maxDt then cmin o.maxDt nd else nd

/-- Result of the part of a pass after a successful stage solve, up to the accept/reject decision
(irk.hpp 688-801). -/
structure AttemptI (F : Type) (n : ℕ) where
  dt : F
  yn : Vec F n
  errEst : Vec F n
  errTot : F
  err : F
  newDt : F
  reject : Bool
  count : IrkCounters
  log : CallLog F n

/-- irk.hpp 688-801 with adaptive stepping: new value, error estimate (formula 8.19, and 8.20 when `alt`), new step
size.  `d`, `d2` are `inv(A).t()*b`, `inv(A).t()*b2`.  `none`: `arma::solve` throws. -/
def attemptI (la : LinAlg F) (fn : OdeFun F n) (o : IrkOpts F) (sc : SolverCoeffs F) (mo : ℕ) (d d2 : Vec F sc.ns)
    {m : ℕ} (s : IrkState F m n) (dt : F) (r : StageResult F (sc.ns * n) n) : Option (AttemptI F n) :=
  let gam := sc.gamma * dt
  let deltaY := combineI sc r.Y d
  let deltaAlt := combineI sc r.Y d2
  let f0 := fn.fn s.t s.y
  let dyAlt : Vec F n := fun k => gam * f0 k + deltaAlt k
  let yn : Vec F n := fun k => s.y k + deltaY k
  let count := { r.count with funEvals := r.count.funEvals + 1 }
  let log := { r.log with funs := r.log.funs ++ [(s.t, s.y)] }
  let solveTmp : Mat F n := fun i j => eye n i j - gam * r.J i j
  let finish (errEst : Vec F n) (count : IrkCounters) (log : CallLog F n) : AttemptI F n :=
    let et := errTot o.toErk s.y yn errEst
    let err := errNorm n et
    let rej := ltb (lit 1) err
    { dt := dt, yn := yn, errEst := errEst, errTot := et, err := err,
      newDt := newDtI o mo dt err err s.errs0 s.dts0 s.dts1 s.newtonMaxit r.iters,
      reject := rej,
      count := if rej then { count with rejectErr := count.rejectErr + 1 } else count, log := log }
  match la.solve solveTmp (fun k => dyAlt k - deltaY k) with
  | none => none
  | some e1 =>
    let err819 : Vec F n := fun k => dt * e1 k
    if s.alt then
      let f1 := fn.fn s.t (fun k => s.y k + err819 k)
      let dyAltAlt : Vec F n := fun k => gam * f1 k + deltaAlt k
      match la.solve solveTmp (fun k => dyAltAlt k - deltaY k) with
      | none => none
      | some e2 =>
        some (finish (fun k => dt * e2 k) { count with funEvals := count.funEvals + 1 }
          { log with funs := log.funs ++ [(s.t, fun k => s.y k + err819 k)] })
    else some (finish err819 count log)

/-- `sol.count.attempt++` (irk.hpp 610) -/
def IrkOutput.bump {m : ℕ} (sol : IrkOutput F m n) : IrkOutput F m n :=
  { sol with count := { sol.count with attempt := sol.count.attempt + 1 } }

/-- irk.hpp 644-664: a failed stage solve with adaptive stepping (status `MAXIT_EXCEEDED`; the other two counters are
incremented for statuses that `newton_solve_stages` never returns) -/
def newtonReject {m : ℕ} (s : IrkState F m n) (dt : F) (maxit0 status : ℤ) (count : IrkCounters) (log : CallLog F n) :
    IrkState F m n :=
  let count := { count with
    rejectNewton := count.rejectNewton + 1
    newtonIncrDiverge := count.newtonIncrDiverge + (if status = 1 then 1 else 0)
    newtonIterErrorTooLarge := count.newtonIterErrorTooLarge + (if status = 2 then 1 else 0)
    newtonMaxitExceed := count.newtonMaxitExceed + (if status = 3 then 1 else 0) }
  let relax : Bool := 15 < (s.step : ℤ) - s.lastRelax
  { s with
    dt := dt * lit (7/10)
    newtonMaxit := if relax then s.newtonMaxit + maxit0 else s.newtonMaxit
    lastRelax := if relax then s.step else s.lastRelax
    sol := { s.sol.bump with count := count, log := log } }

/-- irk.hpp 813-847: an accepted step; the sample is recorded when the step index is a multiple of
`output_interval` -/
def acceptI {m : ℕ} (oo : OutOpts) (s : IrkState F m n) (a : AttemptI F n) : IrkState F m n :=
  let sol := { s.sol.bump with count := a.count, log := a.log }
  let t := s.t + a.dt
  let hit : Bool := (s.step + 1) % oo.interval.toNat = 0
  let sol := if hit && oo.storeInVectors then
    { sol with tVals := sol.tVals ++ [t], yVals := sol.yVals ++ [a.yn], stages := sol.stages ++ [fun _ => lit 0],
               errEst := sol.errEst ++ [a.errEst], err := sol.err ++ [a.err] } else sol
  let sol := if hit && oo.writeToFile then { sol with file := sol.file ++ [(t, a.yn)] } else sol
  { s with t := t, dt := a.newDt, y := a.yn, step := s.step + 1, dts0 := a.newDt, dts1 := s.dts0, errs0 := a.err,
           errs1 := s.errs0, err := a.err, errEst := a.errEst, alt := false, sol := sol }

/-- a step rejected by the error test (irk.hpp 761-766, 850-855) -/
def rejectI {m : ℕ} (s : IrkState F m n) (a : AttemptI F n) : IrkState F m n :=
  { s with dt := a.newDt, dts0 := a.newDt, dts1 := s.dts0, errs0 := a.err, errs1 := s.errs0, err := a.err,
           errEst := a.errEst, alt := true, sol := { s.sol.bump with count := a.count, log := a.log } }

/-- `sol.count.newton_success++` (irk.hpp 667) -/
def StageResult.success {m : ℕ} (r : StageResult F m n) : StageResult F m n :=
  { r with count := { r.count with newtonSuccess := r.count.newtonSuccess + 1 } }

/-- One pass through `while (t < t1)` of `irk_guts` (irk.hpp 604-860).  `nd`: compiled with `NDEBUG`.  With adaptive
stepping off `delta_alt` is empty and the sum of line 702 throws (sizes differ, `Neq > 0`). -/
def irkBody (nd : Bool) (la : LinAlg F) (fn : OdeFun F n) (t1 : F) (o : IrkOpts F) (no : NewtonOpts F) (oo : OutOpts)
    (sc : SolverCoeffs F) (mo : ℕ) (d d2 : Vec F sc.ns) (s : IrkState F (sc.ns * n) n) :
    LoopStep (IrkState F (sc.ns * n) n) (IrkOutput F (sc.ns * n) n) :=
  if ltb s.t t1 then
    let dt := clipDt s.t t1 s.dt
    if 0 ≤ o.maxSteps ∧ o.maxSteps < s.step then
      .done (.ret { s.sol.bump with status := 128 })
    else
      match newtonSolveStages nd la fn sc s.t dt s.y s.newtonMaxit no.refreshJac no.dxDelta no.tol
          s.sol.bump.count s.sol.log with
      | .assertFail => .done .assertFail
      | .throws => .done .throws
      | .ub => .done .ub
      | .ret r =>
        if r.status ≠ 0 then
          if !o.adaptive then .done (.ret { s.sol.bump with status := 4, count := r.count, log := r.log })
          else .next (newtonReject s dt no.maxit r.status r.count r.log)
        else if !o.adaptive then .done .throws
        else
          match attemptI la fn o sc mo d d2 s dt r.success with
          | none => .done .throws
          | some a =>
            if !nd && !(leb (lit 0) a.errTot) then .done .assertFail
            else if a.reject then .next (rejectI s a)
            else if oo.interval.toNat = 0 then .done .ub
            else if (s.step + 1) % oo.interval.toNat = 0 && oo.writeToFile && !oo.streamSet then .done .ub
            else .next (acceptI oo s a)
  else
    .done (.ret { s.sol with
      acceptFrac := some (lit (s.step : ℚ) / lit (s.sol.count.attempt : ℚ)) })

/-- State at the first loop test (irk.hpp 544-601) -/
def irkInit (m : ℕ) (t0 : F) (y0 : Vec F n) (dt : F) (maxit0 : ℤ) : IrkState F m n :=
  { t := t0, dt := dt, y := y0, step := 0, dts0 := dt, dts1 := dt, errs0 := lit (9/10), errs1 := lit (9/10),
    err := lit 0, errEst := fun _ => lit 0, alt := true, newtonMaxit := maxit0, lastRelax := 0,
    sol := { status := 0, tVals := [t0], yVals := [y0], stages := [fun _ => lit 0], errEst := [fun _ => lit 0],
             err := [lit 0], elapsed := none, acceptFrac := none, count := {}, log := {}, file := [] } }

/-- `d_weights = inv(A).t()*b` (irk.hpp 599-601) -/
def dWeights {m : ℕ} (Ai : Mat F m) (w : Vec F m) : Vec F m := mulVec (fun i j => Ai j i) w

/-- `irk_guts` (irk.hpp 509-869).  A tableau whose `A` is not `Ns` by `Ns` or whose `b2` has not `Ns` entries makes
lines 599-601 throw. -/
def irkGuts (nd : Bool) (la : LinAlg F) (fn : OdeFun F n) (t0 t1 : F) (y0 : Vec F n) (o : IrkOpts F) (dt : F)
    (sc : SolverCoeffs F) (oo : OutOpts) (fuel : ℕ) : Option (Outcome (IrkOutput F (sc.ns * n) n)) :=
  let dt := clipDt t0 t1 dt
  match o.newtonOpts with
  | none => some (if nd then .ub else .assertFail)
  | some no =>
    if !nd && !(ltb (lit 0) dt) then some .assertFail
    else
      match minOrder sc with
      | none => some .ub
      | some mo =>
        if sc.nRows ≠ sc.ns ∨ sc.nCols ≠ sc.ns then some .throws
        else
          match la.inv sc.mat with
          | none => some .throws
          | some Ai =>
            if sc.b2.length ≠ sc.ns then some .throws
            else
              runLoop (irkBody nd la fn t1 o no oo sc mo (dWeights Ai fun i => sc.bw i) (dWeights Ai fun i => sc.bw2 i))
                fuel (irkInit (sc.ns * n) t0 y0 dt no.maxit)

/-- `irk::odeint` (irk.hpp 884-898) -/
def irkOdeint (nd : Bool) (la : LinAlg F) (fn : OdeFun F n) (t0 t1 : F) (y0 : Vec F n) (o : IrkOpts F) (oo : OutOpts)
    (method : ℤ) (dt : F) (fuel : ℕ) :
    Option (Outcome (IrkOutput F ((irkCoeffs method : SolverCoeffs F).ns * n) n)) :=
  let sc : SolverCoeffs F := irkCoeffs method
  let o := if o.adaptive && sc.b2.length == 0 then { o with adaptive := false } else o
  if !nd && !irkVerify sc then some .assertFail
  else irkGuts nd la fn t0 t1 y0 o dt sc oo fuel

/-- the four-argument `irk::odeint` (irk.hpp 915-926): default options, `refresh_jac = 25`,
`tol = 0.1*min(abs_tol, rel_tol)`, `RADAU_IIA_53`, `dt = 1e-6` -/
def irkOdeintDefault (nd : Bool) (la : LinAlg F) (fn : OdeFun F n) (t0 t1 : F) (y0 : Vec F n) (fuel : ℕ) :
    Option (Outcome (IrkOutput F ((irkCoeffs 211 : SolverCoeffs F).ns * n) n)) :=
  let o : IrkOpts F := IrkOpts.dflt
  let no : NewtonOpts F :=
    { NewtonOpts.dflt with refreshJac := 25, tol := lit (1/10) * cmin o.absTol o.relTol }
  irkOdeint nd la fn t0 t1 y0 { o with newtonOpts := some no } OutOpts.dflt 211 (lit (1 / 10 ^ 6)) fuel

/-- `merge_rk_output` (irk.cpp 750-783).  `fun_evals` and `jac_evals` keep the values of the first output.  The ghost
logs are appended. -/
def mergeIrk {m : ℕ} (a b : IrkOutput F m n) : IrkOutput F m n :=
  { status := Int.lor a.status b.status
    tVals := a.tVals ++ b.tVals
    yVals := a.yVals ++ b.yVals
    stages := a.stages ++ b.stages
    errEst := a.errEst ++ b.errEst
    err := a.err ++ b.err
    elapsed := do
      let x ← a.elapsed
      let y ← b.elapsed
      return x + y
    acceptFrac := do
      let x ← a.acceptFrac
      let y ← b.acceptFrac
      let s1 := lit (a.tVals.length : ℚ)
      let s2 := lit (b.tVals.length : ℚ)
      return (s1 * x + s2 * y) / (s1 + s2)
    count := { a.count with
      attempt := a.count.attempt + b.count.attempt
      rejectNewton := a.count.rejectNewton + b.count.rejectNewton
      rejectErr := a.count.rejectErr + b.count.rejectErr
      newtonSuccess := a.count.newtonSuccess + b.count.newtonSuccess
      newtonIncrDiverge := a.count.newtonIncrDiverge + b.count.newtonIncrDiverge
      newtonIterErrorTooLarge := a.count.newtonIterErrorTooLarge + b.count.newtonIterErrorTooLarge
      newtonMaxitExceed := a.count.newtonMaxitExceed + b.count.newtonMaxitExceed }
    log := { funs := a.log.funs ++ b.log.funs, jacs := a.log.jacs ++ b.log.jacs }
    file := a.file ++ b.file }

end model
end Verif
