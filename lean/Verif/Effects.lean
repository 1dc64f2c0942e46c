import Verif.Erk
import Verif.Irk

/-!
# The integrators for functors with state, exceptions and other effects

`Verif.Erk` and `Verif.Irk` take the user's functor as a pure function.  Here the same code is transcribed for functors whose calls read and change a state
and may end in any way (exception, failed assertion, undefined behaviour).  The functor is passed by reference everywhere (erk.hpp 264, irk.hpp 367, 401,
510), so there is one state for the whole run.
-/

namespace Verif

/-- a computation that may change a state of type `S` -/
def Eff (S A : Type) : Type := S → Outcome (A × S)

namespace Eff
variable {S A B : Type}

/-- no effect -/
def pure (a : A) : Eff S A := fun s => .ret (a, s)

/-- sequencing: anything but a normal return ends the computation -/
def bind (m : Eff S A) (k : A → Eff S B) : Eff S B := fun s => (m s).bind fun p => k p.1 p.2

/-- code that does not touch the state -/
def lift (o : Outcome A) : Eff S A := fun s => o.bind fun a => .ret (a, s)

end Eff

/-- A functor with effects (functor.hpp 35-71: the members `fun` and `jac` are not const). -/
structure EffFun (S F : Type) (n : ℕ) where
  fn : F → Vec F n → Eff S (Vec F n)
  jac : F → Vec F n → Eff S (Mat F n)

/-- a loop whose body has effects; the body goes on (`inl`) or returns (`inr`) -/
def runLoopE {S T R : Type} (body : T → Eff S (T ⊕ R)) : ℕ → T → S → Option (Outcome (R × S))
  | 0, _, _ => none
  | k + 1, t, s =>
    match body t s with
    | .ret (.inl t', s') => runLoopE body k t' s'
    | .ret (.inr r, s') => some (.ret (r, s'))
    | .assertFail => some .assertFail
    | .throws => some .throws
    | .ub => some .ub

section model
variable {S : Type} {F : Type} [Add F] [Sub F] [Mul F] [Div F] [Neg F] [Scalar F] {n : ℕ}

/-! ### erk.hpp -/

/-- the lambda `eval_fun` (erk.hpp 321-322) -/
def evalFunE (g : F → Vec F n → Eff S (Vec F n)) (t : F) (Y : Vec F n) (sol : ErkOutput F n) : Eff S (Vec F n × ErkOutput F n) :=
  (g t Y).bind fun v => .pure (v, { sol with funEvals := sol.funEvals + 1, calls := sol.calls ++ [(t, Y)] })

/-- the stage loop (erk.hpp 348-354) over the stages `is` -/
def stageLoopE (g : F → Vec F n → Eff S (Vec F n)) (sc : SolverCoeffs F) (t dt : F) (y : Vec F n) :
    List ℕ → (ℕ → Vec F n) → ErkOutput F n → Eff S ((ℕ → Vec F n) × ErkOutput F n)
  | [], Ks, sol => .pure (Ks, sol)
  | i :: is, Ks, sol =>
    (evalFunE g (t + sc.cn i * dt) (stageArg sc dt y Ks i) sol).bind fun r =>
      stageLoopE g sc t dt y is (Function.update Ks i r.1) r.2

/-- erk.hpp 356-415: everything between the stage loop and the decision -/
def attemptFrom (o : ErkOpts F) (sc : SolverCoeffs F) (mo : ℕ) (s : ErkState F n) (dt : F) (st : (ℕ → Vec F n) × ErkOutput F n) : Attempt F n :=
  let Ks := st.1
  let dy := combine sc Ks sc.bw
  let yn : Vec F n := fun k => s.y k + dt * dy k
  if o.adaptive then
    let dalt := combine sc Ks sc.bw2
    let ee : Vec F n := fun k => dt * (dalt k - dy k)
    let et := errTot o s.y yn ee
    let err := errNorm n et
    let rej := leb (lit 1) err
    { dt := dt, Ks := Ks, yn := yn, errEst := ee, errTot := et, err := err, newDt := newDt o mo dt err, reject := rej,
      sol := if rej then { st.2 with rejectErr := st.2.rejectErr + 1 } else st.2 }
  else
    { dt := dt, Ks := Ks, yn := yn, errEst := s.errEst, errTot := lit 0, err := s.err, newDt := dt, reject := false, sol := st.2 }

/-- One pass through `while (t < t1)` (erk.hpp 329-458).  The stages are computed before `Ks*sc.b2` can throw (line 364). -/
def erkBodyE (nd : Bool) (g : F → Vec F n → Eff S (Vec F n)) (t1 : F) (o : ErkOpts F) (oo : OutOpts) (sc : SolverCoeffs F) (mo : ℕ)
    (s : ErkState F n) : Eff S (ErkState F n ⊕ ErkOutput F n) :=
  if ltb s.t t1 then
    if 0 ≤ o.maxSteps ∧ o.maxSteps < s.step then .pure (.inr { s.sol.bump with status := 128 })
    else
      let dt := clipDt s.t t1 s.dt
      (stageLoopE g sc s.t dt s.y (List.range' (stageStart sc) (sc.ns - stageStart sc)) s.Ks s.sol.bump).bind fun st =>
        if o.adaptive ∧ sc.b2.length ≠ sc.ns then .lift .throws
        else
          let a := attemptFrom o sc mo s dt st
          if o.adaptive && !nd && !(leb (lit 0) a.errTot) then .lift .assertFail
          else if oo.writeToFile && !oo.streamSet then .lift .ub
          else if !o.adaptive || !a.reject then .pure (.inl (accept sc s a (a.sol.line oo s.t a.yn)))
          else .pure (.inl (rejectStep s a (a.sol.line oo s.t a.yn)))
  else .pure (.inr { s.sol with acceptFrac := some (lit (s.step : ℚ) / lit (s.sol.attempt : ℚ)) })

/-- State at the first loop test (erk.hpp 283-327) -/
def erkInitE (g : F → Vec F n → Eff S (Vec F n)) (t0 : F) (y0 : Vec F n) (dt : F) (sc : SolverCoeffs F) : Eff S (ErkState F n) :=
  let Ks : ℕ → Vec F n := fun _ _ => lit 0
  let sol : ErkOutput F n :=
    { status := 0, tVals := [t0], yVals := [y0], stages := [ksList sc Ks], errEst := [fun _ => lit 0], err := [lit 0], acceptFrac := none,
      attempt := 0, rejectErr := 0, funEvals := 0, calls := [], file := [] }
  if sc.fsal then
    (evalFunE g t0 y0 sol).bind fun r =>
      .pure { t := t0, dt := dt, y := y0, Ks := Function.update Ks 0 r.1, step := 0, err := lit 0, errEst := fun _ => lit 0, sol := r.2 }
  else .pure { t := t0, dt := dt, y := y0, Ks := Ks, step := 0, err := lit 0, errEst := fun _ => lit 0, sol := sol }

/-- a loop after an initialisation with effects -/
def initLoopE {T R : Type} (init : Eff S T) (body : T → Eff S (T ⊕ R)) (fuel : ℕ) (s : S) : Option (Outcome (R × S)) :=
  match init s with
  | .ret (t, s') => runLoopE body fuel t s'
  | .assertFail => some .assertFail
  | .throws => some .throws
  | .ub => some .ub

/-- `erk_guts` (erk.hpp 263-463) -/
def erkGutsE (nd : Bool) (g : F → Vec F n → Eff S (Vec F n)) (t0 t1 : F) (y0 : Vec F n) (o : ErkOpts F) (dt : F) (sc : SolverCoeffs F)
    (oo : OutOpts) (fuel : ℕ) (s : S) : Option (Outcome (ErkOutput F n × S)) :=
  let dt := clipDt t0 t1 dt
  if !nd && !(ltb (lit 0) dt) then some .assertFail
  else
    match minOrder sc with
    | none => some .ub
    | some mo => initLoopE (erkInitE g t0 y0 dt sc) (erkBodyE nd g t1 o oo sc mo) fuel s

/-- `erk::odeint` (erk.hpp 480-495) -/
def erkOdeintE (nd : Bool) (g : F → Vec F n → Eff S (Vec F n)) (t0 t1 : F) (y0 : Vec F n) (o : ErkOpts F) (oo : OutOpts) (method : ℤ) (dt : F)
    (fuel : ℕ) (s : S) : Option (Outcome (ErkOutput F n × S)) :=
  let sc : SolverCoeffs F := erkCoeffs method
  let o := if o.adaptive && sc.b2.length == 0 then { o with adaptive := false } else o
  if !nd && !erkVerify sc then some .assertFail
  else erkGutsE nd g t0 t1 y0 o dt sc oo fuel s

/-! ### irk.hpp -/

/-- the loop of `construct_R` (irk.hpp 377-383) over the stages `is`; `V` holds the values computed so far -/
def collectE (g : F → Vec F n → Eff S (Vec F n)) (sc : SolverCoeffs F) (t dt : F) (y : Vec F n) (Y : Vec F (sc.ns * n)) :
    List (Fin sc.ns) → (Fin sc.ns → Vec F n) → Eff S (Fin sc.ns → Vec F n)
  | [], V => .pure V
  | i :: is, V =>
    (g (stageArgI sc t dt y Y i).1 (stageArgI sc t dt y Y i).2).bind fun v => collectE g sc t dt y Y is (Function.update V i v)

/-- `construct_R` (irk.hpp 366-386) -/
def constructRE (g : F → Vec F n → Eff S (Vec F n)) (sc : SolverCoeffs F) (t dt : F) (y : Vec F n) (Y : Vec F (sc.ns * n)) :
    Eff S (Vec F (sc.ns * n)) :=
  (collectE g sc t dt y Y (List.finRange sc.ns) (fun _ _ => lit 0)).bind fun V =>
    .pure fun p => Y p - mulVec (fun p q => dt * kron sc.mat (eye n) p q) (fun p => V p.divNat p.modNat) p

/-- the lambda `refresh_jacobi_matrix` (irk.hpp 422-436) -/
def refreshJacE (nd : Bool) (la : LinAlg F) (g : EffFun S F n) (sc : SolverCoeffs F) (t dt : F) (y : Vec F n)
    (s : StageState F (sc.ns * n) n) : Eff S (StageState F (sc.ns * n) n) :=
  (g.jac t y).bind fun J =>
    let s' := { s with
      J := J, count := { s.count with jacEvals := s.count.jacEvals + 1 },
      log := { s.log with jacs := s.log.jacs ++ [(t, y)] } }
    if nd then .pure s'
    else match la.lu (stageJac sc dt J) with
      | none => .lift .assertFail
      | some lup => .pure { s' with lup := some lup }

/-- one pass of the loop of `newton_solve_stages` (irk.hpp 458-488) -/
def stageStepE (nd : Bool) (la : LinAlg F) (g : EffFun S F n) (sc : SolverCoeffs F) (t dt : F) (y : Vec F n)
    (refresh : ℤ) (xtol Rtol : F) (s : StageState F (sc.ns * n) n) :
    Eff S (StageState F (sc.ns * n) n ⊕ StageResult F (sc.ns * n) n) :=
  (Eff.lift (stageDir la s.lup s.R)).bind fun dY =>
    let xnorm2 := dot dY dY
    let Y : Vec F (sc.ns * n) := fun p => s.Y p + lit 1 * dY p
    (constructRE g.fn sc t dt y Y).bind fun R =>
    let Rnorm2 := dot R R
    let count := { s.count with funEvals := s.count.funEvals + sc.ns }
    let log := { s.log with funs := s.log.funs ++ constructCalls sc t dt y Y }
    if ltb Rnorm2 (Rtol * Rtol) || ltb xnorm2 (xtol * xtol) then
      .pure (.inr { status := 0, Y := Y, J := s.J, iters := s.iters, Rnorm2 := Rnorm2, xnorm2 := xnorm2,
                    count := count, log := log })
    else if refresh = 0 then .lift .ub
    else
      let s' := { s with Y := Y, R := R, count := count, log := log }
      (if (s.iters : ℤ) % refresh = 0 then refreshJacE nd la g sc t dt y s' else .pure s').bind fun s'' =>
        .pure (.inl { s'' with iters := s.iters + 1 })

/-- the loop (irk.hpp 458-488), at most `k` further passes -/
def stageIterE (nd : Bool) (la : LinAlg F) (g : EffFun S F n) (sc : SolverCoeffs F) (t dt : F) (y : Vec F n)
    (refresh : ℤ) (xtol Rtol : F) : ℕ → StageState F (sc.ns * n) n → Eff S (StageResult F (sc.ns * n) n)
  | 0, s => .pure { status := 3, Y := s.Y, J := s.J, iters := s.iters, Rnorm2 := dot s.R s.R, xnorm2 := lit 0, count := s.count, log := s.log }
  | k + 1, s =>
    (stageStepE nd la g sc t dt y refresh xtol Rtol s).bind fun r =>
      match r with
      | .inr res => .pure res
      | .inl s' => stageIterE nd la g sc t dt y refresh xtol Rtol k s'

/-- `newton_solve_stages` (irk.hpp 398-493).  `J` is overwritten before it is read; its first value here is immaterial.  For a tableau
with fewer nodes than stages, which no method has, the calls made before the exception are left out. -/
def newtonSolveStagesE (nd : Bool) (la : LinAlg F) (g : EffFun S F n) (sc : SolverCoeffs F) (t dt : F) (y : Vec F n)
    (maxit refresh : ℤ) (xtol Rtol : F) (count : IrkCounters) (log : CallLog F n) : Eff S (StageResult F (sc.ns * n) n) :=
  let Y : Vec F (sc.ns * n) := fun _ => lit 0
  let s0 : StageState F (sc.ns * n) n :=
    { iters := 1, Y := Y, R := Y, lup := none, J := zeroMat n, count := count, log := log }
  (refreshJacE nd la g sc t dt y s0).bind fun s1 =>
    if sc.ns ≠ 0 ∧ (n = 0 ∨ sc.c.length < sc.ns) then .lift .throws
    else
      (constructRE g.fn sc t dt y Y).bind fun R =>
        stageIterE nd la g sc t dt y refresh xtol Rtol (maxit - 1).toNat { s1 with
          R := R
          count := { s1.count with funEvals := s1.count.funEvals + sc.ns }
          log := { s1.log with funs := s1.log.funs ++ constructCalls sc t dt y Y } }

/-- irk.hpp 735-801: the norm of the error estimate, the decision, the new step size -/
def finishI (o : IrkOpts F) (mo : ℕ) {m m' : ℕ} (s : IrkState F m n) (dt : F) (r : StageResult F m' n) (yn errEst : Vec F n) (count : IrkCounters)
    (log : CallLog F n) : AttemptI F n :=
  let et := errTot o.toErk s.y yn errEst
  let err := errNorm n et
  let rej := ltb (lit 1) err
  { dt := dt, yn := yn, errEst := errEst, errTot := et, err := err,
    newDt := newDtI o mo dt err err s.errs0 s.dts0 s.dts1 s.newtonMaxit r.iters,
    reject := rej,
    count := if rej then { count with rejectErr := count.rejectErr + 1 } else count, log := log }

/-- irk.hpp 688-801 -/
def attemptIE (la : LinAlg F) (g : EffFun S F n) (o : IrkOpts F) (sc : SolverCoeffs F) (mo : ℕ) (d d2 : Vec F sc.ns)
    {m : ℕ} (s : IrkState F m n) (dt : F) (r : StageResult F (sc.ns * n) n) : Eff S (AttemptI F n) :=
  let gam := sc.gamma * dt
  let deltaY := combineI sc r.Y d
  let deltaAlt := combineI sc r.Y d2
  (g.fn s.t s.y).bind fun f0 =>
  let dyAlt : Vec F n := fun k => gam * f0 k + deltaAlt k
  let yn : Vec F n := fun k => s.y k + deltaY k
  let count := { r.count with funEvals := r.count.funEvals + 1 }
  let log := { r.log with funs := r.log.funs ++ [(s.t, s.y)] }
  let solveTmp : Mat F n := fun i j => eye n i j - gam * r.J i j
  match la.solve solveTmp (fun k => dyAlt k - deltaY k) with
  | none => .lift .throws
  | some e1 =>
    let err819 : Vec F n := fun k => dt * e1 k
    if s.alt then
      (g.fn s.t (fun k => s.y k + err819 k)).bind fun f1 =>
      let dyAltAlt : Vec F n := fun k => gam * f1 k + deltaAlt k
      match la.solve solveTmp (fun k => dyAltAlt k - deltaY k) with
      | none => .lift .throws
      | some e2 =>
        .pure (finishI o mo s dt r yn (fun k => dt * e2 k) { count with funEvals := count.funEvals + 1 }
          { log with funs := log.funs ++ [(s.t, fun k => s.y k + err819 k)] })
    else .pure (finishI o mo s dt r yn err819 count log)

/-- One pass through `while (t < t1)` of `irk_guts` (irk.hpp 604-860).  With adaptive stepping off line 702 calls the right-hand side
before the sum throws. -/
def irkBodyE (nd : Bool) (la : LinAlg F) (g : EffFun S F n) (t1 : F) (o : IrkOpts F) (no : NewtonOpts F) (oo : OutOpts)
    (sc : SolverCoeffs F) (mo : ℕ) (d d2 : Vec F sc.ns) (s : IrkState F (sc.ns * n) n) :
    Eff S (IrkState F (sc.ns * n) n ⊕ IrkOutput F (sc.ns * n) n) :=
  if ltb s.t t1 then
    let dt := clipDt s.t t1 s.dt
    if 0 ≤ o.maxSteps ∧ o.maxSteps < s.step then .pure (.inr { s.sol.bump with status := 128 })
    else
      (newtonSolveStagesE nd la g sc s.t dt s.y s.newtonMaxit no.refreshJac no.dxDelta no.tol s.sol.bump.count s.sol.log).bind fun r =>
        if r.status ≠ 0 then
          if !o.adaptive then .pure (.inr { s.sol.bump with status := 4, count := r.count, log := r.log })
          else .pure (.inl (newtonReject s dt no.maxit r.status r.count r.log))
        else if !o.adaptive then (g.fn s.t s.y).bind fun _ => .lift .throws
        else
          (attemptIE la g o sc mo d d2 s dt r.success).bind fun a =>
            if !nd && !(leb (lit 0) a.errTot) then .lift .assertFail
            else if a.reject then .pure (.inl (rejectI s a))
            else if oo.interval.toNat = 0 then .lift .ub
            else if (s.step + 1) % oo.interval.toNat = 0 && oo.writeToFile && !oo.streamSet then .lift .ub
            else .pure (.inl (acceptI oo s a))
  else .pure (.inr { s.sol with acceptFrac := some (lit (s.step : ℚ) / lit (s.sol.count.attempt : ℚ)) })

/-- `irk_guts` (irk.hpp 509-869) -/
def irkGutsE (nd : Bool) (la : LinAlg F) (g : EffFun S F n) (t0 t1 : F) (y0 : Vec F n) (o : IrkOpts F) (dt : F)
    (sc : SolverCoeffs F) (oo : OutOpts) (fuel : ℕ) (s : S) : Option (Outcome (IrkOutput F (sc.ns * n) n × S)) :=
  let dt := clipDt t0 t1 dt
  match o.newtonOpts with
  | none => some (if nd then .ub else .assertFail)
  | some no =>
    if !nd && !(ltb (lit 0) dt) then some .assertFail
    else
      match minOrder sc with
      | none => some .ub
      | some mo =>
        if sc.nRows ≠ sc.ns ∨ sc.nCols ≠ sc.ns then some .throws
        else
          match la.inv sc.mat with
          | none => some .throws
          | some Ai =>
            if sc.b2.length ≠ sc.ns then some .throws
            else
              runLoopE (irkBodyE nd la g t1 o no oo sc mo (dWeights Ai fun i => sc.bw i) (dWeights Ai fun i => sc.bw2 i))
                fuel (irkInit (sc.ns * n) t0 y0 dt no.maxit) s

/-- `irk::odeint` (irk.hpp 884-898) -/
def irkOdeintE (nd : Bool) (la : LinAlg F) (g : EffFun S F n) (t0 t1 : F) (y0 : Vec F n) (o : IrkOpts F) (oo : OutOpts)
    (method : ℤ) (dt : F) (fuel : ℕ) (s : S) : Option (Outcome (IrkOutput F ((irkCoeffs method : SolverCoeffs F).ns * n) n × S)) :=
  let sc : SolverCoeffs F := irkCoeffs method
  let o := if o.adaptive && sc.b2.length == 0 then { o with adaptive := false } else o
  if !nd && !irkVerify sc then some .assertFail
  else irkGutsE nd la g t0 t1 y0 o dt sc oo fuel s

end model
end Verif
