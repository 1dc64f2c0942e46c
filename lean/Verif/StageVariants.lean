import Verif.IrkStage

/-!
# The template `newton_solve_stages` with all its parameters (irk.hpp 388-493)

`irk_guts` uses `<functor_type, false, true>` (`Verif.Irk`); the default is `<functor_type, true, false>`, used by the test
`irk_calc_stages` (test/irk.cpp 251-296).
-/

set_option linter.unusedSectionVars false

namespace Verif
section
variable {F : Type} [Add F] [Sub F] [Mul F] [Div F] [Neg F] [Scalar F] {n : ℕ}

/-- local variables at the loop head (irk.hpp 407-458): those of `StageState`, the matrix `J_Y` and the damping `step` -/
structure StageStateG (F : Type) (m n : ℕ) extends StageState F m n where
  JY : Mat F m
  step : F

/-- the lambda `refresh_jacobi_matrix` (irk.hpp 422-436); `plu`: `PLU_decomposition` -/
def refreshG (plu nd : Bool) (la : LinAlg F) (fn : OdeFun F n) (sc : SolverCoeffs F) (t dt : F) (y : Vec F n)
    (s : StageStateG F (sc.ns * n) n) : Outcome (StageStateG F (sc.ns * n) n) :=
  let J := fn.jac t y
  let s' := { s with
    J := J, JY := stageJac sc dt J, count := { s.count with jacEvals := s.count.jacEvals + 1 },
    log := { s.log with jacs := s.log.jacs ++ [(t, y)] } }
  if plu && !nd then
    match la.lu (stageJac sc dt J) with
    | none => .assertFail
    | some lup => .ret { s' with lup := some lup }
  else .ret s'

/-- the direction `dY` (irk.hpp 459-465) -/
def dirG (plu : Bool) (la : LinAlg F) {m : ℕ} (s : StageStateG F m n) : Outcome (Vec F m) :=
  if plu then stageDir la s.lup s.R
  else
    match la.solve s.JY s.R with
    | none => .throws
    | some x => .ret fun p => - x p

/-- one pass of the loop (irk.hpp 458-488); `ad`: `adaptive_step` -/
def stepG (ad plu nd : Bool) (la : LinAlg F) (fn : OdeFun F n) (sc : SolverCoeffs F) (t dt : F) (y : Vec F n)
    (refresh : ℤ) (xtol Rtol : F) (s : StageStateG F (sc.ns * n) n) :
    Outcome (StageStateG F (sc.ns * n) n ⊕ StageResult F (sc.ns * n) n) :=
  (dirG plu la s).bind fun dY =>
    let xnorm2 := dot dY dY
    let Y : Vec F (sc.ns * n) := fun p => s.Y p + s.step * dY p
    let R := constructR fn.fn sc t dt y Y
    let Rnorm2 := dot R R
    let count := { s.count with funEvals := s.count.funEvals + sc.ns }
    let log := { s.log with funs := s.log.funs ++ constructCalls sc t dt y Y }
    if ltb Rnorm2 (Rtol * Rtol) || ltb xnorm2 (xtol * xtol) then
      .ret (.inr { status := 0, Y := Y, J := s.J, iters := s.iters, Rnorm2 := Rnorm2, xnorm2 := xnorm2,
                   count := count, log := log })
    else if refresh = 0 then .ub       -- `iters % 0`
    else
      let s' := { s with
        Y := Y, R := R, count := count, log := log, step := if ad then lit 1 / ssqrt (lit 1 + Rnorm2) else s.step }
      (if (s.iters : ℤ) % refresh = 0 then refreshG plu nd la fn sc t dt y s' else .ret s').bind fun s'' =>
        .ret (.inl { s'' with iters := s.iters + 1 })

/-- the loop (irk.hpp 458-488), at most `k` further passes -/
def iterG (ad plu nd : Bool) (la : LinAlg F) (fn : OdeFun F n) (sc : SolverCoeffs F) (t dt : F) (y : Vec F n)
    (refresh : ℤ) (xtol Rtol : F) : ℕ → StageStateG F (sc.ns * n) n → Outcome (StageResult F (sc.ns * n) n)
  | 0, s => .ret { status := 3, Y := s.Y, J := s.J, iters := s.iters, Rnorm2 := dot s.R s.R, xnorm2 := lit 0,
                   count := s.count, log := s.log }
  | k + 1, s =>
    (stepG ad plu nd la fn sc t dt y refresh xtol Rtol s).bind fun r =>
      match r with
      | .inr res => .ret res
      | .inl s' => iterG ad plu nd la fn sc t dt y refresh xtol Rtol k s'

/-- `newton_solve_stages<functor_type, ad, plu>` (irk.hpp 395-493), with the simplifications of `newtonSolveStages` -/
def newtonSolveStagesG (ad plu nd : Bool) (la : LinAlg F) (fn : OdeFun F n) (sc : SolverCoeffs F) (t dt : F) (y : Vec F n)
    (maxit refresh : ℤ) (xtol Rtol : F) (count : IrkCounters) (log : CallLog F n) :
    Outcome (StageResult F (sc.ns * n) n) :=
  let Y : Vec F (sc.ns * n) := fun _ => lit 0
  let s0 : StageStateG F (sc.ns * n) n :=
    { iters := 1, Y := Y, R := Y, lup := none, J := fn.jac t y, count := count, log := log, JY := eye _, step := lit 1 }
  (refreshG plu nd la fn sc t dt y s0).bind fun s1 =>
    if sc.ns ≠ 0 ∧ (n = 0 ∨ sc.c.length < sc.ns) then .throws
    else
      let R := constructR fn.fn sc t dt y Y
      let s2 := { s1 with
        R := R
        step := if ad then lit 1 / ssqrt (lit 1 + dot R R) else lit 1
        count := { s1.count with funEvals := s1.count.funEvals + sc.ns }
        log := { s1.log with funs := s1.log.funs ++ constructCalls sc t dt y Y } }
      iterG ad plu nd la fn sc t dt y refresh xtol Rtol (maxit - 1).toNat s2

end
end Verif
