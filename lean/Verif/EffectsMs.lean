import Verif.Effects
import Verif.Multistep

/-!
# The Newton solver and the multistep integrators for functors with state, exceptions and other effects

The functor is passed by reference (multistep.hpp 66, 116, 149, 202), with one exception: `newton_multistep_helper` has a member `functor_type func`
(multistep.hpp 304), so that the Newton iterations of `bdf` work on a copy of the user's functor, made anew in every pass (multistep.hpp 321-322).  Copying
is assumed to copy the whole state (a functor that holds a pointer to its state shares it with its copies).
-/

namespace Verif

/-- sequencing of computations that may run out of fuel -/
def bindO {S A B : Type} (m : Option (Outcome (A × S))) (k : A → S → Option (Outcome (B × S))) : Option (Outcome (B × S)) :=
  match m with
  | none => none
  | some (.ret (a, s)) => k a s
  | some .assertFail => some .assertFail
  | some .throws => some .throws
  | some .ub => some .ub

/-- A functor for the Newton solver (newton.hpp 362-365), with effects. -/
structure EffNFun (S F : Type) (n : ℕ) where
  fn : Vec F n → Eff S (Vec F n)
  jac : Vec F n → Eff S (Mat F n)

section model
variable {S : Type} {F : Type} [Add F] [Sub F] [Mul F] [Div F] [Neg F] [Scalar F] {n : ℕ}

/-! ### newton.hpp -/

/-- state before the loop (newton.hpp 367-420): `fun` is called before `jac` -/
def newtonInitE (la : LinAlg F) (h : EffNFun S F n) (x : Vec F n) (fl : NewtonFlags) : Eff S (NewtonState F n) :=
  (h.fn x).bind fun r => (h.jac x).bind fun J =>
    .pure { xn := x, r := r, res2 := dot r r, J := J,
            lup := if 3 < fl.refresh then la.lu J else some (zeroMat n, zeroMat n, zeroMat n),
            incr := lit 0, iters := 0, term := false, jacCalls := 1, funCalls := 1 }

/-- One pass through the loop of `newton_iterate_impl` (newton.hpp 422-521).  The calls of the functor are outside the `try` block (430-462). -/
def newtonBodyE (la : LinAlg F) (h : EffNFun S F n) (x : Vec F n) (o : NewtonOpts F) (fl : NewtonFlags) (st0 : NewtonStatus F) (s : NewtonState F n) :
    Eff S (NewtonState F n ⊕ (Vec F n × NewtonStatus F)) :=
  if s.term = false ∧ (s.iters : ℤ) < o.maxit then
    let lam := newtonLambda fl s.res2
    match newtonDir la fl s with
    | none => .pure (.inr (x, { st0 with conv := 4, iters := s.iters, jacCalls := s.jacCalls, funCalls := s.funCalls }))
    | some (lup, d) =>
      let d := limitDir (maxStep2 o) lam d
      let xn : Vec F n := fun i => s.xn i + lam * d i
      (if fl.refresh ≠ 0 then h.jac xn else .pure s.J).bind fun J =>
      let lup := if 3 < fl.refresh then la.lu J else lup
      (h.fn xn).bind fun r =>
      let incr := normInf d
      .pure (.inl { xn := xn, r := r, res2 := dot r r, J := J, lup := lup, incr := incr,
                    iters := s.iters + 1, term := ltb incr o.dxDelta,
                    jacCalls := if fl.refresh ≠ 0 then s.jacCalls + 1 else s.jacCalls,
                    funCalls := s.funCalls + 1 })
  else .pure (.inr (newtonFinish x o s))

/-- `newton_iterate` (newton.hpp 362-544, 557-671) -/
def newtonIterateE (la : LinAlg F) (h : EffNFun S F n) (x : Vec F n) (o : NewtonOpts F) (st0 : NewtonStatus F) (quiet : Bool) (s : S) :
    Option (Outcome ((Vec F n × NewtonStatus F) × S)) :=
  let fl := newtonSwitch (newtonBits o quiet)
  initLoopE (newtonInitE la h x fl) (newtonBodyE la h x o fl st0) (o.maxit.toNat + 1) s

/-! ### multistep.hpp: the bootstrap -/

/-- `k` passes of the loop of `bootstrap_history` (multistep.hpp 134-141) -/
def bootIterE (nd : Bool) (la : LinAlg F) (g : EffFun S F n) (fuel : ℕ) (dt : F) :
    ℕ → F → Vec F n → S → Option (Outcome (List (F × Vec F n) × S))
  | 0, _, _, s => some (.ret ([], s))
  | k + 1, t, y, s =>
    bindO (irkOdeintE nd la g t (t + dt) y bootOpts bootOut 232 (lit (1 / 10 ^ 6)) fuel s) fun out s =>
      if out.tVals.length = 0 then some .ub
      else
        match out.yVals[out.tVals.length - 1]? with
        | none => some .ub
        | some y' => bindO (bootIterE nd la g fuel dt k (t + dt) y' s) fun l s => some (.ret ((t + dt, y') :: l, s))

/-- `bootstrap_history` (multistep.hpp 115-144) -/
def bootstrapE (nd : Bool) (la : LinAlg F) (g : EffFun S F n) (fuel : ℕ) (order : ℤ) (y : Vec F n) (t dt : F) (s : S) :
    Option (Outcome (List (F × Vec F n) × S)) :=
  bindO (bootIterE nd la g fuel dt (order - 1).toNat t y s) fun l s => some (.ret ((t, y) :: l, s))

/-! ### multistep.hpp: Adams-Bashforth -/

/-- the calls of one right-hand side expression, in the order `is` -/
def evalOrd (g : F → Vec F n → Eff S (Vec F n)) (t : F) (h : ℕ → Vec F n) : List ℕ → (ℕ → Vec F n) → Eff S (ℕ → Vec F n)
  | [], V => .pure V
  | i :: is, V => (g t (h i)).bind fun v => evalOrd g t h is (Function.update V i v)

/-- `adams_bashforth_step` (multistep.hpp 65-111).  C++ leaves the order of the calls in one expression open: `ord m` is the order the compiler chose for
the expression of order `m`.  The reads of the history, which have no effect, are made first. -/
def abStepE (nd : Bool) (g : F → Vec F n → Eff S (Vec F n)) (ord : ℕ → List ℕ) (order : ℤ) (Y : Vec F n) (t dt : F) (h : CBuf (Vec F n)) :
    Eff S (Vec F n) :=
  if order = 1 then
    (Eff.lift (h.index nd 0)).bind fun h0 =>
    (evalOrd g t (fun _ => h0) (ord 1) (fun _ _ => lit 0)).bind fun V =>
    .pure fun k => Y k + dt * V 0 k
  else if order = 2 then
    (Eff.lift (h.index nd 0)).bind fun h0 =>
    (Eff.lift (h.index nd 1)).bind fun h1 =>
    (evalOrd g t (fun i => [h0, h1].getD i h0) (ord 2) (fun _ _ => lit 0)).bind fun V =>
    .pure fun k => Y k + dt * (abC 2 0 * V 0 k + abC 2 1 * V 1 k)
  else if order = 3 then
    (Eff.lift (h.index nd 0)).bind fun h0 =>
    (Eff.lift (h.index nd 1)).bind fun h1 =>
    (Eff.lift (h.index nd 2)).bind fun h2 =>
    (evalOrd g t (fun i => [h0, h1, h2].getD i h0) (ord 3) (fun _ _ => lit 0)).bind fun V =>
    .pure fun k => Y k + dt * (abC 3 0 * V 0 k + abC 3 1 * V 1 k + abC 3 2 * V 2 k)
  else if order = 4 then
    (Eff.lift (h.index nd 0)).bind fun h0 =>
    (Eff.lift (h.index nd 1)).bind fun h1 =>
    (Eff.lift (h.index nd 2)).bind fun h2 =>
    (Eff.lift (h.index nd 3)).bind fun h3 =>
    (evalOrd g t (fun i => [h0, h1, h2, h3].getD i h0) (ord 4) (fun _ _ => lit 0)).bind fun V =>
    .pure fun k => Y k + dt * (abC 4 0 * V 0 k + abC 4 1 * V 1 k + abC 4 2 * V 2 k + abC 4 3 * V 3 k)
  else if order = 5 then
    (Eff.lift (h.index nd 0)).bind fun h0 =>
    (Eff.lift (h.index nd 1)).bind fun h1 =>
    (Eff.lift (h.index nd 2)).bind fun h2 =>
    (Eff.lift (h.index nd 3)).bind fun h3 =>
    (Eff.lift (h.index nd 4)).bind fun h4 =>
    (evalOrd g t (fun i => [h0, h1, h2, h3, h4].getD i h0) (ord 5) (fun _ _ => lit 0)).bind fun V =>
    .pure fun k => Y k + dt * (abC 5 0 * V 0 k + abC 5 1 * V 1 k + abC 5 2 * V 2 k + abC 5 3 * V 3 k + abC 5 4 * V 4 k)
  else if nd then .pure Y
  else .lift .assertFail

/-- one pass through the loop of `adams_bashforth` (multistep.hpp 187-194) -/
def abBodyE (nd : Bool) (g : F → Vec F n → Eff S (Vec F n)) (ord : ℕ → List ℕ) (t1 : F) (order : ℤ) (dt : F) (s : MsState F n) :
    Eff S (MsState F n ⊕ MsOutput F n) :=
  if ltb s.t t1 then
    (abStepE nd g ord order s.y s.t dt s.hist).bind fun y =>
    (Eff.lift (s.hist.pushBack y)).bind fun h =>
    .pure (.inl { s with t := s.t + dt, y := y, hist := h, sol := s.sol.push (s.t + dt) y })
  else .pure (.inr s.sol)

/-- `adams_bashforth` (multistep.hpp 147-197) -/
def adamsBashforthE (nd : Bool) (la : LinAlg F) (g : EffFun S F n) (ord : ℕ → List ℕ) (t0 t1 : F) (y0 : Vec F n) (order : ℤ) (dt : F)
    (st0 : NewtonStatus F) (fuelB fuel : ℕ) (s : S) : Option (Outcome (MsOutput F n × S)) :=
  let dt := clipDt t0 t1 dt
  if !nd && !(ltb (lit 0) dt) then some .assertFail
  else
    match CBuf.construct (fun _ => lit 0 : Vec F n) order with
    | .assertFail => some .assertFail
    | .throws => some .throws
    | .ub => some .ub
    | .ret b =>
      bindO (bootstrapE nd la g fuelB order y0 t0 dt s) fun l s =>
        match msStart b l st0 with
        | .assertFail => some .assertFail
        | .throws => some .throws
        | .ub => some .ub
        | .ret m => runLoopE (abBodyE nd g.fn ord t1 order dt) fuel m s

/-! ### multistep.hpp: bdf -/

/-- `newton_multistep_helper` (multistep.hpp 287-310), acting on the state of its own copy of the functor -/
def bdfFunE (g : EffFun S F n) (w tNext : F) (c : Vec F n) : EffNFun S F n where
  fn y := (g.fn tNext y).bind fun v => .pure fun k => y k + c k - w * v k
  jac y := (g.jac tNext y).bind fun J => .pure fun i j => eye n i j - w * J i j

/-- a computation on a copy of the state: the state itself stays (multistep.hpp 304, 321-322) -/
def onCopy {A : Type} (m : S → Option (Outcome (A × S))) : Eff S A := fun s =>
  match m s with
  | none => .ub
  | some o => o.bind fun p => .ret (p.1, s)

/-- one pass through the loop of `bdf` (multistep.hpp 314-342) -/
def bdfBodyE (nd : Bool) (la : LinAlg F) (g : EffFun S F n) (t1 : F) (order : ℤ) (dt : F) (s : MsState F n) :
    Eff S (MsState F n ⊕ MsOutput F n) :=
  if ltb s.t t1 then
    (Eff.lift (bdfInterp nd order s.hist order.toNat 0 (fun _ => lit 0))).bind fun c =>
    (onCopy (newtonIterateE la (bdfFunE g (dt * bdfW order) (s.t + dt) c) s.y bdfNewton s.newton true)).bind fun r =>
    if r.2.conv ≠ 0 then .pure (.inr { s.sol with status := 16 })
    else
      (Eff.lift (s.hist.pushBack r.1)).bind fun h =>
      .pure (.inl { s with t := s.t + dt, y := r.1, hist := h, sol := s.sol.push (s.t + dt) r.1, newton := r.2 })
  else .pure (.inr s.sol)

/-- `bdf` (multistep.hpp 201-347) -/
def bdfE (nd : Bool) (la : LinAlg F) (g : EffFun S F n) (t0 t1 : F) (y0 : Vec F n) (order : ℤ) (dt : F)
    (st0 : NewtonStatus F) (fuelB fuel : ℕ) (s : S) : Option (Outcome (MsOutput F n × S)) :=
  if 6 < order then some (.ret (⟨4, [], []⟩, s))
  else if order ≤ 0 then some (.ret (⟨4, [], []⟩, s))
  else
    let dt := clipDt t0 t1 dt
    if !nd && !(ltb (lit 0) dt) then some .assertFail
    else
      match CBuf.construct (fun _ => lit 0 : Vec F n) (order + 1) with
      | .assertFail => some .assertFail
      | .throws => some .throws
      | .ub => some .ub
      | .ret b =>
        bindO (bootstrapE nd la g fuelB (order + 1) y0 t0 dt s) fun l s =>
          match msStart b l st0 with
          | .assertFail => some .assertFail
          | .throws => some .throws
          | .ub => some .ub
          | .ret m => runLoopE (bdfBodyE nd la g t1 order dt) fuel m s

end model
end Verif
