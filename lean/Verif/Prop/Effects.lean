import Verif.Effects
import Verif.Prop.Erk
import Verif.Prop.IrkExamples

/-!
# C121: functors with effects
-/

set_option linter.unusedSectionVars false

namespace Verif

/-- a call of the user's functor -/
inductive UserCall (F : Type) (n : ℕ) where
  | fn (t : F) (y : Vec F n)
  | jac (t : F) (y : Vec F n)

section
variable {S : Type} {F : Type} {n : ℕ}

/-- make one call and keep the state -/
def EffFun.call (g : EffFun S F n) : UserCall F n → S → Outcome S
  | .fn t y, s => (g.fn t y s).bind fun p => .ret p.2
  | .jac t y, s => (g.jac t y s).bind fun p => .ret p.2

/-- Make the calls of a list, one after the other, and nothing else: the state afterwards, or how the first call that does not return ends. -/
def EffFun.feed (g : EffFun S F n) : List (UserCall F n) → S → Outcome S
  | [], s => .ret s
  | c :: cs, s => (g.call c s).bind (g.feed cs)

/-- A functor with effects whose answers, in all states satisfying `I`, are those of the functions `f`: counters, caches, logs, checks that throw. -/
structure Transparent (g : EffFun S F n) (f : OdeFun F n) (I : S → Prop) : Prop where
  fn : ∀ {s t y v s'}, I s → g.fn t y s = .ret (v, s') → v = f.fn t y ∧ I s'
  jac : ∀ {s t y v s'}, I s → g.jac t y s = .ret (v, s') → v = f.jac t y ∧ I s'

/-- the right-hand side calls in a list of calls -/
def funsOf : List (UserCall F n) → List (F × Vec F n)
  | [] => []
  | .fn t y :: c => (t, y) :: funsOf c
  | .jac _ _ :: c => funsOf c

/-- the Jacobi matrix calls in a list of calls -/
def jacsOf : List (UserCall F n) → List (F × Vec F n)
  | [] => []
  | .fn _ _ :: c => jacsOf c
  | .jac t y :: c => (t, y) :: jacsOf c

theorem funsOf_append (c d : List (UserCall F n)) : funsOf (c ++ d) = funsOf c ++ funsOf d := by
  induction c with
  | nil => rfl
  | cons a c ih => cases a <;> simp [funsOf, ih]

theorem jacsOf_append (c d : List (UserCall F n)) : jacsOf (c ++ d) = jacsOf c ++ jacsOf d := by
  induction c with
  | nil => rfl
  | cons a c ih => cases a <;> simp [jacsOf, ih]

theorem calls_of_no_jac (c : List (UserCall F n)) (h : jacsOf c = []) : c = (funsOf c).map fun p => .fn p.1 p.2 := by
  induction c with
  | nil => rfl
  | cons a c ih =>
    cases a with
    | fn t y => rw [jacsOf] at h; rw [funsOf, List.map_cons, ← ih h]
    | jac t y => cases h

/-- a log extended by a list of calls -/
def CallLog.add (l : CallLog F n) (c : List (UserCall F n)) : CallLog F n := ⟨l.funs ++ funsOf c, l.jacs ++ jacsOf c⟩

theorem CallLog.add_nil (l : CallLog F n) : l.add [] = l := by simp [CallLog.add, funsOf, jacsOf]

theorem CallLog.add_append (l : CallLog F n) (c d : List (UserCall F n)) : l.add (c ++ d) = (l.add c).add d := by
  simp [CallLog.add, funsOf_append, jacsOf_append]

/-- continue after the calls -/
def after {A B : Type} (o : Outcome A) (k : A → Option (Outcome B)) : Option (Outcome B) :=
  match o with
  | .ret a => k a
  | .assertFail => some .assertFail
  | .throws => some .throws
  | .ub => some .ub

theorem outcome_bind_assoc {A B C : Type} (o : Outcome A) (f : A → Outcome B) (g : B → Outcome C) :
    (o.bind f).bind g = o.bind fun a => (f a).bind g := by
  cases o <;> rfl

theorem feed_append (g : EffFun S F n) (c d : List (UserCall F n)) (s : S) : g.feed (c ++ d) s = (g.feed c s).bind (g.feed d) := by
  induction c generalizing s with
  | nil => rfl
  | cons a c ih =>
    show (g.call a s).bind (g.feed (c ++ d)) = ((g.call a s).bind (g.feed c)).bind (g.feed d)
    rw [outcome_bind_assoc]
    congr 1
    funext s'
    exact ih s'

variable {g : EffFun S F n} {f : OdeFun F n} {I : S → Prop}

theorem feed_inv (hg : Transparent g f I) (c : List (UserCall F n)) {s s' : S} (hs : I s) (h : g.feed c s = .ret s') : I s' := by
  induction c generalizing s with
  | nil => cases h; exact hs
  | cons a c ih =>
    change (g.call a s).bind (g.feed c) = .ret s' at h
    cases hc : g.call a s with
    | ret s1 =>
      rw [hc] at h
      refine ih ?_ h
      cases a with
      | fn t y =>
        cases hv : g.fn t y s with
        | ret p => simp only [EffFun.call, hv, Outcome.bind, Outcome.ret.injEq] at hc; rw [← hc]; exact (hg.fn hs hv).2
        | _ => simp [EffFun.call, hv, Outcome.bind] at hc
      | jac t y =>
        cases hv : g.jac t y s with
        | ret p => simp only [EffFun.call, hv, Outcome.bind, Outcome.ret.injEq] at hc; rw [← hc]; exact (hg.jac hs hv).2
        | _ => simp [EffFun.call, hv, Outcome.bind] at hc
    | _ => rw [hc] at h; cases h

/-- the computation `m` makes the calls `c` and then does what `p` says, without looking at the state -/
def Driven (g : EffFun S F n) (I : S → Prop) {A : Type} (m : Eff S A) (p : Outcome A) (c : List (UserCall F n)) : Prop :=
  ∀ s, I s → m s = (g.feed c s).bind fun s' => p.bind fun a => .ret (a, s')

namespace Driven
variable {A B : Type}

theorem pure (a : A) : Driven g I (Eff.pure a) (.ret a) [] := fun _ _ => rfl

theorem lift (o : Outcome A) : Driven g I (Eff.lift o) o [] := fun _ _ => rfl

theorem fn (hg : Transparent g f I) (t : F) (y : Vec F n) : Driven g I (g.fn t y) (.ret (f.fn t y)) [.fn t y] := fun s hs => by
  show g.fn t y s = ((g.call (.fn t y) s).bind (g.feed [])).bind _
  cases hv : g.fn t y s with
  | ret p =>
    obtain ⟨v, s'⟩ := p
    simp only [EffFun.call, hv, Outcome.bind, EffFun.feed]
    rw [(hg.fn hs hv).1]
  | _ => simp [EffFun.call, hv, Outcome.bind]

theorem jac (hg : Transparent g f I) (t : F) (y : Vec F n) : Driven g I (g.jac t y) (.ret (f.jac t y)) [.jac t y] := fun s hs => by
  show g.jac t y s = ((g.call (.jac t y) s).bind (g.feed [])).bind _
  cases hv : g.jac t y s with
  | ret p =>
    obtain ⟨v, s'⟩ := p
    simp only [EffFun.call, hv, Outcome.bind, EffFun.feed]
    rw [(hg.jac hs hv).1]
  | _ => simp [EffFun.call, hv, Outcome.bind]

theorem bind (hg : Transparent g f I) {m : Eff S A} {a : A} {c : List (UserCall F n)} {k : A → Eff S B} {q : Outcome B} {d : List (UserCall F n)}
    (hm : Driven g I m (.ret a) c) (hk : Driven g I (k a) q d) : Driven g I (m.bind k) q (c ++ d) := fun s hs => by
  show (m s).bind _ = _
  rw [hm s hs, feed_append]
  cases hc : g.feed c s with
  | ret s' => exact hk s' (feed_inv hg c hs hc)
  | _ => rfl

/-- the second part is not reached -/
theorem stop {m : Eff S A} {p : Outcome A} {c : List (UserCall F n)} {k : A → Eff S B} {q : Outcome B}
    (hm : Driven g I m p c) (h : (p = .assertFail ∧ q = .assertFail) ∨ (p = .throws ∧ q = .throws) ∨ (p = .ub ∧ q = .ub)) :
    Driven g I (m.bind k) q c := fun s hs => by
  show (m s).bind _ = _
  rw [hm s hs]
  cases hc : g.feed c s with
  | ret s' => rcases h with ⟨rfl, rfl⟩ | ⟨rfl, rfl⟩ | ⟨rfl, rfl⟩ <;> rfl
  | _ => rfl

end Driven

/-- the outcome of one pass of a loop -/
def LoopStep.toSum {T R : Type} : LoopStep T R → Outcome (T ⊕ R)
  | .next t => .ret (.inl t)
  | .done o => o.bind fun r => .ret (.inr r)

/-- Loops: if every pass of the loop with effects is driven by the pass of the pure loop, the whole loops are. -/
theorem loop_driven (hg : Transparent g f I) {T R : Type} {body : T → LoopStep T R} {bodyE : T → Eff S (T ⊕ R)} (tlog : T → CallLog F n)
    (rlog : R → CallLog F n)
    (hb : ∀ t, ∃ c, Driven g I (bodyE t) (body t).toSum c ∧ (∀ t', body t = .next t' → tlog t' = (tlog t).add c) ∧
      ∀ r, body t = .done (.ret r) → rlog r = (tlog t).add c) (k : ℕ) (t : T) :
    ∃ c, (∀ s, I s → runLoopE bodyE k t s = after (g.feed c s) fun s' => (runLoop body k t).map fun x => x.bind fun r => .ret (r, s')) ∧
      ∀ r, runLoop body k t = some (.ret r) → rlog r = (tlog t).add c := by
  induction k generalizing t with
  | zero => exact ⟨[], fun s _ => rfl, fun r h => by cases h⟩
  | succ k ih =>
    obtain ⟨c, h1, h2, h3⟩ := hb t
    cases hbt : body t with
    | next t' =>
      obtain ⟨d, h4, h5⟩ := ih t'
      refine ⟨c ++ d, fun s hs => ?_, fun r hr => ?_⟩
      · simp only [runLoopE, runLoop, hbt]
        rw [h1 s hs, hbt, feed_append]
        cases hc : g.feed c s with
        | ret s' => exact h4 s' (feed_inv hg c hs hc)
        | _ => rfl
      · simp only [runLoop, hbt] at hr
        rw [h5 r hr, h2 t' hbt, CallLog.add_append]
    | done o =>
      refine ⟨c, fun s hs => ?_, fun r hr => ?_⟩
      · simp only [runLoopE, runLoop, hbt]
        rw [h1 s hs, hbt]
        cases hc : g.feed c s with
        | ret s' => cases o <;> rfl
        | _ => rfl
      · simp only [runLoop, hbt, Option.some.injEq] at hr
        subst hr
        exact h3 r hbt

end

/-! ### The explicit integrator -/

section erk
variable {S : Type} {F : Type} [Add F] [Sub F] [Mul F] [Div F] [Neg F] [Scalar F] {n : ℕ} {g : EffFun S F n} {f : OdeFun F n} {I : S → Prop}

theorem evalFunE_driven (hg : Transparent g f I) (t : F) (Y : Vec F n) (sol : ErkOutput F n) :
    Driven g I (evalFunE g.fn t Y sol) (.ret (evalFun f.fn t Y sol)) [.fn t Y] := by
  exact (Driven.fn hg t Y).bind (d := []) hg (Driven.pure _)

theorem stageLoopE_driven (hg : Transparent g f I) (sc : SolverCoeffs F) (t dt : F) (y : Vec F n) (is : List ℕ) (Ks : ℕ → Vec F n)
    (sol : ErkOutput F n) : ∃ l : List (F × Vec F n),
    Driven g I (stageLoopE g.fn sc t dt y is Ks sol) (.ret (is.foldl (fun st i =>
      let r := evalFun f.fn (t + sc.cn i * dt) (stageArg sc dt y st.1 i) st.2
      (Function.update st.1 i r.1, r.2)) (Ks, sol))) (l.map fun p => .fn p.1 p.2) ∧
    (is.foldl (fun st i =>
      let r := evalFun f.fn (t + sc.cn i * dt) (stageArg sc dt y st.1 i) st.2
      (Function.update st.1 i r.1, r.2)) (Ks, sol)).2.calls = sol.calls ++ l := by
  induction is generalizing Ks sol with
  | nil => exact ⟨[], Driven.pure _, by simp⟩
  | cons i is ih =>
    obtain ⟨l, h1, h2⟩ := ih (Function.update Ks i (evalFun f.fn (t + sc.cn i * dt) (stageArg sc dt y Ks i) sol).1)
      (evalFun f.fn (t + sc.cn i * dt) (stageArg sc dt y Ks i) sol).2
    refine ⟨(t + sc.cn i * dt, stageArg sc dt y Ks i) :: l, ?_, ?_⟩
    · exact (evalFunE_driven hg _ _ _).bind hg h1
    · rw [List.foldl_cons, h2]
      simp [evalFun]

omit [Add F] [Sub F] [Mul F] [Div F] [Neg F] [Scalar F] in
theorem funsOf_map (l : List (F × Vec F n)) : funsOf (l.map fun p => (.fn p.1 p.2 : UserCall F n)) = l := by
  induction l with
  | nil => rfl
  | cons a l ih => simp [funsOf, ih]

omit [Add F] [Sub F] [Mul F] [Div F] [Neg F] [Scalar F] in
theorem jacsOf_map (l : List (F × Vec F n)) : jacsOf (l.map fun p => (.fn p.1 p.2 : UserCall F n)) = [] := by
  induction l with
  | nil => rfl
  | cons a l ih => simp [jacsOf, ih]

theorem stageLoop_fold (f : F → Vec F n → Vec F n) (sc : SolverCoeffs F) (t dt : F) (y : Vec F n) (start : ℕ) (Ks : ℕ → Vec F n) (sol : ErkOutput F n) :
    (List.range' start (sc.ns - start)).foldl (fun st i =>
      let r := evalFun f (t + sc.cn i * dt) (stageArg sc dt y st.1 i) st.2
      (Function.update st.1 i r.1, r.2)) (Ks, sol) = stageLoop f sc t dt y start Ks sol := rfl

/-- the calls of an explicit run as a log -/
def elog (sol : ErkOutput F n) : CallLog F n := ⟨sol.calls, []⟩

theorem erkBodyE_driven (hg : Transparent g f I) (nd : Bool) (t1 : F) (o : ErkOpts F) (oo : OutOpts) (sc : SolverCoeffs F) (mo : ℕ)
    (s : ErkState F n) : ∃ c, Driven g I (erkBodyE nd g.fn t1 o oo sc mo s) (erkBody nd f.fn t1 o oo sc mo s).toSum c ∧
      (∀ s', erkBody nd f.fn t1 o oo sc mo s = .next s' → elog s'.sol = (elog s.sol).add c) ∧
      ∀ r, erkBody nd f.fn t1 o oo sc mo s = .done (.ret r) → elog r = (elog s.sol).add c := by
  unfold erkBodyE erkBody
  by_cases h1 : ltb s.t t1 = true
  swap
  · rw [if_neg h1, if_neg h1]
    refine ⟨[], Driven.pure _, (by rintro _ ⟨⟩), ?_⟩
    rintro r ⟨⟩
    rw [CallLog.add_nil]; rfl
  rw [if_pos h1, if_pos h1]
  by_cases h2 : 0 ≤ o.maxSteps ∧ o.maxSteps < s.step
  · rw [if_pos h2, if_pos h2]
    refine ⟨[], Driven.pure _, (by rintro _ ⟨⟩), ?_⟩
    rintro r ⟨⟩
    rw [CallLog.add_nil]; rfl
  rw [if_neg h2, if_neg h2]
  obtain ⟨l, h3, h4⟩ := stageLoopE_driven hg sc s.t (clipDt s.t t1 s.dt) s.y (List.range' (stageStart sc) (sc.ns - stageStart sc)) s.Ks s.sol.bump
  have h4' : (stageLoop f.fn sc s.t (clipDt s.t t1 s.dt) s.y (stageStart sc) s.Ks s.sol.bump).2.calls = s.sol.calls ++ l := h4
  have hcalls : (attemptAt f.fn t1 o sc mo s).sol.calls = s.sol.calls ++ l := by
    unfold attemptAt attempt
    cases o.adaptive
    · exact h4'
    · simp only [if_true]
      split <;> exact h4'
  have hline : ∀ (sol : ErkOutput F n) yn, (sol.line oo s.t yn).calls = sol.calls := fun sol yn => by
    unfold ErkOutput.line
    split <;> rfl
  have hat : attemptFrom o sc mo s (clipDt s.t t1 s.dt) (stageLoop f.fn sc s.t (clipDt s.t t1 s.dt) s.y (stageStart sc) s.Ks s.sol.bump) =
      attemptAt f.fn t1 o sc mo s := rfl
  have key : ∀ {sol : ErkOutput F n}, sol.calls = s.sol.calls ++ l → elog sol = (elog s.sol).add (l.map fun p => .fn p.1 p.2) := fun {sol} h => by
    simp [elog, CallLog.add, funsOf_map, jacsOf_map, h]
  refine ⟨l.map fun p => .fn p.1 p.2, ?_, ?_, ?_⟩
  · rw [← List.append_nil (l.map _)]
    refine h3.bind hg ?_
    by_cases h5 : o.adaptive ∧ sc.b2.length ≠ sc.ns
    · rw [if_pos h5, if_pos h5]; exact Driven.lift _
    rw [if_neg h5, if_neg h5]
    rw [stageLoop_fold, hat]
    dsimp only
    split
    · exact Driven.lift _
    split
    · exact Driven.lift _
    split
    · exact Driven.pure _
    · exact Driven.pure _
  · intro s' hs'
    split at hs'
    · cases hs'
    dsimp only at hs'
    split at hs'
    · cases hs'
    split at hs'
    · cases hs'
    split at hs'
    · cases hs'
      exact key ((hline _ _).trans hcalls)
    · cases hs'
      exact key ((hline _ _).trans hcalls)
  · intro r hr
    split at hr
    · cases hr
    dsimp only at hr
    split at hr
    · cases hr
    split at hr
    · cases hr
    split at hr <;> cases hr

theorem erkInitE_driven (hg : Transparent g f I) (t0 : F) (y0 : Vec F n) (dt : F) (sc : SolverCoeffs F) :
    Driven g I (erkInitE g.fn t0 y0 dt sc) (.ret (erkInit f.fn t0 y0 dt sc)) ((erkInit f.fn t0 y0 dt sc).sol.calls.map fun p => .fn p.1 p.2) := by
  unfold erkInitE erkInit
  by_cases h : sc.fsal = true
  · simp only [h, if_true]
    exact (evalFunE_driven hg t0 y0 _).bind (d := []) hg (Driven.pure _)
  · simp only [h]
    exact Driven.pure _

theorem erkGutsE_driven (hg : Transparent g f I) (nd : Bool) (t0 t1 : F) (y0 : Vec F n) (o : ErkOpts F) (dt : F) (sc : SolverCoeffs F)
    (oo : OutOpts) (fuel : ℕ) : ∃ c, (∀ s, I s → erkGutsE nd g.fn t0 t1 y0 o dt sc oo fuel s = after (g.feed c s) fun s' =>
        (erkGuts nd f.fn t0 t1 y0 o dt sc oo fuel).map fun x => x.bind fun r => .ret (r, s')) ∧
      ∀ r, erkGuts nd f.fn t0 t1 y0 o dt sc oo fuel = some (.ret r) → c = r.calls.map fun p => .fn p.1 p.2 := by
  unfold erkGutsE erkGuts
  dsimp only
  split
  · exact ⟨[], fun _ _ => rfl, fun r h => by cases h⟩
  cases minOrder sc with
  | none => exact ⟨[], fun _ _ => rfl, fun r h => by cases h⟩
  | some mo =>
    obtain ⟨c, h1, h2⟩ := loop_driven hg (fun s : ErkState F n => elog s.sol) elog (erkBodyE_driven hg nd t1 o oo sc mo) fuel
      (erkInit f.fn t0 y0 (clipDt t0 t1 dt) sc)
    have h0 := erkInitE_driven hg t0 y0 (clipDt t0 t1 dt) sc
    refine ⟨((erkInit f.fn t0 y0 (clipDt t0 t1 dt) sc).sol.calls.map fun p => .fn p.1 p.2) ++ c, fun s hs => ?_, fun r hr => ?_⟩
    · dsimp only [initLoopE]
      rw [h0 s hs, feed_append]
      cases hc : g.feed ((erkInit f.fn t0 y0 (clipDt t0 t1 dt) sc).sol.calls.map fun p => .fn p.1 p.2) s with
      | ret s' => exact h1 s' (feed_inv hg _ hs hc)
      | _ => rfl
    · have hl := h2 r hr
      simp only [elog, CallLog.add, CallLog.mk.injEq, List.nil_append] at hl
      rw [hl.1, List.map_append, ← calls_of_no_jac c hl.2.symm]

/-- **C121 (explicit methods).**  For a functor with effects the run makes the calls of the pure run, in order, and nothing else touches the functor:
if a call does not return, the run ends the way the call does; otherwise the result is that of the pure run, and the functor's state is the one after
these calls.  The equation holds for runs that are not finished as well. -/
theorem C121_erk (hg : Transparent g f I) (nd : Bool) (t0 t1 : F) (y0 : Vec F n) (o : ErkOpts F) (oo : OutOpts) (m : ℤ) (dt : F) (fuel : ℕ) :
    ∃ c : List (UserCall F n), (∀ s, I s → erkOdeintE nd g.fn t0 t1 y0 o oo m dt fuel s = after (g.feed c s) fun s' =>
        (erkOdeint nd f.fn t0 t1 y0 o oo m dt fuel).map fun x => x.bind fun out => .ret (out, s')) ∧
      ∀ out, erkOdeint nd f.fn t0 t1 y0 o oo m dt fuel = some (.ret out) → c = out.calls.map fun p => .fn p.1 p.2 := by
  unfold erkOdeintE erkOdeint
  dsimp only
  split
  · exact ⟨[], fun _ _ => rfl, fun r h => by cases h⟩
  · exact erkGutsE_driven hg nd t0 t1 y0 _ dt _ oo fuel

end erk

/-! ### The implicit integrator -/

section irk
variable {S : Type} {F : Type} [Add F] [Sub F] [Mul F] [Div F] [Neg F] [Scalar F] {n : ℕ} {g : EffFun S F n} {f : OdeFun F n} {I : S → Prop}

theorem collectE_driven (hg : Transparent g f I) (sc : SolverCoeffs F) (t dt : F) (y : Vec F n) (Y : Vec F (sc.ns * n)) (is : List (Fin sc.ns))
    (V : Fin sc.ns → Vec F n) : Driven g I (collectE g.fn sc t dt y Y is V)
      (.ret fun i => if i ∈ is then f.fn (stageArgI sc t dt y Y i).1 (stageArgI sc t dt y Y i).2 else V i)
      (is.map fun i => .fn (stageArgI sc t dt y Y i).1 (stageArgI sc t dt y Y i).2) := by
  induction is generalizing V with
  | nil =>
    have := Driven.pure (g := g) (I := I) V
    simpa [collectE] using this
  | cons i is ih =>
    refine (Driven.fn hg _ _).bind (c := [_]) hg ?_
    have := ih (Function.update V i (f.fn (stageArgI sc t dt y Y i).1 (stageArgI sc t dt y Y i).2))
    convert this using 2
    funext j
    by_cases h1 : j ∈ is
    · simp [h1]
    · by_cases h2 : j = i
      · subst h2; simp [h1]
      · simp [h1, h2]

theorem funsOf_stage (sc : SolverCoeffs F) (t dt : F) (y : Vec F n) (Y : Vec F (sc.ns * n)) :
    funsOf ((List.finRange sc.ns).map fun i => (.fn (stageArgI sc t dt y Y i).1 (stageArgI sc t dt y Y i).2 : UserCall F n)) = constructCalls sc t dt y Y ∧
    jacsOf ((List.finRange sc.ns).map fun i => (.fn (stageArgI sc t dt y Y i).1 (stageArgI sc t dt y Y i).2 : UserCall F n)) = [] := by
  have := funsOf_map (constructCalls sc t dt y Y)
  have h2 := jacsOf_map (constructCalls sc t dt y Y)
  rw [constructCalls, List.map_map] at this h2
  exact ⟨this, h2⟩

/-- the calls of `construct_R` as user calls -/
def ccalls (sc : SolverCoeffs F) (t dt : F) (y : Vec F n) (Y : Vec F (sc.ns * n)) : List (UserCall F n) :=
  (List.finRange sc.ns).map fun i => .fn (stageArgI sc t dt y Y i).1 (stageArgI sc t dt y Y i).2

theorem constructRE_driven (hg : Transparent g f I) (sc : SolverCoeffs F) (t dt : F) (y : Vec F n) (Y : Vec F (sc.ns * n)) :
    Driven g I (constructRE g.fn sc t dt y Y) (.ret (constructR f.fn sc t dt y Y)) (ccalls sc t dt y Y) := by
  have h := collectE_driven hg sc t dt y Y (List.finRange sc.ns) (fun _ _ => lit 0)
  simp only [List.mem_finRange, if_true] at h
  rw [← List.append_nil (ccalls sc t dt y Y)]
  exact h.bind hg (Driven.pure _)

theorem add_ccalls (l : CallLog F n) (sc : SolverCoeffs F) (t dt : F) (y : Vec F n) (Y : Vec F (sc.ns * n)) :
    l.add (ccalls sc t dt y Y) = { l with funs := l.funs ++ constructCalls sc t dt y Y } := by
  obtain ⟨h1, h2⟩ := funsOf_stage sc t dt y Y
  simp only [CallLog.add, ccalls, h1, h2, List.append_nil]

theorem refreshJacE_driven (hg : Transparent g f I) (nd : Bool) (la : LinAlg F) (sc : SolverCoeffs F) (t dt : F) (y : Vec F n)
    (s : StageState F (sc.ns * n) n) : Driven g I (refreshJacE nd la g sc t dt y s) (refreshJac nd la f sc t dt y s) [.jac t y] ∧
      ∀ s', refreshJac nd la f sc t dt y s = .ret s' → s'.log = s.log.add [.jac t y] := by
  have hlog : ({ s.log with jacs := s.log.jacs ++ [(t, y)] } : CallLog F n) = s.log.add [.jac t y] := by simp [CallLog.add, funsOf, jacsOf]
  constructor
  · refine (Driven.jac hg t y).bind (c := [_]) (d := []) hg ?_
    unfold refreshJac
    dsimp only
    split
    · exact Driven.pure _
    · cases la.lu (stageJac sc dt (f.jac t y)) with
      | none => exact Driven.lift _
      | some lup => exact Driven.pure _
  · intro s' h
    unfold refreshJac at h
    dsimp only at h
    split at h
    · cases h; exact hlog
    · cases hl : la.lu (stageJac sc dt (f.jac t y)) with
      | none => rw [hl] at h; cases h
      | some lup => rw [hl] at h; cases h; exact hlog

/-- the log of the state or of the result -/
def slog {m : ℕ} : StageState F m n ⊕ StageResult F m n → CallLog F n
  | .inl s => s.log
  | .inr r => r.log

theorem stageStepE_driven (hg : Transparent g f I) (nd : Bool) (la : LinAlg F) (sc : SolverCoeffs F) (t dt : F) (y : Vec F n)
    (refresh : ℤ) (xtol Rtol : F) (s : StageState F (sc.ns * n) n) : ∃ c,
    Driven g I (stageStepE nd la g sc t dt y refresh xtol Rtol s) (stageStep nd la f sc t dt y refresh xtol Rtol s) c ∧
      ∀ r, stageStep nd la f sc t dt y refresh xtol Rtol s = .ret r → slog r = s.log.add c := by
  unfold stageStepE stageStep
  cases hd : stageDir la s.lup s.R with
  | assertFail => exact ⟨[], (Driven.lift _).stop (Or.inl ⟨rfl, rfl⟩), fun r h => by cases h⟩
  | throws => exact ⟨[], (Driven.lift _).stop (Or.inr (Or.inl ⟨rfl, rfl⟩)), fun r h => by cases h⟩
  | ub => exact ⟨[], (Driven.lift _).stop (Or.inr (Or.inr ⟨rfl, rfl⟩)), fun r h => by cases h⟩
  | ret dY =>
    have hR := constructRE_driven hg sc t dt y (fun p => s.Y p + lit 1 * dY p)
    have hlog := add_ccalls s.log sc t dt y (fun p => s.Y p + lit 1 * dY p)
    have fin : ∀ {k : Vec F (sc.ns * n) → Vec F (sc.ns * n) → Eff S (StageState F (sc.ns * n) n ⊕ StageResult F (sc.ns * n) n)}
        {q : Outcome (StageState F (sc.ns * n) n ⊕ StageResult F (sc.ns * n) n)},
        (∃ c, Driven g I (k dY (constructR f.fn sc t dt y (fun p => s.Y p + lit 1 * dY p))) q c ∧
          ∀ r, q = .ret r → slog r = ({ s.log with funs := s.log.funs ++ constructCalls sc t dt y (fun p => s.Y p + lit 1 * dY p) } : CallLog F n).add c) →
        ∃ c, Driven g I ((Eff.lift (.ret dY)).bind fun dY => (constructRE g.fn sc t dt y (fun p => s.Y p + lit 1 * dY p)).bind (k dY)) q c ∧
          ∀ r, q = .ret r → slog r = s.log.add c := fun {k q} ⟨c, h1, h2⟩ => by
      refine ⟨ccalls sc t dt y (fun p => s.Y p + lit 1 * dY p) ++ c, ?_, fun r hr => ?_⟩
      · exact (Driven.lift (.ret dY)).bind (c := []) hg (hR.bind hg h1)
      · rw [h2 r hr, CallLog.add_append, hlog]
    refine fin ?_
    simp only [Outcome.bind]
    by_cases h1 : (ltb (dot (constructR f.fn sc t dt y (fun p => s.Y p + lit 1 * dY p)) (constructR f.fn sc t dt y (fun p => s.Y p + lit 1 * dY p)))
        (Rtol * Rtol) || ltb (dot dY dY) (xtol * xtol)) = true
    · rw [if_pos h1, if_pos h1]
      refine ⟨[], Driven.pure _, fun r h => ?_⟩
      cases h
      rw [CallLog.add_nil]
      rfl
    rw [if_neg h1, if_neg h1]
    by_cases h2 : refresh = 0
    · rw [if_pos h2, if_pos h2]
      exact ⟨[], Driven.lift _, fun r h => by cases h⟩
    rw [if_neg h2, if_neg h2]
    by_cases hr : (s.iters : ℤ) % refresh = 0
    · rw [if_pos hr, if_pos hr]
      generalize hs1 : (StageState.mk s.iters (fun p => s.Y p + lit 1 * dY p) (constructR f.fn sc t dt y fun p => s.Y p + lit 1 * dY p) s.lup s.J _ _ :
        StageState F (sc.ns * n) n) = s1
      obtain ⟨j1, j2⟩ := refreshJacE_driven hg nd la sc t dt y s1
      refine ⟨[.jac t y], ?_, fun r h => ?_⟩
      · cases hj : refreshJac nd la f sc t dt y s1 with
        | ret s'' => rw [hj] at j1; exact j1.bind (d := []) hg (Driven.pure _)
        | assertFail => rw [hj] at j1; exact j1.stop (Or.inl ⟨rfl, rfl⟩)
        | throws => rw [hj] at j1; exact j1.stop (Or.inr (Or.inl ⟨rfl, rfl⟩))
        | ub => rw [hj] at j1; exact j1.stop (Or.inr (Or.inr ⟨rfl, rfl⟩))
      · cases hj : refreshJac nd la f sc t dt y s1 with
        | ret s'' =>
          rw [hj] at h
          cases h
          have := j2 _ hj
          rw [← hs1] at this
          exact this
        | _ => rw [hj] at h; cases h
    · rw [if_neg hr, if_neg hr]
      refine ⟨[], (Driven.pure _).bind (c := []) hg (Driven.pure _), fun r h => ?_⟩
      cases h
      rw [CallLog.add_nil]
      rfl

theorem stageIterE_driven (hg : Transparent g f I) (nd : Bool) (la : LinAlg F) (sc : SolverCoeffs F) (t dt : F) (y : Vec F n)
    (refresh : ℤ) (xtol Rtol : F) (k : ℕ) (s : StageState F (sc.ns * n) n) : ∃ c,
    Driven g I (stageIterE nd la g sc t dt y refresh xtol Rtol k s) (stageIter nd la f sc t dt y refresh xtol Rtol k s) c ∧
      ∀ r, stageIter nd la f sc t dt y refresh xtol Rtol k s = .ret r → r.log = s.log.add c := by
  induction k generalizing s with
  | zero => exact ⟨[], Driven.pure _, fun r h => by cases h; rw [CallLog.add_nil]⟩
  | succ k ih =>
    obtain ⟨c, h1, h2⟩ := stageStepE_driven hg nd la sc t dt y refresh xtol Rtol s
    unfold stageIterE stageIter
    cases hs : stageStep nd la f sc t dt y refresh xtol Rtol s with
    | assertFail => rw [hs] at h1; exact ⟨c, h1.stop (Or.inl ⟨rfl, rfl⟩), fun r h => by cases h⟩
    | throws => rw [hs] at h1; exact ⟨c, h1.stop (Or.inr (Or.inl ⟨rfl, rfl⟩)), fun r h => by cases h⟩
    | ub => rw [hs] at h1; exact ⟨c, h1.stop (Or.inr (Or.inr ⟨rfl, rfl⟩)), fun r h => by cases h⟩
    | ret r =>
      rw [hs] at h1
      have hl := h2 r hs
      cases r with
      | inr res =>
        refine ⟨c ++ [], h1.bind hg (Driven.pure _), fun r h => ?_⟩
        cases h
        rw [List.append_nil]
        exact hl
      | inl s' =>
        obtain ⟨d, h3, h4⟩ := ih s'
        refine ⟨c ++ d, h1.bind hg h3, fun r h => ?_⟩
        rw [h4 r h, CallLog.add_append, ← hl]
        rfl

theorem newtonSolveStagesE_driven (hg : Transparent g f I) (nd : Bool) (la : LinAlg F) (sc : SolverCoeffs F) (t dt : F) (y : Vec F n)
    (maxit refresh : ℤ) (xtol Rtol : F) (count : IrkCounters) (log : CallLog F n) : ∃ c,
    Driven g I (newtonSolveStagesE nd la g sc t dt y maxit refresh xtol Rtol count log)
      (newtonSolveStages nd la f sc t dt y maxit refresh xtol Rtol count log) c ∧
      ∀ r, newtonSolveStages nd la f sc t dt y maxit refresh xtol Rtol count log = .ret r → r.log = log.add c := by
  unfold newtonSolveStagesE newtonSolveStages
  dsimp only
  have hJ : ∀ J : Mat F n, refreshJac nd la f sc t dt y
      ({ iters := 1, Y := fun _ => lit 0, R := fun _ => lit 0, lup := none, J := J, count := count, log := log } : StageState F (sc.ns * n) n) =
      refreshJac nd la f sc t dt y
      ({ iters := 1, Y := fun _ => lit 0, R := fun _ => lit 0, lup := none, J := zeroMat n, count := count, log := log } : StageState F (sc.ns * n) n) :=
    fun _ => rfl
  rw [hJ]
  obtain ⟨j1, j2⟩ := refreshJacE_driven hg nd la sc t dt y
    ({ iters := 1, Y := fun _ => lit 0, R := fun _ => lit 0, lup := none, J := zeroMat n, count := count, log := log } : StageState F (sc.ns * n) n)
  cases hj : refreshJac nd la f sc t dt y
      ({ iters := 1, Y := fun _ => lit 0, R := fun _ => lit 0, lup := none, J := zeroMat n, count := count, log := log } : StageState F (sc.ns * n) n) with
  | assertFail => rw [hj] at j1; exact ⟨_, j1.stop (Or.inl ⟨rfl, rfl⟩), fun r h => by cases h⟩
  | throws => rw [hj] at j1; exact ⟨_, j1.stop (Or.inr (Or.inl ⟨rfl, rfl⟩)), fun r h => by cases h⟩
  | ub => rw [hj] at j1; exact ⟨_, j1.stop (Or.inr (Or.inr ⟨rfl, rfl⟩)), fun r h => by cases h⟩
  | ret s1 =>
    have hl := j2 s1 hj
    rw [hj] at j1
    simp only [Outcome.bind]
    by_cases h : sc.ns ≠ 0 ∧ (n = 0 ∨ sc.c.length < sc.ns)
    · rw [if_pos h]
      refine ⟨_ ++ [], j1.bind hg ?_, fun r h => by cases h⟩
      rw [if_pos h]
      exact Driven.lift _
    · rw [if_neg h]
      obtain ⟨c, h1, h2⟩ := stageIterE_driven hg nd la sc t dt y refresh xtol Rtol (maxit - 1).toNat { s1 with
          R := constructR f.fn sc t dt y (fun _ => lit 0)
          count := { s1.count with funEvals := s1.count.funEvals + sc.ns }
          log := { s1.log with funs := s1.log.funs ++ constructCalls sc t dt y (fun _ => lit 0) } }
      refine ⟨_ ++ (ccalls sc t dt y (fun _ => lit 0) ++ c), j1.bind hg ?_, fun r hr => ?_⟩
      · rw [if_neg h]
        exact (constructRE_driven hg sc t dt y _).bind hg h1
      · rw [h2 r hr, CallLog.add_append, CallLog.add_append, ← hl, add_ccalls]

theorem attemptIE_driven (hg : Transparent g f I) (la : LinAlg F) (o : IrkOpts F) (sc : SolverCoeffs F) (mo : ℕ) (d d2 : Vec F sc.ns)
    {m : ℕ} (s : IrkState F m n) (dt : F) (r : StageResult F (sc.ns * n) n) : ∃ c,
    Driven g I (attemptIE la g o sc mo d d2 s dt r)
      (match attemptI la f o sc mo d d2 s dt r with | none => .throws | some a => .ret a) c ∧
      ∀ a, attemptI la f o sc mo d d2 s dt r = some a → a.log = r.log.add c := by
  unfold attemptIE attemptI
  dsimp only
  cases h1 : la.solve (fun i j => eye n i j - sc.gamma * dt * r.J i j)
      (fun k => sc.gamma * dt * f.fn s.t s.y k + combineI sc r.Y d2 k - combineI sc r.Y d k) with
  | none =>
    refine ⟨[_], (Driven.fn hg s.t s.y).bind (d := []) hg ?_, fun a h => by cases h⟩
    dsimp only
    rw [h1]
    exact Driven.lift _
  | some e1 =>
    dsimp only
    by_cases ha : s.alt = true
    · simp only [ha, if_true]
      cases h2 : la.solve (fun i j => eye n i j - sc.gamma * dt * r.J i j)
          (fun k => sc.gamma * dt * f.fn s.t (fun k => s.y k + dt * e1 k) k + combineI sc r.Y d2 k - combineI sc r.Y d k) with
      | none =>
        refine ⟨[.fn s.t s.y, .fn s.t fun k => s.y k + dt * e1 k], (Driven.fn hg s.t s.y).bind (d := [_]) hg ?_, fun a h => by cases h⟩
        dsimp only
        rw [h1]
        refine (Driven.fn hg s.t (fun k => s.y k + dt * e1 k)).bind (d := []) hg ?_
        rw [h2]
        exact Driven.lift _
      | some e2 =>
        refine ⟨[.fn s.t s.y, .fn s.t fun k => s.y k + dt * e1 k], (Driven.fn hg s.t s.y).bind (d := [_]) hg ?_, fun a h => ?_⟩
        · dsimp only
          rw [h1]
          refine (Driven.fn hg s.t (fun k => s.y k + dt * e1 k)).bind (d := []) hg ?_
          rw [h2]
          exact Driven.pure _
        · cases h
          simp [CallLog.add, funsOf, jacsOf]
    · simp only [ha]
      refine ⟨[_], (Driven.fn hg s.t s.y).bind (d := []) hg ?_, fun a h => ?_⟩
      · rw [h1]
        exact Driven.pure _
      · cases h
        simp [CallLog.add, funsOf, jacsOf]

theorem irkBodyE_driven (hg : Transparent g f I) (nd : Bool) (la : LinAlg F) (t1 : F) (o : IrkOpts F) (no : NewtonOpts F) (oo : OutOpts)
    (sc : SolverCoeffs F) (mo : ℕ) (d d2 : Vec F sc.ns) (s : IrkState F (sc.ns * n) n) : ∃ c,
    Driven g I (irkBodyE nd la g t1 o no oo sc mo d d2 s) (irkBody nd la f t1 o no oo sc mo d d2 s).toSum c ∧
      (∀ s', irkBody nd la f t1 o no oo sc mo d d2 s = .next s' → s'.sol.log = s.sol.log.add c) ∧
      ∀ r, irkBody nd la f t1 o no oo sc mo d d2 s = .done (.ret r) → r.log = s.sol.log.add c := by
  unfold irkBodyE irkBody
  by_cases h1 : ltb s.t t1 = true
  swap
  · rw [if_neg h1, if_neg h1]
    refine ⟨[], Driven.pure _, (by rintro _ ⟨⟩), ?_⟩
    rintro r ⟨⟩
    rw [CallLog.add_nil]
  rw [if_pos h1, if_pos h1]
  dsimp only
  by_cases h2 : 0 ≤ o.maxSteps ∧ o.maxSteps < s.step
  · rw [if_pos h2, if_pos h2]
    refine ⟨[], Driven.pure _, (by rintro _ ⟨⟩), ?_⟩
    rintro r ⟨⟩
    rw [CallLog.add_nil]; rfl
  rw [if_neg h2, if_neg h2]
  obtain ⟨c, h3, h4⟩ := newtonSolveStagesE_driven hg nd la sc s.t (clipDt s.t t1 s.dt) s.y s.newtonMaxit no.refreshJac no.dxDelta no.tol
    s.sol.bump.count s.sol.log
  cases hn : newtonSolveStages nd la f sc s.t (clipDt s.t t1 s.dt) s.y s.newtonMaxit no.refreshJac no.dxDelta no.tol
      s.sol.bump.count s.sol.log with
  | assertFail => rw [hn] at h3; exact ⟨c, h3.stop (Or.inl ⟨rfl, rfl⟩), by rintro _ ⟨⟩, by rintro _ ⟨⟩⟩
  | throws => rw [hn] at h3; exact ⟨c, h3.stop (Or.inr (Or.inl ⟨rfl, rfl⟩)), by rintro _ ⟨⟩, by rintro _ ⟨⟩⟩
  | ub => rw [hn] at h3; exact ⟨c, h3.stop (Or.inr (Or.inr ⟨rfl, rfl⟩)), by rintro _ ⟨⟩, by rintro _ ⟨⟩⟩
  | ret r =>
    rw [hn] at h3
    have hl := h4 r hn
    dsimp only
    by_cases h5 : r.status ≠ 0
    · simp only [if_pos h5]
      by_cases h6 : (!o.adaptive) = true
      · simp only [if_pos h6]
        refine ⟨c ++ [], h3.bind hg ?_, (by rintro _ ⟨⟩), ?_⟩
        · simp only [if_pos h5]; exact Driven.pure _
        · rintro _ ⟨⟩
          rw [List.append_nil]; exact hl
      · simp only [if_neg h6]
        refine ⟨c ++ [], h3.bind hg ?_, ?_, (by rintro _ ⟨⟩)⟩
        · simp only [if_pos h5]; exact Driven.pure _
        · rintro _ ⟨⟩
          rw [List.append_nil]; exact hl
    simp only [if_neg h5]
    by_cases h6 : (!o.adaptive) = true
    · simp only [if_pos h6]
      refine ⟨c ++ [.fn s.t s.y], h3.bind hg ?_, (by rintro _ ⟨⟩), (by rintro _ ⟨⟩)⟩
      simp only [if_neg h5]
      exact (Driven.fn hg s.t s.y).bind (d := []) hg (Driven.lift _)
    simp only [if_neg h6]
    obtain ⟨e, h7, h8⟩ := attemptIE_driven hg la o sc mo d d2 s (clipDt s.t t1 s.dt) r.success
    cases ha : attemptI la f o sc mo d d2 s (clipDt s.t t1 s.dt) r.success with
    | none =>
      rw [ha] at h7
      refine ⟨c ++ e, h3.bind hg ?_, (by rintro _ ⟨⟩), (by rintro _ ⟨⟩)⟩
      simp only [if_neg h5]
      exact h7.stop (Or.inr (Or.inl ⟨rfl, rfl⟩))
    | some a =>
      rw [ha] at h7
      have hla : a.log = s.sol.log.add (c ++ e) := by
        rw [h8 a ha, CallLog.add_append, ← hl]; rfl
      refine ⟨c ++ (e ++ []), h3.bind hg ?_, ?_, ?_⟩
      · simp only [if_neg h5]
        refine h7.bind hg ?_
        split
        · exact Driven.lift _
        split
        · exact Driven.pure _
        split
        · exact Driven.lift _
        split
        · exact Driven.lift _
        · exact Driven.pure _
      · rw [List.append_nil]
        dsimp only
        intro s' hs'
        split at hs'
        · cases hs'
        split at hs'
        · cases hs'; exact hla
        split at hs'
        · cases hs'
        split at hs'
        · cases hs'
        · cases hs'
          rw [← hla]
          unfold acceptI
          dsimp only
          split <;> split <;> rfl
      · dsimp only
        intro s' hs'
        split at hs'
        · cases hs'
        split at hs'
        · cases hs'
        split at hs'
        · cases hs'
        split at hs' <;> cases hs'

/-- **C121 (implicit methods).**  The same for the implicit integrator, with the calls of the right-hand side and of the Jacobi matrix in the order in which they
are made. -/
theorem C121_irk (hg : Transparent g f I) (nd : Bool) (la : LinAlg F) (t0 t1 : F) (y0 : Vec F n) (o : IrkOpts F) (oo : OutOpts) (m : ℤ) (dt : F)
    (fuel : ℕ) : ∃ c : List (UserCall F n), (∀ s, I s → irkOdeintE nd la g t0 t1 y0 o oo m dt fuel s = after (g.feed c s) fun s' =>
        (irkOdeint nd la f t0 t1 y0 o oo m dt fuel).map fun x => x.bind fun out => .ret (out, s')) ∧
      ∀ out, irkOdeint nd la f t0 t1 y0 o oo m dt fuel = some (.ret out) → out.log.funs = funsOf c ∧ out.log.jacs = jacsOf c := by
  unfold irkOdeintE irkOdeint
  dsimp only
  split
  · exact ⟨[], fun _ _ => rfl, fun r h => by cases h⟩
  unfold irkGutsE irkGuts
  dsimp only
  generalize (if (o.adaptive && (irkCoeffs m : SolverCoeffs F).b2.length == 0) = true then { o with adaptive := false } else o) = o'
  cases o'.newtonOpts with
  | none =>
    refine ⟨[], fun _ _ => ?_, fun r h => ?_⟩
    · cases nd <;> rfl
    · cases nd <;> cases h
  | some no =>
    dsimp only
    split
    · exact ⟨[], fun _ _ => rfl, fun r h => by cases h⟩
    cases minOrder (irkCoeffs m : SolverCoeffs F) with
    | none => exact ⟨[], fun _ _ => rfl, fun r h => by cases h⟩
    | some mo =>
      dsimp only
      split
      · exact ⟨[], fun _ _ => rfl, fun r h => by cases h⟩
      cases la.inv (irkCoeffs m : SolverCoeffs F).mat with
      | none => exact ⟨[], fun _ _ => rfl, fun r h => by cases h⟩
      | some Ai =>
        dsimp only
        split
        · exact ⟨[], fun _ _ => rfl, fun r h => by cases h⟩
        obtain ⟨c, h1, h2⟩ := loop_driven hg (fun s : IrkState F ((irkCoeffs m : SolverCoeffs F).ns * n) n => s.sol.log) (fun r : IrkOutput F ((irkCoeffs m : SolverCoeffs F).ns * n) n => r.log)
          (irkBodyE_driven hg nd la t1 _ _ oo (irkCoeffs m) mo _ _) fuel (irkInit _ t0 y0 (clipDt t0 t1 dt) _)
        refine ⟨c, h1, fun r hr => ?_⟩
        have := h2 r hr
        simp only [irkInit, CallLog.add, List.nil_append] at this
        rw [this]
        exact ⟨rfl, rfl⟩

end irk

/-! ### Consequences -/

section corollaries
variable {S : Type} {F : Type} [Add F] [Sub F] [Mul F] [Div F] [Neg F] [Scalar F] {n : ℕ} {g : EffFun S F n} {f : OdeFun F n} {I : S → Prop}

/-- **C121 (what the run returns, explicit).**  When the run for the pure functions returns, the run for the functor with effects makes the calls of its log
and returns the same output, or ends like the first call that does not return. -/
theorem C121_erk_returns (hg : Transparent g f I) {nd : Bool} {t0 t1 : F} {y0 : Vec F n} {o : ErkOpts F} {oo : OutOpts} {m : ℤ} {dt : F} {fuel : ℕ}
    {out : ErkOutput F n} (h : erkOdeint nd f.fn t0 t1 y0 o oo m dt fuel = some (.ret out)) {s : S} (hs : I s) :
    erkOdeintE nd g.fn t0 t1 y0 o oo m dt fuel s = some ((g.feed (out.calls.map fun p => .fn p.1 p.2) s).bind fun s' => .ret (out, s')) := by
  obtain ⟨c, h1, h2⟩ := C121_erk hg nd t0 t1 y0 o oo m dt fuel
  rw [h1 s hs, h, ← h2 out h]
  cases g.feed c s <;> rfl

/-- **C121 (what the run returns, implicit).** -/
theorem C121_irk_returns (hg : Transparent g f I) {nd : Bool} {la : LinAlg F} {t0 t1 : F} {y0 : Vec F n} {o : IrkOpts F} {oo : OutOpts} {m : ℤ} {dt : F}
    {fuel : ℕ} {out : IrkOutput F ((irkCoeffs m : SolverCoeffs F).ns * n) n} (h : irkOdeint nd la f t0 t1 y0 o oo m dt fuel = some (.ret out)) :
    ∃ c : List (UserCall F n), funsOf c = out.log.funs ∧ jacsOf c = out.log.jacs ∧
      ∀ s, I s → irkOdeintE nd la g t0 t1 y0 o oo m dt fuel s = some ((g.feed c s).bind fun s' => .ret (out, s')) := by
  obtain ⟨c, h1, h2⟩ := C121_irk hg nd la t0 t1 y0 o oo m dt fuel
  refine ⟨c, (h2 out h).1.symm, (h2 out h).2.symm, fun s hs => ?_⟩
  rw [h1 s hs, h]
  cases g.feed c s <;> rfl

/-- a functor that counts the calls of its two members -/
def counting (f : OdeFun F n) : EffFun (ℕ × ℕ) F n where
  fn t y s := .ret (f.fn t y, (s.1 + 1, s.2))
  jac t y s := .ret (f.jac t y, (s.1, s.2 + 1))

theorem counting_transparent (f : OdeFun F n) : Transparent (counting f) f fun _ => True where
  fn _ h := by cases h; exact ⟨rfl, trivial⟩
  jac _ h := by cases h; exact ⟨rfl, trivial⟩

theorem counting_feed (f : OdeFun F n) (c : List (UserCall F n)) (s : ℕ × ℕ) :
    (counting f).feed c s = .ret (s.1 + (funsOf c).length, s.2 + (jacsOf c).length) := by
  induction c generalizing s with
  | nil => rfl
  | cons a c ih =>
    cases a with
    | fn t y =>
      show (counting f).feed c (s.1 + 1, s.2) = _
      rw [ih]
      simp only [funsOf, jacsOf, List.length_cons]
      congr 2
      omega
    | jac t y =>
      show (counting f).feed c (s.1, s.2 + 1) = _
      rw [ih]
      simp only [funsOf, jacsOf, List.length_cons]
      congr 2
      omega

/-- **C121 (counting functors).**  A functor that counts its calls and starts at zero ends with the numbers the output reports. -/
theorem C121_erk_counting (f : OdeFun F n) {nd : Bool} {t0 t1 : F} {y0 : Vec F n} {o : ErkOpts F} {oo : OutOpts} {m : ℤ} {dt : F} {fuel : ℕ}
    {out : ErkOutput F n} (h : erkOdeint nd f.fn t0 t1 y0 o oo m dt fuel = some (.ret out)) :
    erkOdeintE nd (counting f).fn t0 t1 y0 o oo m dt fuel (0, 0) = some (.ret (out, (out.funEvals, 0))) := by
  rw [C121_erk_returns (counting_transparent f) h trivial, counting_feed, funsOf_map, jacsOf_map]
  have hc : out.funEvals = out.calls.length := by
    unfold erkOdeint at h
    dsimp only at h
    split at h
    · cases h
    · exact (C14_counters h).1
  simp [Outcome.bind, hc]

theorem C121_irk_counting (f : OdeFun F n) {nd : Bool} {la : LinAlg F} {t0 t1 : F} {y0 : Vec F n} {o : IrkOpts F} {oo : OutOpts} {m : ℤ} {dt : F}
    {fuel : ℕ} {out : IrkOutput F ((irkCoeffs m : SolverCoeffs F).ns * n) n} (h : irkOdeint nd la f t0 t1 y0 o oo m dt fuel = some (.ret out)) :
    irkOdeintE nd la (counting f) t0 t1 y0 o oo m dt fuel (0, 0) = some (.ret (out, (out.count.funEvals, out.count.jacEvals))) := by
  obtain ⟨c, h1, h2, h3⟩ := C121_irk_returns (counting_transparent f) h
  rw [h3 _ trivial, counting_feed, h1, h2]
  have hc : out.count.funEvals = out.log.funs.length ∧ out.count.jacEvals = out.log.jacs.length := by
    unfold irkOdeint at h
    dsimp only at h
    split at h
    · cases h
    · exact C39_calls h
  simp [Outcome.bind, hc]

open Classical in
/-- a functor that throws outside a domain -/
noncomputable def guarded (f : OdeFun F n) (D : F → Vec F n → Prop) : EffFun Unit F n where
  fn t y s := if D t y then .ret (f.fn t y, s) else .throws
  jac t y s := if D t y then .ret (f.jac t y, s) else .throws

theorem guarded_transparent (f : OdeFun F n) (D : F → Vec F n → Prop) : Transparent (guarded f D) f fun _ => True where
  fn {s t y v s'} _ h := by
    dsimp only [guarded] at h
    split at h <;> cases h
    exact ⟨rfl, trivial⟩
  jac {s t y v s'} _ h := by
    dsimp only [guarded] at h
    split at h <;> cases h
    exact ⟨rfl, trivial⟩

theorem guarded_feed (f : OdeFun F n) (D : F → Vec F n → Prop) (c : List (UserCall F n)) :
    ((∀ p ∈ funsOf c, D p.1 p.2) ∧ (∀ p ∈ jacsOf c, D p.1 p.2) → (guarded f D).feed c () = .ret ()) ∧
    ((∃ p ∈ funsOf c, ¬ D p.1 p.2) ∨ (∃ p ∈ jacsOf c, ¬ D p.1 p.2) → (guarded f D).feed c () = .throws) := by
  induction c with
  | nil => exact ⟨fun _ => rfl, fun h => by simp [funsOf, jacsOf] at h⟩
  | cons a c ih =>
    cases a with
    | fn t y =>
      by_cases hd : D t y
      · have e : (guarded f D).feed (.fn t y :: c) () = (guarded f D).feed c () := by simp [EffFun.feed, EffFun.call, guarded, hd, Outcome.bind]
        rw [e]
        simpa [funsOf, jacsOf, hd] using ih
      · have e : (guarded f D).feed (.fn t y :: c) () = .throws := by simp [EffFun.feed, EffFun.call, guarded, hd, Outcome.bind]
        rw [e]
        exact ⟨fun h => absurd (h.1 (t, y) (by simp [funsOf])) hd, fun _ => rfl⟩
    | jac t y =>
      by_cases hd : D t y
      · have e : (guarded f D).feed (.jac t y :: c) () = (guarded f D).feed c () := by simp [EffFun.feed, EffFun.call, guarded, hd, Outcome.bind]
        rw [e]
        simpa [funsOf, jacsOf, hd] using ih
      · have e : (guarded f D).feed (.jac t y :: c) () = .throws := by simp [EffFun.feed, EffFun.call, guarded, hd, Outcome.bind]
        rw [e]
        exact ⟨fun h => absurd (h.2 (t, y) (by simp [jacsOf])) hd, fun _ => rfl⟩

/-- **C121 (exceptions).**  A functor that throws outside a domain: the exception leaves `odeint` exactly when the run for the unguarded functions makes a
call outside the domain; otherwise the output is the same. -/
theorem C121_erk_exceptions (f : OdeFun F n) (D : F → Vec F n → Prop) {nd : Bool} {t0 t1 : F} {y0 : Vec F n} {o : ErkOpts F} {oo : OutOpts} {m : ℤ} {dt : F}
    {fuel : ℕ} {out : ErkOutput F n} (h : erkOdeint nd f.fn t0 t1 y0 o oo m dt fuel = some (.ret out)) :
    ((∀ p ∈ out.calls, D p.1 p.2) → erkOdeintE nd (guarded f D).fn t0 t1 y0 o oo m dt fuel () = some (.ret (out, ()))) ∧
    ((∃ p ∈ out.calls, ¬ D p.1 p.2) → erkOdeintE nd (guarded f D).fn t0 t1 y0 o oo m dt fuel () = some .throws) := by
  rw [C121_erk_returns (guarded_transparent f D) h trivial]
  have := guarded_feed f D (out.calls.map fun p => .fn p.1 p.2)
  rw [funsOf_map, jacsOf_map] at this
  exact ⟨fun hd => by rw [this.1 ⟨hd, by simp⟩]; rfl, fun hd => by rw [this.2 (Or.inl hd)]; rfl⟩

theorem C121_irk_exceptions (f : OdeFun F n) (D : F → Vec F n → Prop) {nd : Bool} {la : LinAlg F} {t0 t1 : F} {y0 : Vec F n} {o : IrkOpts F} {oo : OutOpts}
    {m : ℤ} {dt : F} {fuel : ℕ} {out : IrkOutput F ((irkCoeffs m : SolverCoeffs F).ns * n) n}
    (h : irkOdeint nd la f t0 t1 y0 o oo m dt fuel = some (.ret out)) :
    ((∀ p ∈ out.log.funs, D p.1 p.2) ∧ (∀ p ∈ out.log.jacs, D p.1 p.2) →
      irkOdeintE nd la (guarded f D) t0 t1 y0 o oo m dt fuel () = some (.ret (out, ()))) ∧
    ((∃ p ∈ out.log.funs, ¬ D p.1 p.2) ∨ (∃ p ∈ out.log.jacs, ¬ D p.1 p.2) →
      irkOdeintE nd la (guarded f D) t0 t1 y0 o oo m dt fuel () = some .throws) := by
  obtain ⟨c, h1, h2, h3⟩ := C121_irk_returns (guarded_transparent f D) h
  rw [h3 _ trivial]
  have := guarded_feed f D c
  rw [h1, h2] at this
  exact ⟨fun hd => by rw [this.1 hd]; rfl, fun hd => by rw [this.2 hd]; rfl⟩

end corollaries

/-- one Euler step with a counting functor: one call -/
example : ∃ fuel out, erkOdeintE (F := ℝ) (n := 1) false (counting ⟨fun _ _ _ => 1, fun _ _ _ _ => 0⟩).fn 0 1 (fun _ => 0)
    { adaptive := false, relTol := 1, absTol := 1, maxDt := 0, maxSteps := -1 } OutOpts.dflt 100 1 fuel (0, 0) = some (.ret (out, (out.funEvals, 0))) := by
  obtain ⟨fuel, out, h, -, -⟩ := euler_one_step (-1) (Or.inl (by norm_num)) OutOpts.dflt (fun h => by revert h; decide)
  exact ⟨fuel, out, C121_erk_counting (f := ⟨fun _ _ _ => 1, fun _ _ _ _ => 0⟩) h⟩

/-- the stiff exchange problem with the implicit integrator and a counting functor -/
example : ∃ fuel out, irkOdeintE (F := ℝ) false laReal (counting exchange) 0 10 ![1, 2] exchangeOpts bothOutputs 211 (1 / 2) fuel (0, 0) =
    some (.ret (out, (out.count.funEvals, out.count.jacEvals))) := by
  obtain ⟨fuel, out, h, -⟩ := exchange_run
  refine ⟨fuel, out, C121_irk_counting _ ?_⟩
  have hv : irkVerify (irkCoeffs 211 : SolverCoeffs ℝ) = true := (C08_irk 211).mpr (by decide)
  have hb : ((irkCoeffs 211 : SolverCoeffs ℝ).b2.length == 0) = false := rfl
  simp only [irkOdeint, hv, hb, Bool.and_false, Bool.not_true, Bool.not_false, Bool.false_eq_true, if_false]
  exact h

end Verif
