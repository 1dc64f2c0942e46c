import Verif.EffectsMs
import Verif.Prop.Effects
import Verif.Prop.Multistep

/-!
# C122: functors with effects in the Newton solver and in the multistep integrators
-/

set_option linter.unusedSectionVars false

namespace Verif

section
variable {S : Type} {F : Type} {n : ℕ} {g : EffFun S F n} {f : OdeFun F n} {I : S → Prop}

/-- the numbers of calls of the two members -/
def callCount (c : List (UserCall F n)) : ℕ × ℕ := ((funsOf c).length, (jacsOf c).length)

theorem callCount_append (c d : List (UserCall F n)) : callCount (c ++ d) = callCount c + callCount d := by
  simp [callCount, funsOf_append, jacsOf_append]

/-- Loops: as `loop_driven`, with the numbers of calls instead of a log. -/
theorem loop_counted (hg : Transparent g f I) {T R : Type} {body : T → LoopStep T R} {bodyE : T → Eff S (T ⊕ R)} (μ : T → ℕ × ℕ) (ρ : R → ℕ × ℕ)
    (hb : ∀ t, ∃ c, Driven g I (bodyE t) (body t).toSum c ∧ (∀ t', body t = .next t' → μ t' = μ t + callCount c) ∧
      ∀ r, body t = .done (.ret r) → ρ r = μ t + callCount c) (k : ℕ) (t : T) :
    ∃ c, (∀ s, I s → runLoopE bodyE k t s = after (g.feed c s) fun s' => (runLoop body k t).map fun x => x.bind fun r => .ret (r, s')) ∧
      ∀ r, runLoop body k t = some (.ret r) → ρ r = μ t + callCount c := by
  induction k generalizing t with
  | zero => exact ⟨[], fun s _ => rfl, fun r h => by cases h⟩
  | succ k ih =>
    obtain ⟨c, h1, h2, h3⟩ := hb t
    cases hbt : body t with
    | next t' =>
      obtain ⟨d, h4, h5⟩ := ih t'
      refine ⟨c ++ d, fun s hs => ?_, fun r hr => ?_⟩
      · simp only [runLoopE, runLoop, hbt]
        rw [h1 s hs, hbt, feed_append]
        cases hc : g.feed c s with
        | ret s' => exact h4 s' (feed_inv hg c hs hc)
        | _ => rfl
      · simp only [runLoop, hbt] at hr
        rw [h5 r hr, h2 t' hbt, callCount_append, add_assoc]
    | done o =>
      refine ⟨c, fun s hs => ?_, fun r hr => ?_⟩
      · simp only [runLoopE, runLoop, hbt]
        rw [h1 s hs, hbt]
        cases hc : g.feed c s with
        | ret s' => cases o <;> rfl
        | _ => rfl
      · simp only [runLoop, hbt, Option.some.injEq] at hr
        subst hr
        exact h3 r hbt

end

section newton
variable {S : Type} {F : Type} [Add F] [Sub F] [Mul F] [Div F] [Neg F] [Scalar F] {n : ℕ} {g : EffFun S F n} {f : OdeFun F n} {I : S → Prop}

/-- a Newton functor with effects that answers like `p`, with one call of the user's functor for each of its own -/
structure DrivenN (g : EffFun S F n) (I : S → Prop) (h : EffNFun S F n) (p : NFun F n) : Prop where
  fn : ∀ y, ∃ c, Driven g I (h.fn y) (.ret (p.fn y)) c ∧ callCount c = (1, 0)
  jac : ∀ y, ∃ c, Driven g I (h.jac y) (.ret (p.jac y)) c ∧ callCount c = (0, 1)

theorem newtonBodyE_driven (hg : Transparent g f I) {h : EffNFun S F n} {p : NFun F n} (hp : DrivenN g I h p) (la : LinAlg F) (x : Vec F n)
    (o : NewtonOpts F) (fl : NewtonFlags) (st0 : NewtonStatus F) (t : NewtonState F n) :
    ∃ c, Driven g I (newtonBodyE la h x o fl st0 t) (newtonBody la p x o fl st0 t).toSum c ∧
      (∀ t', newtonBody la p x o fl st0 t = .next t' → (t'.funCalls, t'.jacCalls) = (t.funCalls, t.jacCalls) + callCount c) ∧
      ∀ r, newtonBody la p x o fl st0 t = .done (.ret r) → (r.2.funCalls, r.2.jacCalls) = (t.funCalls, t.jacCalls) + callCount c := by
  unfold newtonBodyE newtonBody
  by_cases h1 : t.term = false ∧ (t.iters : ℤ) < o.maxit
  · simp only [if_pos h1]
    cases hd : newtonDir la fl t with
    | none =>
      refine ⟨[], Driven.pure _, ?_, ?_⟩
      · intro t' h; cases h
      · intro r h; cases h; rfl
    | some ld =>
      obtain ⟨lup, d⟩ := ld
      dsimp only
      by_cases h2 : fl.refresh ≠ 0
      · simp only [if_pos h2]
        obtain ⟨c1, e1, k1⟩ := hp.jac fun i => t.xn i + newtonLambda fl t.res2 * limitDir (maxStep2 o) (newtonLambda fl t.res2) d i
        obtain ⟨c2, e2, k2⟩ := hp.fn fun i => t.xn i + newtonLambda fl t.res2 * limitDir (maxStep2 o) (newtonLambda fl t.res2) d i
        refine ⟨c1 ++ (c2 ++ []), e1.bind hg (e2.bind hg (Driven.pure _)), ?_, ?_⟩
        · intro t' h; cases h
          rw [callCount_append, callCount_append, k1, k2]
          simp [callCount, funsOf, jacsOf]
        · intro r h; cases h
      · simp only [if_neg h2]
        obtain ⟨c2, e2, k2⟩ := hp.fn fun i => t.xn i + newtonLambda fl t.res2 * limitDir (maxStep2 o) (newtonLambda fl t.res2) d i
        refine ⟨[] ++ (c2 ++ []), (Driven.pure _).bind hg (e2.bind hg (Driven.pure _)), ?_, ?_⟩
        · intro t' h; cases h
          rw [callCount_append, callCount_append, k2]
          simp [callCount, funsOf, jacsOf]
        · intro r h; cases h
  · simp only [if_neg h1]
    refine ⟨[], Driven.pure _, ?_, ?_⟩
    · intro t' h; cases h
    · intro r h; cases h; rfl

/-- **C122 (the Newton solver).**  The solver calls the functor as often as its counters say, lets every exception of the functor through, and is otherwise
not influenced by its state. -/
theorem C122_newton (hg : Transparent g f I) {h : EffNFun S F n} {p : NFun F n} (hp : DrivenN g I h p) (la : LinAlg F) (x : Vec F n) (o : NewtonOpts F)
    (st0 : NewtonStatus F) (quiet : Bool) :
    ∃ c, (∀ s, I s → newtonIterateE la h x o st0 quiet s = after (g.feed c s) fun s' =>
        (newtonIterate la p x o st0 quiet).map fun r => r.bind fun a => .ret (a, s')) ∧
      (1 ≤ (funsOf c).length ∧ 1 ≤ (jacsOf c).length) ∧
      ∀ r, newtonIterate la p x o st0 quiet = some (.ret r) → (r.2.funCalls, r.2.jacCalls) = callCount c := by
  unfold newtonIterateE newtonIterate newtonImpl
  dsimp only
  obtain ⟨c1, e1, k1⟩ := hp.fn x
  obtain ⟨c2, e2, k2⟩ := hp.jac x
  have h0 : Driven g I (newtonInitE la h x (newtonSwitch (newtonBits o quiet))) (.ret (newtonInit la p x (newtonSwitch (newtonBits o quiet))))
      (c1 ++ (c2 ++ [])) := e1.bind hg (e2.bind hg (Driven.pure _))
  obtain ⟨c, h1, h2⟩ := loop_counted hg (fun s : NewtonState F n => (s.funCalls, s.jacCalls)) (fun r : Vec F n × NewtonStatus F => (r.2.funCalls, r.2.jacCalls))
    (newtonBodyE_driven hg hp la x o (newtonSwitch (newtonBits o quiet)) st0) (o.maxit.toNat + 1)
    (newtonInit la p x (newtonSwitch (newtonBits o quiet)))
  have kc : callCount (c1 ++ (c2 ++ []) ++ c) = (1, 1) + callCount c := by
    rw [callCount_append, callCount_append, callCount_append, k1, k2]
    simp [callCount, funsOf, jacsOf]
  refine ⟨(c1 ++ (c2 ++ [])) ++ c, fun s hs => ?_, ?_, fun r hr => ?_⟩
  · dsimp only [initLoopE]
    clear kc
    generalize c1 ++ (c2 ++ []) = c0 at h0
    rw [h0 s hs, feed_append]
    cases hc : g.feed c0 s with
    | ret s' => exact h1 s' (feed_inv hg _ hs hc)
    | _ => rfl
  · have a := congrArg Prod.fst kc
    have b := congrArg Prod.snd kc
    simp only [callCount, Prod.fst_add, Prod.snd_add] at a b
    omega
  · rw [h2 r hr, kc]
    rfl

end newton

section multistep
variable {S : Type} {F : Type} [Add F] [Sub F] [Mul F] [Div F] [Neg F] [Scalar F] {n : ℕ} {g : EffFun S F n} {f : OdeFun F n} {I : S → Prop}

theorem bindO_after {A B : Type} (o : Outcome S) (k : S → Option (Outcome (A × S))) (m : A → S → Option (Outcome (B × S))) :
    bindO (after o k) m = after o fun s => bindO (k s) m := by
  cases o <;> rfl

theorem after_after {A B C : Type} (o : Outcome A) (m : A → Outcome B) (k : B → Option (Outcome C)) :
    after o (fun a => after (m a) k) = after (o.bind m) k := by
  cases o <;> rfl

theorem after_congr {A B : Type} {o : Outcome A} {k m : A → Option (Outcome B)} (h : ∀ a, o = .ret a → k a = m a) : after o k = after o m := by
  cases o with
  | ret a => exact h a rfl
  | _ => rfl

theorem bootIterE_driven (hg : Transparent g f I) (nd : Bool) (la : LinAlg F) (fuel : ℕ) (dt : F) (k : ℕ) (t : F) (y : Vec F n) :
    ∃ c, ∀ s, I s → bootIterE nd la g fuel dt k t y s = after (g.feed c s) fun s' =>
      (bootIter nd la f fuel dt k t y).map fun r => r.bind fun a => .ret (a, s') := by
  induction k generalizing t y with
  | zero => exact ⟨[], fun s _ => rfl⟩
  | succ k ih =>
    obtain ⟨c, h1, -⟩ := C121_irk hg nd la t (t + dt) y bootOpts bootOut 232 (lit (1 / 10 ^ 6)) fuel
    unfold bootIterE bootIter bootRun
    cases hr : irkOdeint nd la f t (t + dt) y bootOpts bootOut 232 (lit (1 / 10 ^ 6)) fuel with
    | none =>
      refine ⟨c, fun s hs => ?_⟩
      rw [h1 s hs, hr, bindO_after]
      rfl
    | some o =>
      cases o with
      | ret out =>
        dsimp only
        by_cases hl : out.tVals.length = 0
        · simp only [if_pos hl]
          refine ⟨c, fun s hs => ?_⟩
          rw [h1 s hs, hr, bindO_after]
          refine after_congr fun s' _ => ?_
          simp [bindO, Outcome.bind, hl]
        · simp only [if_neg hl]
          cases hy : out.yVals[out.tVals.length - 1]? with
          | none =>
            refine ⟨c, fun s hs => ?_⟩
            rw [h1 s hs, hr, bindO_after]
            refine after_congr fun s' _ => ?_
            simp [bindO, Outcome.bind, hl, hy]
          | some y' =>
            obtain ⟨d, h2⟩ := ih (t + dt) y'
            refine ⟨c ++ d, fun s hs => ?_⟩
            rw [h1 s hs, hr, bindO_after, feed_append, ← after_after]
            refine after_congr fun s' hs' => ?_
            simp only [Option.map_some, Outcome.bind, bindO, if_neg hl, hy]
            rw [h2 s' (feed_inv hg c hs hs')]
            cases g.feed d s' with
            | ret s'' =>
              simp only [after]
              cases bootIter nd la f fuel dt k (t + dt) y' with
              | none => rfl
              | some o => cases o <;> rfl
            | _ => rfl
      | _ =>
        refine ⟨c, fun s hs => ?_⟩
        rw [h1 s hs, hr, bindO_after]
        rfl

/-- the bootstrap makes a list of calls and nothing else with the functor -/
theorem bootstrapE_driven (hg : Transparent g f I) (nd : Bool) (la : LinAlg F) (fuel : ℕ) (order : ℤ) (y : Vec F n) (t dt : F) :
    ∃ c, ∀ s, I s → bootstrapE nd la g fuel order y t dt s = after (g.feed c s) fun s' =>
      (bootstrap nd la f fuel order y t dt).map fun r => r.bind fun a => .ret (a, s') := by
  obtain ⟨c, h⟩ := bootIterE_driven hg nd la fuel dt (order - 1).toNat t y
  refine ⟨c, fun s hs => ?_⟩
  unfold bootstrapE bootstrap
  rw [h s hs, bindO_after]
  refine after_congr fun s' _ => ?_
  cases bootIter nd la f fuel dt (order - 1).toNat t y with
  | none => rfl
  | some o => cases o <;> rfl

theorem evalOrd_driven (hg : Transparent g f I) (t : F) (h : ℕ → Vec F n) (is : List ℕ) (V : ℕ → Vec F n) :
    ∃ c, Driven g I (evalOrd g.fn t h is V) (.ret fun i => if i ∈ is then f.fn t (h i) else V i) c ∧ callCount c = (is.length, 0) := by
  induction is generalizing V with
  | nil =>
    refine ⟨[], ?_, rfl⟩
    have := Driven.pure (g := g) (I := I) V
    simpa [evalOrd] using this
  | cons i is ih =>
    obtain ⟨c, h1, h2⟩ := ih (Function.update V i (f.fn t (h i)))
    refine ⟨[.fn t (h i)] ++ c, ?_, ?_⟩
    · refine (Driven.fn hg t (h i)).bind hg ?_
      convert h1 using 2
      funext j
      by_cases k1 : j ∈ is
      · simp [k1]
      · by_cases k2 : j = i
        · subst k2; simp [k1]
        · simp [k1, k2]
    · rw [callCount_append, h2]
      simp [callCount, funsOf, jacsOf, Nat.add_comm]

/-- one read of the history -/
theorem lift_bind_driven {A B : Type} (hg : Transparent g f I) (o : Outcome A) {k : A → Eff S B} {q : A → Outcome B} {N : ℕ × ℕ}
    (h : ∀ a, o = .ret a → ∃ c, Driven g I (k a) (q a) c ∧ (∀ b, q a = .ret b → callCount c = N)) :
    ∃ c, Driven g I ((Eff.lift o).bind k) (o.bind q) c ∧ ∀ b, o.bind q = .ret b → callCount c = N := by
  cases o with
  | ret a =>
    obtain ⟨c, h1, h2⟩ := h a rfl
    exact ⟨[] ++ c, (Driven.lift (.ret a)).bind hg h1, h2⟩
  | assertFail => exact ⟨[], (Driven.lift .assertFail).stop (Or.inl ⟨rfl, rfl⟩), fun b hb => by cases hb⟩
  | throws => exact ⟨[], (Driven.lift .throws).stop (Or.inr (Or.inl ⟨rfl, rfl⟩)), fun b hb => by cases hb⟩
  | ub => exact ⟨[], (Driven.lift .ub).stop (Or.inr (Or.inr ⟨rfl, rfl⟩)), fun b hb => by cases hb⟩

/-- the order the compiler chose is an order of all calls of the expression -/
def CallOrder (ord : ℕ → List ℕ) : Prop := ∀ m, (ord m).Perm (List.range m)

theorem abStepE_driven (hg : Transparent g f I) (nd : Bool) {ord : ℕ → List ℕ} (ho : CallOrder ord) (order : ℤ) (Y : Vec F n) (t dt : F)
    (h : CBuf (Vec F n)) :
    ∃ c, Driven g I (abStepE nd g.fn ord order Y t dt h) (abStep nd f.fn order Y t dt h) c ∧
      ∀ b, abStep nd f.fn order Y t dt h = .ret b → callCount c = (if 1 ≤ order ∧ order ≤ 5 then order.toNat else 0, 0) := by
  have key : ∀ (m : ℕ) (hist : ℕ → Vec F n) (G : (ℕ → Vec F n) → Vec F n) (v : Vec F n), 
      (∀ V : ℕ → Vec F n, (∀ i < m, V i = f.fn t (hist i)) → G V = v) →
      ∃ c, Driven g I ((evalOrd g.fn t hist (ord m) fun _ _ => lit 0).bind fun V => .pure (G V)) (.ret v) c ∧ callCount c = (m, 0) := by
    intro m hist G v hG
    obtain ⟨c, h1, h2⟩ := evalOrd_driven hg t hist (ord m) fun _ _ => lit 0
    refine ⟨c ++ [], h1.bind hg ?_, ?_⟩
    · rw [hG _ fun i hi => if_pos ((ho m).mem_iff.mpr (List.mem_range.mpr hi))]
      exact Driven.pure _
    · rw [List.append_nil, h2, (ho m).length_eq, List.length_range]
  unfold abStepE abStep
  by_cases h1 : order = 1
  · subst h1
    simp only [if_true]
    refine lift_bind_driven hg _ fun h0 _ => ?_
    obtain ⟨c, e1, e2⟩ := key 1 (fun _ => h0) (fun V k => Y k + dt * V 0 k) (fun k => Y k + dt * f.fn t h0 k) fun V hV => by
      rw [hV 0 (by omega)]
    exact ⟨c, e1, fun b _ => e2⟩
  by_cases h2 : order = 2
  · subst h2
    simp only [if_neg h1, if_true]
    refine lift_bind_driven hg _ fun h0 _ => ?_
    refine lift_bind_driven hg _ fun h1 _ => ?_
    obtain ⟨c, e1, e2⟩ := key 2 (fun i => [h0, h1].getD i h0) (fun V k => Y k + dt * (abC 2 0 * V 0 k + abC 2 1 * V 1 k)) _ fun V hV => by
      rw [hV 0 (by omega), hV 1 (by omega)]
    exact ⟨c, e1, fun b _ => e2⟩
  by_cases h3 : order = 3
  · subst h3
    simp only [if_neg h1, if_neg h2, if_true]
    refine lift_bind_driven hg _ fun h0 _ => ?_
    refine lift_bind_driven hg _ fun h1 _ => ?_
    refine lift_bind_driven hg _ fun h2 _ => ?_
    obtain ⟨c, e1, e2⟩ := key 3 (fun i => [h0, h1, h2].getD i h0)
      (fun V k => Y k + dt * (abC 3 0 * V 0 k + abC 3 1 * V 1 k + abC 3 2 * V 2 k)) _ fun V hV => by
      rw [hV 0 (by omega), hV 1 (by omega), hV 2 (by omega)]
    exact ⟨c, e1, fun b _ => e2⟩
  by_cases h4 : order = 4
  · subst h4
    simp only [if_neg h1, if_neg h2, if_neg h3, if_true]
    refine lift_bind_driven hg _ fun h0 _ => ?_
    refine lift_bind_driven hg _ fun h1 _ => ?_
    refine lift_bind_driven hg _ fun h2 _ => ?_
    refine lift_bind_driven hg _ fun h3 _ => ?_
    obtain ⟨c, e1, e2⟩ := key 4 (fun i => [h0, h1, h2, h3].getD i h0)
      (fun V k => Y k + dt * (abC 4 0 * V 0 k + abC 4 1 * V 1 k + abC 4 2 * V 2 k + abC 4 3 * V 3 k)) _ fun V hV => by
      rw [hV 0 (by omega), hV 1 (by omega), hV 2 (by omega), hV 3 (by omega)]
    exact ⟨c, e1, fun b _ => e2⟩
  by_cases h5 : order = 5
  · subst h5
    simp only [if_neg h1, if_neg h2, if_neg h3, if_neg h4, if_true]
    refine lift_bind_driven hg _ fun h0 _ => ?_
    refine lift_bind_driven hg _ fun h1 _ => ?_
    refine lift_bind_driven hg _ fun h2 _ => ?_
    refine lift_bind_driven hg _ fun h3 _ => ?_
    refine lift_bind_driven hg _ fun h4 _ => ?_
    obtain ⟨c, e1, e2⟩ := key 5 (fun i => [h0, h1, h2, h3, h4].getD i h0)
      (fun V k => Y k + dt * (abC 5 0 * V 0 k + abC 5 1 * V 1 k + abC 5 2 * V 2 k + abC 5 3 * V 3 k + abC 5 4 * V 4 k)) _ fun V hV => by
      rw [hV 0 (by omega), hV 1 (by omega), hV 2 (by omega), hV 3 (by omega), hV 4 (by omega)]
    exact ⟨c, e1, fun b _ => e2⟩
  simp only [if_neg h1, if_neg h2, if_neg h3, if_neg h4, if_neg h5]
  have h6 : ¬ (1 ≤ order ∧ order ≤ 5) := by omega
  cases nd
  · exact ⟨[], Driven.lift _, fun b hb => by cases hb⟩
  · exact ⟨[], Driven.pure _, fun b _ => by rw [if_neg h6]; rfl⟩

/-- the number of calls in one step of `adams_bashforth` -/
def abCalls (order : ℤ) : ℕ := if 1 ≤ order ∧ order ≤ 5 then order.toNat else 0

theorem abBody_toSum (nd : Bool) (h : F → Vec F n → Vec F n) (t1 : F) (order : ℤ) (dt : F) (m : MsState F n) (hm : ltb m.t t1 = true) :
    (abBody nd h t1 order dt m).toSum = (abStep nd h order m.y m.t dt m.hist).bind fun y => (m.hist.pushBack y).bind fun b =>
      .ret (.inl { m with t := m.t + dt, y := y, hist := b, sol := m.sol.push (m.t + dt) y }) := by
  unfold abBody
  simp only [hm, if_true]
  cases abStep nd h order m.y m.t dt m.hist with
  | ret y =>
    dsimp only [Outcome.bind]
    cases m.hist.pushBack y <;> rfl
  | _ => rfl

theorem toSum_next {T R : Type} {l : LoopStep T R} {t : T} (h : l.toSum = .ret (.inl t)) : l = .next t := by
  cases l with
  | next t' => cases h; rfl
  | done o => cases o <;> cases h

theorem toSum_done {T R : Type} {l : LoopStep T R} {r : R} (h : l = .done (.ret r)) : l.toSum = .ret (.inr r) := by
  rw [h]; rfl

theorem abBodyE_driven (hg : Transparent g f I) (nd : Bool) {ord : ℕ → List ℕ} (ho : CallOrder ord) (t1 : F) (order : ℤ) (dt : F) (m : MsState F n) :
    ∃ c, Driven g I (abBodyE nd g.fn ord t1 order dt m) (abBody nd f.fn t1 order dt m).toSum c ∧
      (∀ m', abBody nd f.fn t1 order dt m = .next m' →
        (abCalls order * m'.sol.tVals.length, 0) = (abCalls order * m.sol.tVals.length, 0) + callCount c) ∧
      ∀ r, abBody nd f.fn t1 order dt m = .done (.ret r) → (abCalls order * r.tVals.length, 0) = (abCalls order * m.sol.tVals.length, 0) + callCount c := by
  by_cases hm : ltb m.t t1 = true
  · have e := abBody_toSum nd f.fn t1 order dt m hm
    rw [e]
    obtain ⟨c, h1, h2⟩ := abStepE_driven hg nd ho order m.y m.t dt m.hist
    unfold abBodyE
    simp only [hm, if_true]
    cases hst : abStep nd f.fn order m.y m.t dt m.hist with
    | ret y =>
      rw [hst] at h1 e
      obtain ⟨d, h3, h4⟩ := lift_bind_driven (N := (0, 0)) hg (m.hist.pushBack y)
        (k := fun b => .pure (.inl { m with t := m.t + dt, y := y, hist := b, sol := m.sol.push (m.t + dt) y }))
        (q := fun b => (.ret (.inl { m with t := m.t + dt, y := y, hist := b, sol := m.sol.push (m.t + dt) y }) : Outcome (MsState F n ⊕ MsOutput F n)))
        fun b _ => ⟨[], Driven.pure _, fun _ _ => rfl⟩
      refine ⟨c ++ d, h1.bind hg h3, fun m' hm' => ?_, fun r hr => ?_⟩
      · rw [hm'] at e
        have e2 : (m.hist.pushBack y).bind (fun b =>
          (.ret (.inl { m with t := m.t + dt, y := y, hist := b, sol := m.sol.push (m.t + dt) y }) : Outcome (MsState F n ⊕ MsOutput F n))) = .ret (.inl m') :=
          e.symm
        rw [callCount_append, h2 y hst, h4 _ e2]
        cases hp : m.hist.pushBack y with
        | ret b =>
          rw [hp] at e2
          cases e2
          rw [show (if 1 ≤ order ∧ order ≤ 5 then order.toNat else 0) = abCalls order from rfl]
          simp [MsOutput.push, Nat.mul_add]
        | _ => rw [hp] at e2; cases e2
      · rw [toSum_done hr] at e
        dsimp only [Outcome.bind] at e
        cases hp : m.hist.pushBack y <;> rw [hp] at e <;> cases e
    | assertFail =>
      rw [hst] at h1 e
      exact ⟨c, h1.stop (Or.inl ⟨rfl, rfl⟩), fun m' hm' => by (rw [hm'] at e; cases e), fun r hr => by (rw [hr] at e; cases e)⟩
    | throws =>
      rw [hst] at h1 e
      exact ⟨c, h1.stop (Or.inr (Or.inl ⟨rfl, rfl⟩)), fun m' hm' => by (rw [hm'] at e; cases e), fun r hr => by (rw [hr] at e; cases e)⟩
    | ub =>
      rw [hst] at h1 e
      exact ⟨c, h1.stop (Or.inr (Or.inr ⟨rfl, rfl⟩)), fun m' hm' => by (rw [hm'] at e; cases e), fun r hr => by (rw [hr] at e; cases e)⟩
  · unfold abBodyE abBody
    simp only [hm, Bool.false_eq_true, if_false]
    exact ⟨[], Driven.pure _, fun m' h => by (cases h), fun r h => by (cases h; rfl)⟩

/-- **C122 (Adams–Bashforth).**  The run makes the calls `c₀` of the bootstrap and then, in every step, `order` calls of the right-hand side, in the order
the compiler chose; if a call does not return, the run ends the way the call does; otherwise the result is that of the pure run. -/
theorem C122_adams_bashforth_partial (hg : Transparent g f I) (nd : Bool) (la : LinAlg F) {ord : ℕ → List ℕ} (ho : CallOrder ord) (t0 t1 : F) (y0 : Vec F n)
    (order : ℤ) (dt : F) (st0 : NewtonStatus F) (fuelB fuel : ℕ) :
    ∃ c₀ c₁ : List (UserCall F n),
      (∀ s, I s → bootstrapE nd la g fuelB order y0 t0 (clipDt t0 t1 dt) s = after (g.feed c₀ s) fun s' =>
        (bootstrap nd la f fuelB order y0 t0 (clipDt t0 t1 dt)).map fun r => r.bind fun a => .ret (a, s')) ∧
      (∀ s, I s → (nd || ltb (lit 0) (clipDt t0 t1 dt)) = true → 0 ≤ order →
        adamsBashforthE nd la g ord t0 t1 y0 order dt st0 fuelB fuel s = after (g.feed (c₀ ++ c₁) s) fun s' =>
          (adamsBashforth nd la f t0 t1 y0 order dt st0 fuelB fuel).map fun r => r.bind fun a => .ret (a, s')) ∧
      ∀ l out, bootstrap nd la f fuelB order y0 t0 (clipDt t0 t1 dt) = some (.ret l) →
        adamsBashforth nd la f t0 t1 y0 order dt st0 fuelB fuel = some (.ret out) →
        jacsOf c₁ = [] ∧ abCalls order * out.tVals.length = abCalls order * l.length + (funsOf c₁).length := by
  obtain ⟨c₀, h0⟩ := bootstrapE_driven hg nd la fuelB order y0 t0 (clipDt t0 t1 dt)
  by_cases hdt : (nd || ltb (lit 0) (clipDt t0 t1 dt)) = true
  swap
  · refine ⟨c₀, [], h0, fun s hs h => absurd h hdt, fun l out hl h => ?_⟩
    have : (!nd && !ltb (lit 0) (clipDt t0 t1 dt)) = true := by
      cases nd <;> cases hb : ltb (lit 0) (clipDt t0 t1 dt) <;> simp_all
    unfold adamsBashforth at h
    simp only [this, if_true] at h
    cases h
  have hdt' : (!nd && !ltb (lit 0) (clipDt t0 t1 dt)) = false := by
    cases nd <;> cases hb : ltb (lit 0) (clipDt t0 t1 dt) <;> simp_all
  by_cases hord : 0 ≤ order
  swap
  · refine ⟨c₀, [], h0, fun s hs _ h => absurd h hord, fun l out hl h => ?_⟩
    have : CBuf.construct (fun _ => lit 0 : Vec F n) order = .throws := by
      unfold CBuf.construct; rw [if_pos (by omega)]
    unfold adamsBashforth at h
    simp only [hdt', this] at h
    cases h
  have hb : ∃ b, CBuf.construct (fun _ => lit 0 : Vec F n) order = .ret b := by
    unfold CBuf.construct; rw [if_neg (by omega)]; exact ⟨_, rfl⟩
  obtain ⟨b, hb⟩ := hb
  unfold adamsBashforthE adamsBashforth
  simp only [hdt', hb, Bool.false_eq_true, if_false]
  cases hl : bootstrap nd la f fuelB order y0 t0 (clipDt t0 t1 dt) with
  | none =>
    refine ⟨c₀, [], by simpa only [hl] using h0, fun s hs _ _ => ?_, fun l out h => by cases h⟩
    rw [h0 s hs, hl, bindO_after, List.append_nil]
    rfl
  | some o =>
    cases o with
    | ret l =>
      dsimp only
      cases hm : msStart b l st0 with
      | ret m =>
        obtain ⟨c₁, h1, h2⟩ := loop_counted hg (fun m : MsState F n => (abCalls order * m.sol.tVals.length, 0))
          (fun r : MsOutput F n => (abCalls order * r.tVals.length, 0)) (abBodyE_driven hg nd ho t1 order (clipDt t0 t1 dt)) fuel m
        refine ⟨c₀, c₁, by simpa only [hl] using h0, fun s hs _ _ => ?_, fun l' out hl' h => ?_⟩
        · rw [h0 s hs, hl, bindO_after, feed_append, ← after_after]
          refine after_congr fun s' hs' => ?_
          simp only [Option.map_some, Outcome.bind, bindO, hm]
          exact h1 s' (feed_inv hg c₀ hs hs')
        · cases hl'
          have e := h2 out h
          have hlen : m.sol.tVals.length = l.length := by
            unfold msStart at hm
            cases hp : b.pushAll (l.map Prod.snd) with
            | ret hh =>
              rw [hp] at hm
              dsimp only at hm
              cases hgl : l.getLast? with
              | none => rw [hgl] at hm; cases hm
              | some ty => rw [hgl] at hm; cases hm; simp
            | _ => rw [hp] at hm; cases hm
          rw [hlen] at e
          have e1 := congrArg Prod.fst e
          have e2 := congrArg Prod.snd e
          simp only [callCount, Prod.fst_add, Prod.snd_add, Nat.zero_add] at e1 e2
          exact ⟨List.length_eq_zero_iff.mp e2.symm, e1⟩
      | _ =>
        refine ⟨c₀, [], by simpa only [hl] using h0, fun s hs _ _ => ?_, fun l out _ h => by cases h⟩
        rw [h0 s hs, hl, bindO_after, List.append_nil]
        refine after_congr fun s' _ => ?_
        simp only [Option.map_some, Outcome.bind, bindO, hm]
    | _ =>
      refine ⟨c₀, [], by simpa only [hl] using h0, fun s hs _ _ => ?_, fun l out h => by cases h⟩
      rw [h0 s hs, hl, bindO_after, List.append_nil]
      rfl

/-! ### bdf -/

/-- Make each of the lists of calls on a copy of the functor in state `s`: how the first call that does not return ends. -/
def copies (g : EffFun S F n) : List (List (UserCall F n)) → S → Outcome Unit
  | [], _ => .ret ()
  | c :: cs, s => (g.feed c s).bind fun _ => copies g cs s

theorem copies_append (g : EffFun S F n) (cs ds : List (List (UserCall F n))) (s : S) :
    copies g (cs ++ ds) s = (copies g cs s).bind fun _ => copies g ds s := by
  induction cs with
  | nil => rfl
  | cons c cs ih =>
    simp only [List.cons_append, copies, ih]
    cases g.feed c s <;> rfl

theorem bdfFunE_driven (hg : Transparent g f I) (w tNext : F) (c : Vec F n) : DrivenN g I (bdfFunE g w tNext c) (bdfFun f w tNext c) where
  fn y := ⟨[.fn tNext y] ++ [], by dsimp only [bdfFunE]; refine (Driven.fn hg tNext y).bind hg ?_; exact Driven.pure _, rfl⟩
  jac y := ⟨[.jac tNext y] ++ [], by dsimp only [bdfFunE]; refine (Driven.jac hg tNext y).bind hg ?_; exact Driven.pure _, rfl⟩

theorem bdfBodyE_driven (hg : Transparent g f I) (nd : Bool) (la : LinAlg F) (t1 : F) (order : ℤ) (dt : F) (m : MsState F n) :
    ∃ cs : List (List (UserCall F n)), (∀ s, I s → bdfBodyE nd la g t1 order dt m s =
        (copies g cs s).bind fun _ => (bdfBody nd la f t1 order dt m).toSum.bind fun a => .ret (a, s)) ∧
      (∀ c ∈ cs, funsOf c ≠ [] ∧ jacsOf c ≠ []) ∧
      (∀ m', bdfBody nd la f t1 order dt m = .next m' → cs.length = 1 ∧ m'.sol.tVals.length = m.sol.tVals.length + 1 ∧ m'.sol.status = m.sol.status) ∧
      ∀ r, bdfBody nd la f t1 order dt m = .done (.ret r) → r.tVals.length = m.sol.tVals.length ∧
        (cs.length = 0 ∧ r.status = m.sol.status ∨ cs.length = 1 ∧ r.status = 16) := by
  unfold bdfBodyE bdfBody
  by_cases hm : ltb m.t t1 = true
  swap
  · simp only [hm, Bool.false_eq_true, if_false]
    exact ⟨[], fun s _ => rfl, by simp, fun m' h => by (cases h), fun r h => by (cases h; exact ⟨rfl, Or.inl ⟨rfl, rfl⟩⟩)⟩
  simp only [hm, if_true]
  cases hi : bdfInterp nd order m.hist order.toNat 0 (fun _ => lit 0) with
  | ret c =>
    obtain ⟨d, h1, h2, h3⟩ := C122_newton hg (bdfFunE_driven hg (dt * bdfW order) (m.t + dt) c) la m.y bdfNewton m.newton true
    have hd : funsOf d ≠ [] ∧ jacsOf d ≠ [] := by
      constructor
      · intro h; rw [h] at h2; simp at h2
      · intro h; rw [h] at h2; simp at h2
    refine ⟨[d], fun s hs => ?_, by simpa using hd, fun m' h => ?_, fun r h => ?_⟩
    · show ((onCopy (newtonIterateE la (bdfFunE g (dt * bdfW order) (m.t + dt) c) m.y bdfNewton m.newton true)) s).bind _ = _
      unfold onCopy
      rw [h1 s hs]
      simp only [copies]
      cases g.feed d s with
      | ret s' =>
        simp only [after, Outcome.bind]
        cases newtonIterate la (bdfFun f (dt * bdfW order) (m.t + dt) c) m.y bdfNewton m.newton true with
        | none => rfl
        | some o =>
          cases o with
          | ret r =>
            simp only [Option.map_some]
            by_cases hc : r.2.conv ≠ 0
            · simp only [if_pos hc]
              rfl
            · simp only [if_neg hc]
              show ((Eff.lift (m.hist.pushBack r.1)) s).bind _ = _
              unfold Eff.lift
              cases m.hist.pushBack r.1 <;> rfl
          | _ => rfl
      | _ => rfl
    · dsimp only at h
      cases hn : newtonIterate la (bdfFun f (dt * bdfW order) (m.t + dt) c) m.y bdfNewton m.newton true with
      | none => rw [hn] at h; cases h
      | some o =>
        rw [hn] at h
        cases o with
        | ret r =>
          dsimp only at h
          split at h
          · cases h
          · cases hp : m.hist.pushBack r.1 with
            | ret b => rw [hp] at h; cases h; exact ⟨rfl, by simp [MsOutput.push], rfl⟩
            | _ => rw [hp] at h; cases h
        | _ => cases h
    · dsimp only at h
      cases hn : newtonIterate la (bdfFun f (dt * bdfW order) (m.t + dt) c) m.y bdfNewton m.newton true with
      | none => rw [hn] at h; cases h
      | some o =>
        rw [hn] at h
        cases o with
        | ret r =>
          dsimp only at h
          split at h
          · cases h
            exact ⟨rfl, Or.inr ⟨rfl, rfl⟩⟩
          · cases hp : m.hist.pushBack r.1 <;> rw [hp] at h <;> cases h
        | _ => cases h
  | _ => exact ⟨[], fun s _ => rfl, by simp, fun m' h => by (cases h), fun r h => by cases h⟩

theorem bdfLoopE_driven (hg : Transparent g f I) (nd : Bool) (la : LinAlg F) (t1 : F) (order : ℤ) (dt : F) (k : ℕ) (m : MsState F n) :
    ∃ cs : List (List (UserCall F n)), (∀ s, I s → runLoopE (bdfBodyE nd la g t1 order dt) k m s =
        after (copies g cs s) fun _ => (runLoop (bdfBody nd la f t1 order dt) k m).map fun r => r.bind fun a => .ret (a, s)) ∧
      (∀ c ∈ cs, funsOf c ≠ [] ∧ jacsOf c ≠ []) ∧
      ∀ r, runLoop (bdfBody nd la f t1 order dt) k m = some (.ret r) →
        (r.status = m.sol.status ∧ r.tVals.length = m.sol.tVals.length + cs.length ∨ r.status = 16 ∧ r.tVals.length + 1 = m.sol.tVals.length + cs.length) := by
  induction k generalizing m with
  | zero => exact ⟨[], fun s _ => rfl, by simp, fun r h => by cases h⟩
  | succ k ih =>
    obtain ⟨cs, h1, h2, h3, h4⟩ := bdfBodyE_driven hg nd la t1 order dt m
    cases hb : bdfBody nd la f t1 order dt m with
    | next m' =>
      obtain ⟨ds, e1, e2, e3⟩ := ih m'
      obtain ⟨k1, k2, k3⟩ := h3 m' hb
      refine ⟨cs ++ ds, fun s hs => ?_, ?_, fun r hr => ?_⟩
      · simp only [runLoopE, runLoop, hb]
        rw [h1 s hs, hb, copies_append]
        cases copies g cs s with
        | ret u => exact e1 s hs
        | _ => rfl
      · intro c hc
        rcases List.mem_append.mp hc with h | h
        · exact h2 c h
        · exact e2 c h
      · simp only [runLoop, hb] at hr
        have := e3 r hr
        rw [k2, k3] at this
        rw [List.length_append, k1]
        omega
    | done o =>
      refine ⟨cs, fun s hs => ?_, h2, fun r hr => ?_⟩
      · simp only [runLoopE, runLoop, hb]
        rw [h1 s hs, hb]
        cases copies g cs s with
        | ret u => cases o <;> rfl
        | _ => rfl
      · simp only [runLoop, hb, Option.some.injEq] at hr
        subst hr
        have := h4 r hb
        omega

/-- **C122 (bdf).**  The run makes the calls `c₀` of the bootstrap on the user's functor.  The Newton iterations, one for every further sample (and one that
fails, for status 16), are made on copies of the functor in the state after the bootstrap: their exceptions end the run, their effects are lost. -/
theorem C122_bdf_partial (hg : Transparent g f I) (nd : Bool) (la : LinAlg F) (t0 t1 : F) (y0 : Vec F n) {order : ℤ} (ho : 1 ≤ order) (ho6 : order ≤ 6) {dt : F}
    (hdt : (nd || ltb (lit 0) (clipDt t0 t1 dt)) = true) (st0 : NewtonStatus F) (fuelB fuel : ℕ) :
    ∃ (c₀ : List (UserCall F n)) (cs : List (List (UserCall F n))),
      (∀ s, I s → bootstrapE nd la g fuelB (order + 1) y0 t0 (clipDt t0 t1 dt) s = after (g.feed c₀ s) fun s' =>
        (bootstrap nd la f fuelB (order + 1) y0 t0 (clipDt t0 t1 dt)).map fun r => r.bind fun a => .ret (a, s')) ∧
      (∀ s, I s → bdfE nd la g t0 t1 y0 order dt st0 fuelB fuel s = after (g.feed c₀ s) fun s' => after (copies g cs s') fun _ =>
          (bdf nd la f t0 t1 y0 order dt st0 fuelB fuel).map fun r => r.bind fun a => .ret (a, s')) ∧
      (∀ c ∈ cs, funsOf c ≠ [] ∧ jacsOf c ≠ []) ∧
      ∀ l out, bootstrap nd la f fuelB (order + 1) y0 t0 (clipDt t0 t1 dt) = some (.ret l) →
        bdf nd la f t0 t1 y0 order dt st0 fuelB fuel = some (.ret out) →
        (out.status = 0 ∧ out.tVals.length = l.length + cs.length ∨ out.status = 16 ∧ out.tVals.length + 1 = l.length + cs.length) := by
  obtain ⟨c₀, h0⟩ := bootstrapE_driven hg nd la fuelB (order + 1) y0 t0 (clipDt t0 t1 dt)
  have hdt' : (!nd && !ltb (lit 0) (clipDt t0 t1 dt)) = false := by
    cases nd <;> cases hb : ltb (lit 0) (clipDt t0 t1 dt) <;> simp_all
  have hb : ∃ b, CBuf.construct (fun _ => lit 0 : Vec F n) (order + 1) = .ret b := by
    unfold CBuf.construct; rw [if_neg (by omega)]; exact ⟨_, rfl⟩
  obtain ⟨b, hb⟩ := hb
  unfold bdfE bdf
  simp only [if_neg (show ¬ 6 < order by omega), if_neg (show ¬ order ≤ 0 by omega), hdt', hb, Bool.false_eq_true, if_false]
  cases hl : bootstrap nd la f fuelB (order + 1) y0 t0 (clipDt t0 t1 dt) with
  | none =>
    refine ⟨c₀, [], by simpa only [hl] using h0, fun s hs => ?_, by simp, fun l out h => by cases h⟩
    rw [h0 s hs, hl, bindO_after]
    rfl
  | some o =>
    cases o with
    | ret l =>
      dsimp only
      cases hm : msStart b l st0 with
      | ret m =>
        obtain ⟨cs, h1, h2, h3⟩ := bdfLoopE_driven hg nd la t1 order (clipDt t0 t1 dt) fuel m
        refine ⟨c₀, cs, by simpa only [hl] using h0, fun s hs => ?_, h2, fun l' out hl' h => ?_⟩
        · rw [h0 s hs, hl, bindO_after]
          refine after_congr fun s' hs' => ?_
          simp only [Option.map_some, Outcome.bind, bindO, hm]
          exact h1 s' (feed_inv hg c₀ hs hs')
        · cases hl'
          have hlen : m.sol.tVals.length = l.length ∧ m.sol.status = 0 := by
            unfold msStart at hm
            cases hp : b.pushAll (l.map Prod.snd) with
            | ret hh =>
              rw [hp] at hm
              dsimp only at hm
              cases hgl : l.getLast? with
              | none => rw [hgl] at hm; cases hm
              | some ty => rw [hgl] at hm; cases hm; simp
            | _ => rw [hp] at hm; cases hm
          have := h3 out h
          rw [hlen.1, hlen.2] at this
          exact this
      | _ =>
        refine ⟨c₀, [], by simpa only [hl] using h0, fun s hs => ?_, by simp, fun l out _ h => by cases h⟩
        rw [h0 s hs, hl, bindO_after]
        refine after_congr fun s' _ => ?_
        simp only [Option.map_some, Outcome.bind, bindO, hm, copies, after]
    | _ =>
      refine ⟨c₀, [], by simpa only [hl] using h0, fun s hs => ?_, by simp, fun l out h => by cases h⟩
      rw [h0 s hs, hl, bindO_after]
      rfl

theorem bdfBodyE_state (nd : Bool) (la : LinAlg F) (g : EffFun S F n) (t1 : F) (order : ℤ) (dt : F) (m : MsState F n) {s s' : S}
    {r : MsState F n ⊕ MsOutput F n} (h : bdfBodyE nd la g t1 order dt m s = .ret (r, s')) : s' = s := by
  unfold bdfBodyE at h
  split at h
  · simp only [Eff.bind, Eff.lift] at h
    cases hi : bdfInterp nd order m.hist order.toNat 0 (fun _ => lit 0) with
    | ret c =>
      rw [hi] at h
      simp only [Outcome.bind, onCopy] at h
      cases hn : newtonIterateE la (bdfFunE g (dt * bdfW order) (m.t + dt) c) m.y bdfNewton m.newton true s with
      | none => rw [hn] at h; cases h
      | some o =>
        rw [hn] at h
        cases o with
        | ret a =>
          dsimp only at h
          split at h
          · cases h; rfl
          · cases hp : m.hist.pushBack a.1.1 with
            | ret b => rw [hp] at h; cases h; rfl
            | _ => rw [hp] at h; cases h
        | _ => cases h
    | _ => rw [hi] at h; cases h
  · cases h; rfl

/-- **C122 (bdf, any functor).**  Whatever the functor does: when `bdf` returns, the functor is in the state in which the bootstrap left it. -/
theorem C122_bdf_state_partial (nd : Bool) (la : LinAlg F) (g : EffFun S F n) {t0 t1 : F} {y0 : Vec F n} {order : ℤ} (ho : 1 ≤ order) (ho6 : order ≤ 6) {dt : F}
    {st0 : NewtonStatus F} {fuelB fuel : ℕ} {s s' : S} {out : MsOutput F n} (h : bdfE nd la g t0 t1 y0 order dt st0 fuelB fuel s = some (.ret (out, s'))) :
    ∃ l, bootstrapE nd la g fuelB (order + 1) y0 t0 (clipDt t0 t1 dt) s = some (.ret (l, s')) := by
  unfold bdfE at h
  simp only [if_neg (show ¬ 6 < order by omega), if_neg (show ¬ order ≤ 0 by omega)] at h
  split at h
  · cases h
  cases hb : CBuf.construct (fun _ => lit 0 : Vec F n) (order + 1) with
  | ret b =>
    rw [hb] at h
    dsimp only at h
    cases hl : bootstrapE nd la g fuelB (order + 1) y0 t0 (clipDt t0 t1 dt) s with
    | none => rw [hl] at h; cases h
    | some o =>
      rw [hl] at h
      cases o with
      | ret ls =>
        obtain ⟨l, s1⟩ := ls
        simp only [bindO] at h
        cases hm : msStart b l st0 with
        | ret m =>
          rw [hm] at h
          dsimp only at h
          refine ⟨l, ?_⟩
          suffices s' = s1 by rw [this]
          clear hm hl hb
          induction fuel generalizing m with
          | zero => cases h
          | succ k ih =>
            simp only [runLoopE] at h
            cases hbd : bdfBodyE nd la g t1 order (clipDt t0 t1 dt) m s1 with
            | ret rs =>
              obtain ⟨r, s2⟩ := rs
              have e := bdfBodyE_state nd la g t1 order (clipDt t0 t1 dt) m hbd
              subst e
              rw [hbd] at h
              cases r with
              | inl m' => exact ih m' h
              | inr r => cases h; rfl
            | _ => rw [hbd] at h; cases h
        | _ => rw [hm] at h; cases h
      | _ => cases h
  | _ => rw [hb] at h; cases h

end multistep

/-! ### The claim -/

/-- **C122 (claim).**  The multistep integrators make their calls on the user's functor: a functor that counts its calls has counted, after a run of `bdf`, at
least one call of the right-hand side for every sample after those of the bootstrap. -/
def C122_claim : Prop :=
  ∀ (n : ℕ) (f : OdeFun ℝ n) (t0 t1 : ℝ) (y0 : Vec ℝ n) (order : ℤ) (dt : ℝ) (st0 : NewtonStatus ℝ) (fuelB fuel : ℕ) (l : List (ℝ × Vec ℝ n))
    (k0 k : ℕ × ℕ) (out : MsOutput ℝ n), 1 ≤ order → order ≤ 6 →
    bootstrapE false laReal (counting f) fuelB (order + 1) y0 t0 (clipDt t0 t1 dt) (0, 0) = some (.ret (l, k0)) →
    bdfE false laReal (counting f) t0 t1 y0 order dt st0 fuelB fuel (0, 0) = some (.ret (out, k)) →
    k0.1 + (out.tVals.length - l.length) ≤ k.1

/-- copies of a counting functor never fail -/
theorem copies_counting {F : Type} [Add F] [Sub F] [Mul F] [Div F] [Neg F] [Scalar F] {n : ℕ} (f : OdeFun F n) (cs : List (List (UserCall F n))) (s : ℕ × ℕ) :
    copies (counting f) cs s = .ret () := by
  induction cs with
  | nil => rfl
  | cons c cs ih => simp only [copies, counting_feed, Outcome.bind, ih]

/-- The claim is false: ten steps of `bdf`, none of which the functor sees. -/
theorem C122_refuted : ¬ C122_claim := by
  intro hC
  obtain ⟨v, hv, -, h1⟩ := ms_example 1 (by norm_num)
  obtain ⟨fuel, out, h⟩ := h1 (by norm_num)
  have hmin : min (1 / 10 ^ 6 : ℝ) (1 / 10 ^ 5 - 0) = 1 / 10 ^ 6 := min_eq_left (by norm_num)
  have hdt : (false || ltb (lit 0) (clipDt (0 : ℝ) (1 / 10 ^ 5) (1 / 10 ^ 6))) = true := by
    rw [clipDt_real, hmin]; simp
  obtain ⟨c₀, cs, e1, e2, e3, e4⟩ := C122_bdf_partial (counting_transparent (constFun (n := 1) fun _ => v)) false laReal 0 (1 / 10 ^ 5) (fun _ => 0) (order := 1)
    (by norm_num) (by norm_num) hdt nStat 2 fuel
  have hE := e2 (0, 0) trivial
  rw [h, counting_feed] at hE
  simp only [after, copies_counting, Option.map_some, Outcome.bind] at hE
  obtain ⟨l, hl⟩ := C122_bdf_state_partial false laReal (counting (constFun (n := 1) fun _ => v)) (order := 1) (by norm_num) (by norm_num) hE
  have hpos := hC 1 _ _ _ _ 1 _ _ _ _ l _ _ out (by norm_num) (by norm_num) hl hE
  have hlen : l.length = 2 := by
    have := e1 (0, 0) trivial
    rw [hl, counting_feed] at this
    simp only [after] at this
    cases hb : bootstrap false laReal (constFun (n := 1) fun _ => v) 2 (1 + 1) (fun _ => 0) 0 (clipDt 0 (1 / 10 ^ 5) (1 / 10 ^ 6)) with
    | none => rw [hb] at this; cases this
    | some o =>
      rw [hb] at this
      cases o with
      | ret l' =>
        simp only [Option.map_some, Outcome.bind, Option.some.injEq, Outcome.ret.injEq, Prod.mk.injEq] at this
        rw [this.1]
        exact (C52_bootstrap_partial hb).1
      | _ => cases this
  have hz : Matrix.of (fun _ _ => 0 : Mat ℝ 1) = 0 := rfl
  obtain ⟨N, g1, -, -, -, g5, -⟩ := C53_bdf (by norm_num) (by norm_num) h
  have hst := (C54_affine (fn := constFun (n := 1) fun _ => v) (M := fun _ _ _ => 0) (g := fun _ _ => v) laReal_exact
    (fun t y => by funext i; simp [constFun, hz]) (fun t y => rfl) (fun t => by rw [hz]; simp) (by norm_num) (by norm_num) h).1
  have g6 := g5.mp hst
  rw [hmin] at g6
  have g7 : N - 1 ≤ 1 := by dsimp only at hpos; omega
  have g8 : ((N - 1 : ℕ) : ℝ) ≤ 1 := by exact_mod_cast g7
  norm_num at g6
  linarith

/-- `C122_adams_bashforth_partial` on a run of order 3 with a counting functor: three calls for every sample after the bootstrap, plus those of the bootstrap -/
example : ∃ v : ℝ, 0 < v ∧ ∃ fuel out k0 k, adamsBashforthE false laReal (counting (constFun (n := 1) fun _ => v)) List.range 0 (1 / 10 ^ 5) (fun _ => 0) 3
      (1 / 10 ^ 6) nStat 2 fuel (0, 0) = some (.ret (out, k)) ∧
    (∃ l, bootstrapE false laReal (counting (constFun (n := 1) fun _ => v)) 2 3 (fun _ => 0) 0 (1 / 10 ^ 6) (0, 0) = some (.ret (l, k0)) ∧ l.length = 3) ∧
    k.1 + 9 = k0.1 + 3 * out.tVals.length ∧ k.2 = k0.2 := by
  obtain ⟨v, hv, h1, -⟩ := ms_example 3 (by norm_num)
  obtain ⟨fuel, out, h⟩ := h1 (by norm_num)
  have hmin : min (1 / 10 ^ 6 : ℝ) (1 / 10 ^ 5 - 0) = 1 / 10 ^ 6 := min_eq_left (by norm_num)
  have hdt : (false || ltb (lit 0) (clipDt (0 : ℝ) (1 / 10 ^ 5) (1 / 10 ^ 6))) = true := by
    rw [clipDt_real, hmin]; simp
  obtain ⟨c₀, c₁, e1, e2, e3⟩ := C122_adams_bashforth_partial (counting_transparent (constFun (n := 1) fun _ => v)) false laReal
    (ord := List.range) (fun m => List.Perm.refl _) 0 (1 / 10 ^ 5) (fun _ => 0) 3 (1 / 10 ^ 6) nStat 2 fuel
  have hE := e2 (0, 0) trivial hdt (by norm_num)
  have hB := e1 (0, 0) trivial
  rw [h, counting_feed] at hE
  rw [counting_feed] at hB
  rw [clipDt_real, hmin] at hB e3
  simp only [after, Option.map_some, Outcome.bind] at hE hB
  cases hb : bootstrap false laReal (constFun (n := 1) fun _ => v) 2 3 (fun _ => 0) 0 (1 / 10 ^ 6 : ℝ) with
  | none =>
    unfold adamsBashforth at h
    simp only [clipDt_real, hmin, hb] at h
    split at h
    · cases h
    · rw [show CBuf.construct (fun _ => lit 0 : Vec ℝ 1) 3 = .ret ⟨3, 0, 0, List.replicate (2 * 3) (fun _ => lit 0)⟩ from rfl] at h
      cases h
  | some o =>
    cases o with
    | ret l =>
      rw [hb] at hB
      have hl := (C52_bootstrap_partial hb).1
      obtain ⟨j1, j2⟩ := e3 l out hb h
      refine ⟨v, hv, fuel, out, _, _, hE, ⟨l, hB, hl⟩, ?_, ?_⟩
      · rw [show abCalls 3 = 3 from rfl, hl] at j2
        rw [funsOf_append, List.length_append]
        show _ + 9 = _
        norm_num at j2
        omega
      · rw [jacsOf_append, j1, List.append_nil]
    | _ =>
      unfold adamsBashforth at h
      simp only [clipDt_real, hmin, hb] at h
      split at h
      · cases h
      · rw [show CBuf.construct (fun _ => lit 0 : Vec ℝ 1) 3 = .ret ⟨3, 0, 0, List.replicate (2 * 3) (fun _ => lit 0)⟩ from rfl] at h
        cases h

/-- a call order other than the written one: last call first -/
example : CallOrder fun m => (List.range m).reverse := fun _ => List.reverse_perm _

end Verif
