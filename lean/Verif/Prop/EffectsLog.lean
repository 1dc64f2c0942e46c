import Verif.Prop.Effects
import Verif.Prop.RepoTests

/-!
# C123: any functor — the log is what the functor saw

Nothing is assumed about the functor: its answers may depend on its state.
-/

set_option linter.unusedSectionVars false

namespace Verif

section
variable {S : Type} {F : Type} {n : ℕ} {g : EffFun S F n}

/-- When `m` returns `a`, it has made calls `c` of the functor, nothing else has touched the functor's state, and `P a c` holds. -/
def Triple (g : EffFun S F n) {A : Type} (m : Eff S A) (P : A → List (UserCall F n) → Prop) : Prop :=
  ∀ s a s', m s = .ret (a, s') → ∃ c, g.feed c s = .ret s' ∧ P a c

namespace Triple
variable {A B : Type}

theorem pure {a : A} {P : A → List (UserCall F n) → Prop} (h : P a []) : Triple g (Eff.pure a) P := fun s b s' e => by
  cases e; exact ⟨[], rfl, h⟩

theorem lift {o : Outcome A} {P : A → List (UserCall F n) → Prop} (h : ∀ a, o = .ret a → P a []) : Triple g (Eff.lift o) P := fun s b s' e => by
  cases o with
  | ret a => cases e; exact ⟨[], rfl, h _ rfl⟩
  | _ => cases e

theorem fn {t : F} {y : Vec F n} {P : Vec F n → List (UserCall F n) → Prop} (h : ∀ v, P v [.fn t y]) : Triple g (g.fn t y) P := fun s v s' e =>
  ⟨[.fn t y], by simp [EffFun.feed, EffFun.call, e, Outcome.bind], h v⟩

theorem jac {t : F} {y : Vec F n} {P : Mat F n → List (UserCall F n) → Prop} (h : ∀ J, P J [.jac t y]) : Triple g (g.jac t y) P := fun s v s' e =>
  ⟨[.jac t y], by simp [EffFun.feed, EffFun.call, e, Outcome.bind], h v⟩

theorem bind {m : Eff S A} {k : A → Eff S B} {P : A → List (UserCall F n) → Prop} {Q : B → List (UserCall F n) → Prop}
    (hm : Triple g m P) (hk : ∀ a c, P a c → Triple g (k a) fun b d => Q b (c ++ d)) : Triple g (m.bind k) Q := fun s b s' e => by
  change (m s).bind (fun p => k p.1 p.2) = _ at e
  cases h : m s with
  | ret p =>
    obtain ⟨a, s1⟩ := p
    rw [h] at e
    obtain ⟨c, h1, h2⟩ := hm s a s1 h
    obtain ⟨d, h3, h4⟩ := hk a c h2 s1 b s' e
    exact ⟨c ++ d, by rw [feed_append, h1]; exact h3, h4⟩
  | _ => rw [h] at e; cases e

theorem mono {m : Eff S A} {P Q : A → List (UserCall F n) → Prop} (hm : Triple g m P) (h : ∀ a c, P a c → Q a c) : Triple g m Q := fun s a s' e => by
  obtain ⟨c, h1, h2⟩ := hm s a s' e
  exact ⟨c, h1, h a c h2⟩

end Triple

/-- the invariant when a loop goes on, the postcondition when it ends; `c` are the calls made before the pass, `d` those of the pass -/
def goesOn {T R : Type} (Inv : T → List (UserCall F n) → Prop) (Post : R → List (UserCall F n) → Prop) (c : List (UserCall F n)) :
    T ⊕ R → List (UserCall F n) → Prop
  | .inl t, d => Inv t (c ++ d)
  | .inr r, d => Post r (c ++ d)

/-- loops with an invariant -/
theorem loop_triple {T R : Type} {bodyE : T → Eff S (T ⊕ R)} {Inv : T → List (UserCall F n) → Prop} {Post : R → List (UserCall F n) → Prop}
    (hb : ∀ t c, Inv t c → Triple g (bodyE t) (goesOn Inv Post c))
    {k : ℕ} {t : T} {s s' : S} {r : R} {c : List (UserCall F n)} (ht : Inv t c) (h : runLoopE bodyE k t s = some (.ret (r, s'))) :
    ∃ d, g.feed d s = .ret s' ∧ Post r (c ++ d) := by
  induction k generalizing t s c with
  | zero => cases h
  | succ k ih =>
    simp only [runLoopE] at h
    cases hbd : bodyE t s with
    | ret p =>
      obtain ⟨x, s1⟩ := p
      obtain ⟨d, h1, h2⟩ := hb t c ht s x s1 hbd
      rw [hbd] at h
      cases x with
      | inl t' =>
        obtain ⟨e, h3, h4⟩ := ih h2 h
        exact ⟨d ++ e, by rw [feed_append, h1]; exact h3, by rwa [← List.append_assoc]⟩
      | inr r' => cases h; exact ⟨d, h1, h2⟩
    | _ => rw [hbd] at h; cases h

end

/-! ### The explicit integrator -/

section erk
variable {S : Type} {F : Type} [Add F] [Sub F] [Mul F] [Div F] [Neg F] [Scalar F] {n : ℕ} {g : EffFun S F n}

theorem stageLoopE_triple (sc : SolverCoeffs F) (t dt : F) (y : Vec F n) (is : List ℕ) (Ks : ℕ → Vec F n) (sol : ErkOutput F n) :
    Triple g (stageLoopE g.fn sc t dt y is Ks sol) fun r c => c.length = is.length ∧ jacsOf c = [] ∧
      r.2 = { sol with funEvals := sol.funEvals + is.length, calls := sol.calls ++ funsOf c } := by
  induction is generalizing Ks sol with
  | nil => exact Triple.pure ⟨rfl, rfl, by simp [funsOf]⟩
  | cons i is ih =>
    refine Triple.bind (P := fun r c => c = [.fn (t + sc.cn i * dt) (stageArg sc dt y Ks i)] ∧
        r.2 = { sol with funEvals := sol.funEvals + 1, calls := sol.calls ++ [(t + sc.cn i * dt, stageArg sc dt y Ks i)] }) ?_ ?_
    · exact Triple.bind (Triple.fn (P := fun _ c => c = [.fn (t + sc.cn i * dt) (stageArg sc dt y Ks i)]) fun v => rfl)
        fun v c hc => Triple.pure ⟨by rw [hc]; rfl, rfl⟩
    · rintro ⟨v, sol'⟩ c ⟨rfl, e⟩
      dsimp only at e
      subst e
      refine (ih _ _).mono fun r d ⟨h1, h2, h3⟩ => ⟨by simp [h1], by simpa [jacsOf] using h2, ?_⟩
      rw [h3]
      simp [funsOf, Nat.add_comm, Nat.add_left_comm]

/-- the records of a state, and the calls made so far -/
structure ErkBook (t0 : F) (y0 : Vec F n) (sc : SolverCoeffs F) (s : ErkState F n) (c : List (UserCall F n)) : Prop where
  calls : s.sol.calls = funsOf c
  jac : jacsOf c = []
  evals : s.sol.funEvals = (funsOf c).length
  count : s.sol.funEvals = stageStart sc + (sc.ns - stageStart sc) * s.sol.attempt
  att : s.sol.attempt = s.step + s.sol.rejectErr
  status : s.sol.status = 0
  frac : s.sol.acceptFrac = none
  lt : s.sol.tVals.length = s.step + 1
  ly : s.sol.yVals.length = s.step + 1
  lk : s.sol.stages.length = s.step + 1
  le : s.sol.errEst.length = s.step + 1
  lr : s.sol.err.length = s.step + 1
  ht : s.sol.tVals.head? = some t0
  hy : s.sol.yVals.head? = some y0

/-- what is true of a returned output -/
structure ErkBookOut (t0 : F) (y0 : Vec F n) (sc : SolverCoeffs F) (out : ErkOutput F n) (c : List (UserCall F n)) : Prop where
  calls : c = out.calls.map fun p => .fn p.1 p.2
  evals : out.funEvals = out.calls.length
  count : out.funEvals = stageStart sc + (sc.ns - stageStart sc) * ((out.tVals.length - 1) + out.rejectErr)
  att : (out.status = 0 ∧ out.attempt = (out.tVals.length - 1) + out.rejectErr) ∨
    (out.status = 128 ∧ out.attempt = (out.tVals.length - 1) + out.rejectErr + 1)
  ly : out.yVals.length = out.tVals.length
  lk : out.stages.length = out.tVals.length
  le : out.errEst.length = out.tVals.length
  lr : out.err.length = out.tVals.length
  ht : out.tVals.head? = some t0
  hy : out.yVals.head? = some y0

theorem head_append {A : Type} {l : List A} {a : A} (m : List A) (h : l.head? = some a) : (l ++ m).head? = some a := by
  cases l with
  | nil => cases h
  | cons b l => simpa using h

theorem attemptFrom_sol (o : ErkOpts F) (sc : SolverCoeffs F) (mo : ℕ) (s : ErkState F n) (dt : F) (st : (ℕ → Vec F n) × ErkOutput F n) :
    (attemptFrom o sc mo s dt st).sol = { st.2 with rejectErr := st.2.rejectErr + if (attemptFrom o sc mo s dt st).reject then 1 else 0 } ∧
    (o.adaptive = false → (attemptFrom o sc mo s dt st).reject = false) := by
  unfold attemptFrom
  by_cases h : o.adaptive = true
  · simp only [h, if_true]
    refine ⟨?_, fun h => by cases h⟩
    split <;> rfl
  · simp only [h]
    exact ⟨rfl, fun _ => rfl⟩

theorem erkBodyE_triple (nd : Bool) (t0 t1 : F) (y0 : Vec F n) (o : ErkOpts F) (oo : OutOpts) (sc : SolverCoeffs F) (mo : ℕ) (s : ErkState F n)
    (c : List (UserCall F n)) (h : ErkBook t0 y0 sc s c) :
    Triple g (erkBodyE nd g.fn t1 o oo sc mo s) (goesOn (ErkBook t0 y0 sc) (ErkBookOut t0 y0 sc) c) := by
  have hc : c = s.sol.calls.map fun p => .fn p.1 p.2 := by rw [h.calls]; exact calls_of_no_jac c h.jac
  unfold erkBodyE
  by_cases h1 : ltb s.t t1 = true
  swap
  · simp only [h1]
    refine Triple.pure ?_
    simp only [goesOn, List.append_nil]
    refine ⟨hc, by rw [h.calls]; exact h.evals, ?_, Or.inl ⟨h.status, ?_⟩, ?_, ?_, ?_, ?_, h.ht, h.hy⟩
    · have := h.count; rw [h.att] at this; simpa [h.lt] using this
    · simpa [h.lt] using h.att
    · exact h.ly.trans h.lt.symm
    · exact h.lk.trans h.lt.symm
    · exact h.le.trans h.lt.symm
    · exact h.lr.trans h.lt.symm
  simp only [h1, if_true]
  by_cases h2 : 0 ≤ o.maxSteps ∧ o.maxSteps < s.step
  · simp only [if_pos h2]
    refine Triple.pure ?_
    simp only [goesOn, List.append_nil, ErkOutput.bump]
    refine ⟨hc, by rw [h.calls]; exact h.evals, ?_, Or.inr ⟨rfl, ?_⟩, ?_, ?_, ?_, ?_, h.ht, h.hy⟩
    · have := h.count; rw [h.att] at this; simpa [h.lt] using this
    · simpa [h.lt] using h.att
    · exact h.ly.trans h.lt.symm
    · exact h.lk.trans h.lt.symm
    · exact h.le.trans h.lt.symm
    · exact h.lr.trans h.lt.symm
  simp only [if_neg h2]
  refine Triple.bind (stageLoopE_triple sc s.t (clipDt s.t t1 s.dt) s.y _ s.Ks s.sol.bump) ?_
  rintro ⟨Ks, sol⟩ d ⟨hl, hj, e⟩
  dsimp only at e
  have hlen : d.length = (funsOf d).length := by
    conv_lhs => rw [calls_of_no_jac d hj]
    simp
  rw [List.length_range'] at hl
  by_cases h3 : o.adaptive = true ∧ sc.b2.length ≠ sc.ns
  · simp only [if_pos h3]
    exact Triple.lift fun a ha => by cases ha
  simp only [if_neg h3]
  split
  · exact Triple.lift fun a ha => by cases ha
  split
  · exact Triple.lift fun a ha => by cases ha
  obtain ⟨k1, k2⟩ := attemptFrom_sol o sc mo s (clipDt s.t t1 s.dt) (Ks, sol)
  generalize attemptFrom o sc mo s (clipDt s.t t1 s.dt) (Ks, sol) = a at k1 k2 ⊢
  rw [e] at k1
  dsimp only at k1
  have hcnt := h.count
  have hatt := h.att
  split
  · rename_i h4
    have hrej : a.reject = false := by
      cases ha : o.adaptive with
      | false => exact k2 ha
      | true => simpa [ha] using h4
    rw [hrej] at k1
    refine Triple.pure ?_
    dsimp only [goesOn]
    rw [List.append_nil]
    refine ⟨?_, ?_, ?_, ?_, ?_, ?_, ?_, ?_, ?_, ?_, ?_, ?_, ?_, ?_⟩
    · cases hw : oo.writeToFile <;> simp [accept, ErkOutput.line, hw, k1, ErkOutput.bump, funsOf_append, h.calls]
    · rw [jacsOf_append, h.jac, hj]; rfl
    · cases hw : oo.writeToFile <;> simp [accept, ErkOutput.line, hw, k1, ErkOutput.bump, funsOf_append, h.evals] <;> omega
    · have e1 : (accept sc s a (a.sol.line oo s.t
          a.yn)).sol.funEvals = s.sol.funEvals + (sc.ns - stageStart sc) ∧
        (accept sc s a (a.sol.line oo s.t
          a.yn)).sol.attempt = s.sol.attempt + 1 := by
        cases hw : oo.writeToFile <;> simp [accept, ErkOutput.line, hw, k1, ErkOutput.bump]
      rw [e1.1, e1.2, hcnt, Nat.mul_add]
      omega
    · cases hw : oo.writeToFile <;> simp [accept, ErkOutput.line, hw, k1, ErkOutput.bump] <;> omega
    · cases hw : oo.writeToFile <;> simp [accept, ErkOutput.line, hw, k1, ErkOutput.bump, h.status]
    · cases hw : oo.writeToFile <;> simp [accept, ErkOutput.line, hw, k1, ErkOutput.bump, h.frac]
    · cases hw : oo.writeToFile <;> simp [accept, ErkOutput.line, hw, k1, ErkOutput.bump, h.lt]
    · cases hw : oo.writeToFile <;> simp [accept, ErkOutput.line, hw, k1, ErkOutput.bump, h.ly]
    · cases hw : oo.writeToFile <;> simp [accept, ErkOutput.line, hw, k1, ErkOutput.bump, h.lk]
    · cases hw : oo.writeToFile <;> simp [accept, ErkOutput.line, hw, k1, ErkOutput.bump, h.le]
    · cases hw : oo.writeToFile <;> simp [accept, ErkOutput.line, hw, k1, ErkOutput.bump, h.lr]
    · cases hw : oo.writeToFile <;> simp only [accept, ErkOutput.line, hw, k1, ErkOutput.bump, if_true] <;> exact head_append _ h.ht
    · cases hw : oo.writeToFile <;> simp only [accept, ErkOutput.line, hw, k1, ErkOutput.bump, if_true] <;> exact head_append _ h.hy
  · rename_i h4
    have hrej : a.reject = true := by
      simp only [Bool.or_eq_true, Bool.not_eq_true', not_or, Bool.not_eq_false] at h4
      exact h4.2
    rw [hrej] at k1
    refine Triple.pure ?_
    dsimp only [goesOn]
    rw [List.append_nil]
    refine ⟨?_, ?_, ?_, ?_, ?_, ?_, ?_, ?_, ?_, ?_, ?_, ?_, ?_, ?_⟩
    · cases hw : oo.writeToFile <;> simp [rejectStep, ErkOutput.line, hw, k1, ErkOutput.bump, funsOf_append, h.calls]
    · rw [jacsOf_append, h.jac, hj]; rfl
    · cases hw : oo.writeToFile <;> simp [rejectStep, ErkOutput.line, hw, k1, ErkOutput.bump, funsOf_append, h.evals] <;> omega
    · have e1 : (rejectStep s a (a.sol.line oo s.t
          a.yn)).sol.funEvals = s.sol.funEvals + (sc.ns - stageStart sc) ∧
        (rejectStep s a (a.sol.line oo s.t
          a.yn)).sol.attempt = s.sol.attempt + 1 := by
        cases hw : oo.writeToFile <;> simp [rejectStep, ErkOutput.line, hw, k1, ErkOutput.bump]
      rw [e1.1, e1.2, hcnt, Nat.mul_add]
      omega
    · cases hw : oo.writeToFile <;> simp [rejectStep, ErkOutput.line, hw, k1, ErkOutput.bump] <;> omega
    · cases hw : oo.writeToFile <;> simp [rejectStep, ErkOutput.line, hw, k1, ErkOutput.bump, h.status]
    · cases hw : oo.writeToFile <;> simp [rejectStep, ErkOutput.line, hw, k1, ErkOutput.bump, h.frac]
    · cases hw : oo.writeToFile <;> simp [rejectStep, ErkOutput.line, hw, k1, ErkOutput.bump, h.lt]
    · cases hw : oo.writeToFile <;> simp [rejectStep, ErkOutput.line, hw, k1, ErkOutput.bump, h.ly]
    · cases hw : oo.writeToFile <;> simp [rejectStep, ErkOutput.line, hw, k1, ErkOutput.bump, h.lk]
    · cases hw : oo.writeToFile <;> simp [rejectStep, ErkOutput.line, hw, k1, ErkOutput.bump, h.le]
    · cases hw : oo.writeToFile <;> simp [rejectStep, ErkOutput.line, hw, k1, ErkOutput.bump, h.lr]
    · cases hw : oo.writeToFile <;> simp only [rejectStep, ErkOutput.line, hw, k1, ErkOutput.bump, if_true] <;> exact h.ht
    · cases hw : oo.writeToFile <;> simp only [rejectStep, ErkOutput.line, hw, k1, ErkOutput.bump, if_true] <;> exact h.hy

theorem erkInitE_triple (t0 : F) (y0 : Vec F n) (dt : F) (sc : SolverCoeffs F) :
    Triple g (erkInitE g.fn t0 y0 dt sc) fun s c => ErkBook t0 y0 sc s c := by
  unfold erkInitE
  by_cases hf : sc.fsal = true
  · simp only [hf, if_true]
    refine Triple.bind (P := fun r c => c = [.fn t0 y0] ∧ r.2 = { status := 0, tVals := [t0], yVals := [y0], stages := [ksList sc fun _ _ => lit 0], errEst := [fun _ => lit 0], err := [lit 0], acceptFrac := none, attempt := 0, rejectErr := 0, funEvals := 1, calls := [(t0, y0)], file := [] }) ?_ ?_
    · exact Triple.bind (Triple.fn (P := fun _ c => c = [.fn t0 y0]) fun v => rfl) fun v c hc => Triple.pure ⟨by rw [hc]; rfl, rfl⟩
    · rintro ⟨v, sol⟩ c ⟨rfl, e⟩
      dsimp only at e
      subst e
      refine Triple.pure ⟨rfl, rfl, rfl, ?_, rfl, rfl, rfl, rfl, rfl, rfl, rfl, rfl, rfl, rfl⟩
      simp [stageStart, hf]
  · simp only [hf]
    refine Triple.pure ⟨rfl, rfl, rfl, ?_, rfl, rfl, rfl, rfl, rfl, rfl, rfl, rfl, rfl, rfl⟩
    simp [stageStart, hf]

/-- **C123 (explicit methods).**  For every functor, also one whose answers depend on its state: when `erk_guts` returns, the functor is in the state after
the calls of the log, one after the other; the number of evaluations reported is the number of these calls; the five record vectors have
equal lengths and begin with `(t0, y0)`; the counters satisfy C14. -/
theorem C123_erk {nd : Bool} {t0 t1 : F} {y0 : Vec F n} {o : ErkOpts F} {dt : F} {sc : SolverCoeffs F} {oo : OutOpts} {fuel : ℕ} {s s' : S}
    {out : ErkOutput F n} (h : erkGutsE nd g.fn t0 t1 y0 o dt sc oo fuel s = some (.ret (out, s'))) :
    g.feed (out.calls.map fun p => .fn p.1 p.2) s = .ret s' ∧ out.funEvals = out.calls.length ∧
    out.funEvals = (if sc.fsal then 1 else 0) + (sc.ns - (if sc.fsal then 1 else 0)) * ((out.tVals.length - 1) + out.rejectErr) ∧
    ((out.status = 0 ∧ out.attempt = (out.tVals.length - 1) + out.rejectErr) ∨
      (out.status = 128 ∧ out.attempt = (out.tVals.length - 1) + out.rejectErr + 1)) ∧
    out.yVals.length = out.tVals.length ∧ out.stages.length = out.tVals.length ∧ out.errEst.length = out.tVals.length ∧
    out.err.length = out.tVals.length ∧ out.tVals.head? = some t0 ∧ out.yVals.head? = some y0 := by
  unfold erkGutsE at h
  dsimp only at h
  split at h
  · cases h
  cases hmo : minOrder sc with
  | none => rw [hmo] at h; cases h
  | some mo =>
    rw [hmo] at h
    dsimp only [initLoopE] at h
    cases hi : erkInitE g.fn t0 y0 (clipDt t0 t1 dt) sc s with
    | ret p =>
      obtain ⟨st, s1⟩ := p
      rw [hi] at h
      obtain ⟨c, h1, h2⟩ := erkInitE_triple t0 y0 (clipDt t0 t1 dt) sc s st s1 hi
      obtain ⟨d, h3, h4⟩ := loop_triple (g := g) (Inv := ErkBook t0 y0 sc) (Post := ErkBookOut t0 y0 sc)
        (fun t c ht => erkBodyE_triple nd t0 t1 y0 o oo sc mo t c ht) h2 h
      refine ⟨?_, h4.evals, h4.count, h4.att, h4.ly, h4.lk, h4.le, h4.lr, h4.ht, h4.hy⟩
      rw [← h4.calls, feed_append, h1]
      exact h3
    | _ => rw [hi] at h; cases h

end erk

/-! ### The implicit integrator -/

section irk
variable {S : Type} {F : Type} [Add F] [Sub F] [Mul F] [Div F] [Neg F] [Scalar F] {n : ℕ} {g : EffFun S F n}

/-- the log and the counters after calls `c` -/
def Counted (l : CallLog F n) (k : IrkCounters) (l' : CallLog F n) (k' : IrkCounters) (c : List (UserCall F n)) : Prop :=
  l' = l.add c ∧ k' = { k with funEvals := k.funEvals + (funsOf c).length, jacEvals := k.jacEvals + (jacsOf c).length }

theorem Counted.nil (l : CallLog F n) (k : IrkCounters) : Counted l k l k [] := ⟨(CallLog.add_nil l).symm, rfl⟩

theorem Counted.trans {l l' l'' : CallLog F n} {k k' k'' : IrkCounters} {c d : List (UserCall F n)} (h : Counted l k l' k' c) (h' : Counted l' k' l'' k'' d) :
    Counted l k l'' k'' (c ++ d) := by
  obtain ⟨rfl, rfl⟩ := h
  obtain ⟨rfl, rfl⟩ := h'
  refine ⟨(CallLog.add_append _ _ _).symm, ?_⟩
  simp [funsOf_append, jacsOf_append, Nat.add_assoc]

theorem collectE_triple (sc : SolverCoeffs F) (t dt : F) (y : Vec F n) (Y : Vec F (sc.ns * n)) (is : List (Fin sc.ns)) (V : Fin sc.ns → Vec F n) :
    Triple g (collectE g.fn sc t dt y Y is V) fun _ c => c = is.map fun i => .fn (stageArgI sc t dt y Y i).1 (stageArgI sc t dt y Y i).2 := by
  induction is generalizing V with
  | nil => exact Triple.pure rfl
  | cons i is ih =>
    refine Triple.bind (Triple.fn (P := fun _ c => c = [.fn (stageArgI sc t dt y Y i).1 (stageArgI sc t dt y Y i).2]) fun v => rfl) ?_
    rintro v c rfl
    refine (ih _).mono fun r d hd => ?_
    rw [hd]; rfl

theorem constructRE_triple (sc : SolverCoeffs F) (t dt : F) (y : Vec F n) (Y : Vec F (sc.ns * n)) (l : CallLog F n) (k : IrkCounters) :
    Triple g (constructRE g.fn sc t dt y Y) fun _ c => Counted l k { l with funs := l.funs ++ constructCalls sc t dt y Y }
      { k with funEvals := k.funEvals + sc.ns } c := by
  refine Triple.bind (collectE_triple sc t dt y Y _ _) ?_
  rintro V c rfl
  refine Triple.pure ?_
  rw [List.append_nil]
  have h1 := funsOf_stage sc t dt y Y
  constructor
  · exact (add_ccalls l sc t dt y Y).symm
  · have h2 : (funsOf ((List.finRange sc.ns).map fun i => (.fn (stageArgI sc t dt y Y i).1 (stageArgI sc t dt y Y i).2 : UserCall F n))).length = sc.ns := by
      have : ∀ is : List (Fin sc.ns), (funsOf (is.map fun i => (.fn (stageArgI sc t dt y Y i).1 (stageArgI sc t dt y Y i).2 : UserCall F n))).length = is.length := by
        intro is
        induction is with
        | nil => rfl
        | cons i is ih => simp [funsOf, ih]
      rw [this, List.length_finRange]
    have h3 : jacsOf ((List.finRange sc.ns).map fun i => (.fn (stageArgI sc t dt y Y i).1 (stageArgI sc t dt y Y i).2 : UserCall F n)) = [] := by
      generalize List.finRange sc.ns = is
      induction is with
      | nil => rfl
      | cons i is ih => simpa [jacsOf] using ih
    rw [h2, h3]; rfl

theorem refreshJacE_triple (nd : Bool) (la : LinAlg F) (sc : SolverCoeffs F) (t dt : F) (y : Vec F n) (s : StageState F (sc.ns * n) n) :
    Triple g (refreshJacE nd la g sc t dt y s) fun r c => Counted s.log s.count r.log r.count c := by
  have hc : Counted s.log s.count { s.log with jacs := s.log.jacs ++ [(t, y)] } { s.count with jacEvals := s.count.jacEvals + 1 } [.jac t y] := by
    constructor <;> simp [CallLog.add, funsOf, jacsOf]
  refine Triple.bind (Triple.jac (P := fun _ c => c = [.jac t y]) fun J => rfl) ?_
  rintro J c rfl
  dsimp only
  split
  · exact Triple.pure (by rw [List.append_nil]; exact hc)
  split
  · exact Triple.lift fun a h => by cases h
  · exact Triple.pure (by rw [List.append_nil]; exact hc)

theorem stageStepE_triple (nd : Bool) (la : LinAlg F) (sc : SolverCoeffs F) (t dt : F) (y : Vec F n) (refresh : ℤ) (xtol Rtol : F)
    (s : StageState F (sc.ns * n) n) :
    Triple g (stageStepE nd la g sc t dt y refresh xtol Rtol s) fun r c => match r with
      | .inl s' => Counted s.log s.count s'.log s'.count c
      | .inr r => Counted s.log s.count r.log r.count c := by
  refine Triple.bind (P := fun _ c => c = []) (Triple.lift fun a h => rfl) ?_
  rintro dY c rfl
  dsimp only
  refine Triple.bind (constructRE_triple sc t dt y _ s.log s.count) ?_
  intro R c hc
  split
  · exact Triple.pure (by simpa using hc)
  split
  · exact Triple.lift fun a h => by cases h
  refine Triple.bind (P := fun r d => Counted s.log s.count r.log r.count (c ++ d)) ?_ ?_
  · split
    · exact (refreshJacE_triple nd la sc t dt y _).mono fun r d hd => hc.trans hd
    · exact Triple.pure (by rw [List.append_nil]; exact hc)
  · intro r d hd
    exact Triple.pure (by simpa using hd)

theorem stageIterE_triple (nd : Bool) (la : LinAlg F) (sc : SolverCoeffs F) (t dt : F) (y : Vec F n) (refresh : ℤ) (xtol Rtol : F) (k : ℕ)
    (s : StageState F (sc.ns * n) n) :
    Triple g (stageIterE nd la g sc t dt y refresh xtol Rtol k s) fun r c => Counted s.log s.count r.log r.count c := by
  induction k generalizing s with
  | zero => exact Triple.pure (Counted.nil _ _)
  | succ k ih =>
    refine Triple.bind (stageStepE_triple nd la sc t dt y refresh xtol Rtol s) ?_
    rintro (s' | r) c hc
    · exact (ih s').mono fun r d hd => hc.trans hd
    · exact Triple.pure (by rw [List.append_nil]; exact hc)

theorem newtonSolveStagesE_triple (nd : Bool) (la : LinAlg F) (sc : SolverCoeffs F) (t dt : F) (y : Vec F n) (maxit refresh : ℤ) (xtol Rtol : F)
    (k : IrkCounters) (l : CallLog F n) :
    Triple g (newtonSolveStagesE nd la g sc t dt y maxit refresh xtol Rtol k l) fun r c => Counted l k r.log r.count c := by
  unfold newtonSolveStagesE
  dsimp only
  refine Triple.bind (refreshJacE_triple nd la sc t dt y _) ?_
  intro s1 c hc
  split
  · exact Triple.lift fun a h => by cases h
  refine Triple.bind (constructRE_triple sc t dt y _ s1.log s1.count) ?_
  intro R d hd
  exact (stageIterE_triple nd la sc t dt y refresh xtol Rtol _ _).mono fun r e he => by
    have := (Counted.trans hc hd).trans he
    rwa [List.append_assoc] at this

/-- the counters after an attempt: those of the Newton iteration and perhaps one more rejection -/
theorem attemptIE_triple (la : LinAlg F) (o : IrkOpts F) (sc : SolverCoeffs F) (mo : ℕ) (d d2 : Vec F sc.ns) {m : ℕ} (s : IrkState F m n) (dt : F)
    (r : StageResult F (sc.ns * n) n) :
    Triple g (attemptIE la g o sc mo d d2 s dt r) fun a c => ∃ k, Counted r.log r.count a.log k c ∧
      a.count = { k with rejectErr := k.rejectErr + if a.reject then 1 else 0 } := by
  have hf : ∀ (yn ee : Vec F n) (k : IrkCounters) (l : CallLog F n) (c : List (UserCall F n)), Counted r.log r.count l k c →
      ∃ k', Counted r.log r.count (finishI o mo s dt r yn ee k l).log k' c ∧
        (finishI o mo s dt r yn ee k l).count = { k' with rejectErr := k'.rejectErr + if (finishI o mo s dt r yn ee k l).reject then 1 else 0 } := by
    intro yn ee k l c hc
    refine ⟨k, hc, ?_⟩
    unfold finishI
    dsimp only
    split <;> rfl
  have h1 : Counted r.log r.count { r.log with funs := r.log.funs ++ [(s.t, s.y)] } { r.count with funEvals := r.count.funEvals + 1 } [.fn s.t s.y] := by
    constructor <;> simp [CallLog.add, funsOf, jacsOf]
  unfold attemptIE
  dsimp only
  refine Triple.bind (Triple.fn (P := fun _ c => c = [.fn s.t s.y]) fun v => rfl) ?_
  rintro f0 c rfl
  split
  · exact Triple.lift fun a h => by cases h
  split
  · rename_i e1 _ _
    refine Triple.bind (Triple.fn (P := fun _ c => c = [.fn s.t fun k => s.y k + dt * e1 k]) fun v => rfl) ?_
    rintro f1 c rfl
    split
    · exact Triple.lift fun a h => by cases h
    · refine Triple.pure (hf _ _ _ _ _ ?_)
      exact h1.trans (by constructor <;> simp [CallLog.add, funsOf, jacsOf])
  · refine Triple.pure (hf _ _ _ _ ([.fn s.t s.y] ++ []) ?_)
    rw [List.append_nil]
    exact h1

/-- the records and counters of a state of the implicit integrator, and the calls made so far -/
structure IrkBook {m : ℕ} (t0 : F) (y0 : Vec F n) (s : IrkState F m n) (c : List (UserCall F n)) : Prop where
  funs : s.sol.log.funs = funsOf c
  jacs : s.sol.log.jacs = jacsOf c
  fe : s.sol.count.funEvals = (funsOf c).length
  je : s.sol.count.jacEvals = (jacsOf c).length
  succ : s.sol.count.newtonSuccess = s.step + s.sol.count.rejectErr
  att : s.sol.count.attempt = s.sol.count.newtonSuccess + s.sol.count.rejectNewton
  status : s.sol.status = 0
  ly : s.sol.yVals.length = s.sol.tVals.length
  lk : s.sol.stages.length = s.sol.tVals.length
  le : s.sol.errEst.length = s.sol.tVals.length
  lr : s.sol.err.length = s.sol.tVals.length
  ht : s.sol.tVals.head? = some t0
  hy : s.sol.yVals.head? = some y0

/-- what is true of a returned output -/
structure IrkBookOut {m : ℕ} (t0 : F) (y0 : Vec F n) (out : IrkOutput F m n) (c : List (UserCall F n)) : Prop where
  funs : out.log.funs = funsOf c
  jacs : out.log.jacs = jacsOf c
  fe : out.count.funEvals = (funsOf c).length
  je : out.count.jacEvals = (jacsOf c).length
  att : (out.status = 0 ∧ out.count.attempt = out.count.newtonSuccess + out.count.rejectNewton) ∨
    ((out.status = 128 ∨ out.status = 4) ∧ out.count.attempt = out.count.newtonSuccess + out.count.rejectNewton + 1)
  le' : out.count.rejectErr ≤ out.count.newtonSuccess
  ly : out.yVals.length = out.tVals.length
  lk : out.stages.length = out.tVals.length
  le : out.errEst.length = out.tVals.length
  lr : out.err.length = out.tVals.length
  ht : out.tVals.head? = some t0
  hy : out.yVals.head? = some y0

theorem irkBodyE_triple (nd : Bool) (la : LinAlg F) (t0 t1 : F) (y0 : Vec F n) (o : IrkOpts F) (no : NewtonOpts F) (oo : OutOpts)
    (sc : SolverCoeffs F) (mo : ℕ) (d d2 : Vec F sc.ns) (s : IrkState F (sc.ns * n) n) (c : List (UserCall F n)) (h : IrkBook t0 y0 s c) :
    Triple g (irkBodyE nd la g t1 o no oo sc mo d d2 s) (goesOn (IrkBook t0 y0) (IrkBookOut t0 y0) c) := by
  have hle : s.sol.count.rejectErr ≤ s.sol.count.newtonSuccess := by rw [h.succ]; omega
  unfold irkBodyE
  by_cases h1 : ltb s.t t1 = true
  swap
  · simp only [h1]
    refine Triple.pure ?_
    simp only [goesOn, List.append_nil]
    exact ⟨h.funs, h.jacs, h.fe, h.je, Or.inl ⟨h.status, h.att⟩, hle, h.ly, h.lk, h.le, h.lr, h.ht, h.hy⟩
  simp only [h1, if_true]
  by_cases h2 : 0 ≤ o.maxSteps ∧ o.maxSteps < s.step
  · simp only [if_pos h2]
    refine Triple.pure ?_
    simp only [goesOn, List.append_nil]
    exact ⟨h.funs, h.jacs, h.fe, h.je, Or.inr ⟨Or.inl rfl, by simp only [IrkOutput.bump]; rw [h.att]⟩, hle, h.ly, h.lk, h.le, h.lr, h.ht, h.hy⟩
  simp only [if_neg h2]
  refine Triple.bind (newtonSolveStagesE_triple nd la sc s.t (clipDt s.t t1 s.dt) s.y _ _ _ _ s.sol.bump.count s.sol.log) ?_
  rintro r e ⟨hl, hk⟩
  have f1 : r.log.funs = funsOf (c ++ e) := by rw [hl, funsOf_append, ← h.funs]; rfl
  have f2 : r.log.jacs = jacsOf (c ++ e) := by rw [hl, jacsOf_append, ← h.jacs]; rfl
  have f3 : r.count.funEvals = (funsOf (c ++ e)).length := by rw [hk, funsOf_append, List.length_append, ← h.fe]; rfl
  have f4 : r.count.jacEvals = (jacsOf (c ++ e)).length := by rw [hk, jacsOf_append, List.length_append, ← h.je]; rfl
  have f5 : r.count.attempt = s.sol.count.attempt + 1 := by rw [hk]; rfl
  have f6 : r.count.newtonSuccess = s.sol.count.newtonSuccess := by rw [hk]; rfl
  have f7 : r.count.rejectErr = s.sol.count.rejectErr := by rw [hk]; rfl
  have f8 : r.count.rejectNewton = s.sol.count.rejectNewton := by rw [hk]; rfl
  have hatt := h.att
  have hsucc := h.succ
  split
  · split
    · refine Triple.pure ?_
      simp only [goesOn, List.append_nil]
      exact ⟨f1, f2, f3, f4, Or.inr ⟨Or.inr rfl, by dsimp only; omega⟩, by dsimp only; omega, h.ly, h.lk, h.le, h.lr, h.ht, h.hy⟩
    · refine Triple.pure ?_
      simp only [goesOn, List.append_nil]
      exact ⟨f1, f2, f3, f4, by dsimp only [newtonReject]; omega, by dsimp only [newtonReject]; omega, h.status, h.ly, h.lk, h.le, h.lr, h.ht, h.hy⟩
  split
  · exact Triple.bind (Triple.fn (P := fun _ _ => True) fun v => trivial) fun _ _ _ => Triple.lift fun a ha => by cases ha
  refine Triple.bind (attemptIE_triple la o sc mo d d2 s (clipDt s.t t1 s.dt) r.success) ?_
  rintro a e' ⟨k, ⟨hl', hk'⟩, hac⟩
  have g1 : a.log.funs = funsOf (c ++ (e ++ e')) := by rw [hl', ← List.append_assoc, funsOf_append _ e', ← f1]; rfl
  have g2 : a.log.jacs = jacsOf (c ++ (e ++ e')) := by rw [hl', ← List.append_assoc, jacsOf_append _ e', ← f2]; rfl
  have g3 : a.count.funEvals = (funsOf (c ++ (e ++ e'))).length := by rw [hac, hk', ← List.append_assoc, funsOf_append _ e', List.length_append, ← f3]; rfl
  have g4 : a.count.jacEvals = (jacsOf (c ++ (e ++ e'))).length := by rw [hac, hk', ← List.append_assoc, jacsOf_append _ e', List.length_append, ← f4]; rfl
  have g5 : a.count.attempt = s.sol.count.attempt + 1 := by rw [hac, hk']; exact f5
  have g6 : a.count.newtonSuccess = s.sol.count.newtonSuccess + 1 := by rw [hac, hk', ← f6]; rfl
  have g7 : a.count.rejectErr = s.sol.count.rejectErr + if a.reject then 1 else 0 := by rw [hac, hk', ← f7]; rfl
  have g8 : a.count.rejectNewton = s.sol.count.rejectNewton := by rw [hac, hk', ← f8]; rfl
  split
  · exact Triple.lift fun a ha => by cases ha
  split
  · rename_i hr
    rw [if_pos hr] at g7
    refine Triple.pure ?_
    simp only [goesOn, List.append_nil]
    exact ⟨g1, g2, g3, g4, by dsimp only [rejectI]; omega, by dsimp only [rejectI]; omega, h.status, h.ly, h.lk, h.le, h.lr, h.ht, h.hy⟩
  rename_i hr
  rw [if_neg hr] at g7
  split
  · exact Triple.lift fun a ha => by cases ha
  split
  · exact Triple.lift fun a ha => by cases ha
  refine Triple.pure ?_
  simp only [goesOn, List.append_nil]
  have e1 : (acceptI oo s a).sol.log = a.log := by unfold acceptI; dsimp only; split <;> split <;> rfl
  have e2 : (acceptI oo s a).sol.count = a.count := by unfold acceptI; dsimp only; split <;> split <;> rfl
  have e3 : (acceptI oo s a).sol.status = 0 := by rw [← h.status]; unfold acceptI; dsimp only; split <;> split <;> rfl
  have e4 : (acceptI oo s a).step = s.step + 1 := rfl
  refine ⟨by rw [e1, g1], by rw [e1, g2], by rw [e2, g3], by rw [e2, g4], by rw [e2, e4]; omega, by rw [e2]; omega, e3, ?_, ?_, ?_, ?_, ?_, ?_⟩
  · unfold acceptI; dsimp only; split <;> split <;> simp [IrkOutput.bump, h.ly]
  · unfold acceptI; dsimp only; split <;> split <;> simp [IrkOutput.bump, h.lk]
  · unfold acceptI; dsimp only; split <;> split <;> simp [IrkOutput.bump, h.le]
  · unfold acceptI; dsimp only; split <;> split <;> simp [IrkOutput.bump, h.lr]
  · unfold acceptI; dsimp only; split <;> split <;> first | exact head_append _ h.ht | exact h.ht
  · unfold acceptI; dsimp only; split <;> split <;> first | exact head_append _ h.hy | exact h.hy

/-- **C123 (implicit methods).**  For every functor: when `irk_guts` returns, the functor is in the state after a sequence of calls whose calls of the
right-hand side and of the Jacobi matrix are those of the log, in order; the numbers reported are the numbers of these calls; the record vectors
have equal lengths and begin with `(t0, y0)`; the counters satisfy the identities of C39. -/
theorem C123_irk {nd : Bool} {la : LinAlg F} {t0 t1 : F} {y0 : Vec F n} {o : IrkOpts F} {dt : F} {sc : SolverCoeffs F} {oo : OutOpts} {fuel : ℕ} {s s' : S}
    {out : IrkOutput F (sc.ns * n) n} (h : irkGutsE nd la g t0 t1 y0 o dt sc oo fuel s = some (.ret (out, s'))) :
    (∃ c : List (UserCall F n), g.feed c s = .ret s' ∧ funsOf c = out.log.funs ∧ jacsOf c = out.log.jacs) ∧
    out.count.funEvals = out.log.funs.length ∧ out.count.jacEvals = out.log.jacs.length ∧
    ((out.status = 0 ∧ out.count.attempt = out.count.newtonSuccess + out.count.rejectNewton) ∨
      ((out.status = 128 ∨ out.status = 4) ∧ out.count.attempt = out.count.newtonSuccess + out.count.rejectNewton + 1)) ∧
    out.count.rejectErr ≤ out.count.newtonSuccess ∧
    out.yVals.length = out.tVals.length ∧ out.stages.length = out.tVals.length ∧ out.errEst.length = out.tVals.length ∧
    out.err.length = out.tVals.length ∧ out.tVals.head? = some t0 ∧ out.yVals.head? = some y0 := by
  unfold irkGutsE at h
  dsimp only at h
  cases hno : o.newtonOpts with
  | none => rw [hno] at h; cases nd <;> cases h
  | some no =>
    rw [hno] at h
    dsimp only at h
    split at h
    · cases h
    cases hmo : minOrder sc with
    | none => rw [hmo] at h; cases h
    | some mo =>
      rw [hmo] at h
      dsimp only at h
      split at h
      · cases h
      cases hA : la.inv sc.mat with
      | none => rw [hA] at h; cases h
      | some Ai =>
        rw [hA] at h
        dsimp only at h
        split at h
        · cases h
        obtain ⟨c, h3, h4⟩ := loop_triple (g := g) (Inv := IrkBook t0 y0) (Post := IrkBookOut t0 y0)
          (fun t c ht => irkBodyE_triple nd la t0 t1 y0 o no oo sc mo _ _ t c ht) (c := [])
          ⟨rfl, rfl, rfl, rfl, rfl, rfl, rfl, rfl, rfl, rfl, rfl, rfl, rfl⟩ h
        exact ⟨⟨c, h3, h4.funs.symm, h4.jacs.symm⟩, by rw [h4.funs]; exact h4.fe, by rw [h4.jacs]; exact h4.je, h4.att, h4.le', h4.ly, h4.lk, h4.le, h4.lr,
          h4.ht, h4.hy⟩

end irk

/-- a functor whose answers depend on its state: it answers 0 the first time and 1 ever after -/
def hysteresis (F : Type) [Scalar F] : EffFun Bool F 1 where
  fn _ _ s := .ret (fun _ => if s then lit 1 else lit 0, true)
  jac _ _ s := .ret (fun _ _ => lit 0, s)

section
attribute [local instance] RepoTests.noPow

/-- the options of the examples -/
def hystOpts : ErkOpts FP := { adaptive := false, relTol := lit 1, absTol := lit 1, maxDt := lit 0, maxSteps := -1 }

/-- `hysteresis` is not transparent for any function -/
example (f : OdeFun FP 1) : ¬ Transparent (hysteresis FP) f fun _ => True := by
  intro h
  have h1 := (h.fn (s := false) (t := lit 0) (y := fun _ => lit 0) trivial rfl).1
  have h2 := (h.fn (s := true) (t := lit 0) (y := fun _ => lit 0) trivial rfl).1
  have h3 := congrFun (h1.trans h2.symm) 0
  revert h3
  decide +kernel

/-- a check that can be evaluated -/
def hystCheck : Option (Outcome (ErkOutput FP 1 × Bool)) → Bool
  | some (.ret (out, s)) => s && out.yVals.length == 3 && out.calls.length == 2 && ((out.yVals.map fun y => y 0) == [lit 0, lit 0, lit (1 / 2)])
  | _ => false

/-- two Euler steps of size 1/2 with `hysteresis`, in binary64: the values are 0, 0, 1/2 -/
theorem hysteresis_run :
    hystCheck (erkGutsE (F := FP) (n := 1) false (hysteresis FP).fn (lit 0) (lit 1) (fun _ => lit 0) hystOpts (lit (1 / 2)) (erkCoeffs 100) OutOpts.dflt 3
      false) = true := by
  decide +kernel

/-- `C123_erk` on this run: two calls are logged and the functor has seen them -/
example :
    ∃ out, erkGutsE (F := FP) (n := 1) false (hysteresis FP).fn (lit 0) (lit 1) (fun _ => lit 0) hystOpts (lit (1 / 2)) (erkCoeffs 100) OutOpts.dflt 3 false =
      some (.ret (out, true)) ∧ out.funEvals = 2 ∧ (hysteresis FP).feed (out.calls.map fun p => .fn p.1 p.2) false = .ret true := by
  have h := hysteresis_run
  cases hr : erkGutsE (F := FP) (n := 1) false (hysteresis FP).fn (lit 0) (lit 1) (fun _ => lit 0) hystOpts (lit (1 / 2)) (erkCoeffs 100) OutOpts.dflt 3 false with
  | none => rw [hr] at h; cases h
  | some x =>
    rw [hr] at h
    cases x with
    | ret p =>
      obtain ⟨out, s⟩ := p
      simp only [hystCheck, Bool.and_eq_true, beq_iff_eq] at h
      obtain ⟨⟨⟨rfl, -⟩, h2⟩, -⟩ := h
      obtain ⟨g1, g2, -⟩ := C123_erk hr
      exact ⟨out, rfl, by rw [g2, h2], g1⟩
    | _ => cases h

end

/-- `C123_irk` applies to the stiff exchange problem with a counting functor -/
example : ∃ fuel out s', irkGutsE (F := ℝ) false laReal (counting exchange) 0 10 ![1, 2] exchangeOpts (1 / 2) (irkCoeffs 211) bothOutputs fuel (0, 0) =
    some (.ret (out, s')) ∧ s' = (out.count.funEvals, out.count.jacEvals) := by
  obtain ⟨fuel, out, h, -⟩ := exchange_run
  have hv : irkVerify (irkCoeffs 211 : SolverCoeffs ℝ) = true := (C08_irk 211).mpr (by decide)
  have hb : ((irkCoeffs 211 : SolverCoeffs ℝ).b2.length == 0) = false := rfl
  have h' : irkOdeint false laReal exchange 0 10 ![1, 2] exchangeOpts bothOutputs 211 (1 / 2) fuel = some (.ret out) := by
    simp only [irkOdeint, hv, hb, Bool.and_false, Bool.not_true, Bool.not_false, Bool.false_eq_true, if_false]
    exact h
  have h'' := C121_irk_counting _ h'
  simp only [irkOdeintE, hv, hb, Bool.and_false, Bool.not_true, Bool.not_false, Bool.false_eq_true, if_false] at h''
  exact ⟨fuel, out, _, h'', rfl⟩

end Verif
