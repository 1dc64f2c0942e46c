import Verif.Prop.Erk
import Verif.Prop.IrkMethods
import Verif.Prop.IrkExamples

/-!
# C124: which options can change the numbers of a run

Statements about two runs with different options, in any arithmetic.
-/

set_option linter.unusedSectionVars false
set_option linter.unnecessarySeqFocus false

namespace Verif

section loops
variable {T R : Type}

/-- a loop with an extra exit either does what the loop without it does, or leaves by it in a state the other loop also passes -/
theorem runLoop_limit {body body' : T → LoopStep T R} {lim : T → Prop} {stop : T → R} (h1 : ∀ s, lim s → body s = .done (.ret (stop s)) ∨ body s = body' s)
    (h2 : ∀ s, ¬ lim s → body s = body' s) {k : ℕ} {s : T} {r : Outcome R} (h : runLoop body k s = some r) :
    runLoop body' k s = some r ∨ ∃ s', Reach body' s s' ∧ lim s' ∧ r = .ret (stop s') := by
  induction k generalizing s with
  | zero => cases h
  | succ k ih =>
    have key : body s = body' s → runLoop body' (k + 1) s = some r ∨ ∃ s', Reach body' s s' ∧ lim s' ∧ r = .ret (stop s') := by
      intro he
      unfold runLoop at h ⊢
      rw [he] at h
      cases hb : body' s with
      | next s' =>
        rw [hb] at h
        rcases ih h with h' | ⟨s'', g1, g2, g3⟩
        · exact Or.inl h'
        · exact Or.inr ⟨s'', Reach.head hb g1, g2, g3⟩
      | done r' =>
        rw [hb] at h
        exact Or.inl h
    by_cases hl : lim s
    · rcases h1 s hl with hs | hs
      · unfold runLoop at h
        rw [hs] at h
        cases h
        exact Or.inr ⟨s, .refl, hl, rfl⟩
      · exact key hs
    · exact key (h2 s hl)

/-- what a run does from a state it passes -/
theorem runLoop_from {body : T → LoopStep T R} {s s' : T} (hr : Reach body s s') {k : ℕ} {r : Outcome R} (h : runLoop body k s = some r) :
    ∃ k', runLoop body k' s' = some r := by
  induction hr with
  | refl => exact ⟨k, h⟩
  | tail _ hb ih =>
    obtain ⟨k', h'⟩ := ih
    cases k' with
    | zero => cases h'
    | succ k' =>
      unfold runLoop at h'
      rw [hb] at h'
      exact ⟨k', h'⟩

end loops

/-! ### The explicit integrators -/

section erk
variable {F : Type} [Add F] [Sub F] [Mul F] [Div F] [Neg F] [Scalar F] {n : ℕ} {nd : Bool} {f : F → Vec F n → Vec F n} {t0 t1 : F} {y0 : Vec F n}
  {o : ErkOpts F} {oo : OutOpts} {dt : F} {sc : SolverCoeffs F}

/-- `b` has everything `a` has, and perhaps more behind it -/
structure ErkMore (a b : ErkOutput F n) : Prop where
  t : a.tVals <+: b.tVals
  y : a.yVals <+: b.yVals
  k : a.stages <+: b.stages
  ee : a.errEst <+: b.errEst
  e : a.err <+: b.err
  c : a.calls <+: b.calls
  l : a.file <+: b.file
  att : a.attempt ≤ b.attempt
  rej : a.rejectErr ≤ b.rejectErr
  ev : a.funEvals ≤ b.funEvals

theorem ErkMore.refl (a : ErkOutput F n) : ErkMore a a :=
  ⟨List.prefix_refl _, List.prefix_refl _, List.prefix_refl _, List.prefix_refl _, List.prefix_refl _, List.prefix_refl _, List.prefix_refl _, le_refl _,
    le_refl _, le_refl _⟩

theorem ErkMore.trans {a b c : ErkOutput F n} (h : ErkMore a b) (h' : ErkMore b c) : ErkMore a c :=
  ⟨h.t.trans h'.t, h.y.trans h'.y, h.k.trans h'.k, h.ee.trans h'.ee, h.e.trans h'.e, h.c.trans h'.c, h.l.trans h'.l, h.att.trans h'.att, h.rej.trans h'.rej,
    h.ev.trans h'.ev⟩

theorem erk_more {mo : ℕ} {s : ErkState F n} :
    (∀ s', erkBody nd f t1 o oo sc mo s = .next s' → ErkMore s.sol s'.sol) ∧
      ∀ out, erkBody nd f t1 o oo sc mo s = .done (.ret out) → ErkMore s.sol out := by
  have hc := bodyCase nd f t1 o oo sc mo s
  constructor
  · intro s' hb
    rw [hb] at hc
    cases hc with
    | accepted h hm hb2 a hA hE hr =>
      obtain ⟨L, hs, -⟩ := attempt_sol f o sc mo s (clipDt s.t t1 s.dt) s.sol.bump
      rw [← attemptAt, ← hA] at hs
      cases hw : oo.writeToFile <;> constructor <;> simp [accept, ErkOutput.line, hw, hs, ErkOutput.bump]
    | rejected h hm hb2 a hA hE had hr =>
      obtain ⟨L, hs, -⟩ := attempt_sol f o sc mo s (clipDt s.t t1 s.dt) s.sol.bump
      rw [← attemptAt, ← hA] at hs
      cases hw : oo.writeToFile <;> constructor <;> simp [rejectStep, ErkOutput.line, hw, hs, ErkOutput.bump]
  · intro out hb
    rw [hb] at hc
    cases hc with
    | finished h => constructor <;> simp
    | maxSteps h h0 h1 => constructor <;> simp [ErkOutput.bump]

/-- **C124 (step limit, explicit).**  Let two calls differ in `max_steps` only, `N` being the stricter limit.  The run with `N` either does exactly what the
run with `N'` does, or it returns `ERROR_MAX_STEPS_EXCEEDED`, and then all it reports is the beginning of what the other run reports: the limit cuts a run off
and changes nothing in it. -/
theorem C124_erk_max_steps {N N' : ℤ} (hN : N' < 0 ∨ (0 ≤ N ∧ N ≤ N')) {fuel : ℕ} {r : Outcome (ErkOutput F n)}
    (h : erkGuts nd f t0 t1 y0 { o with maxSteps := N } dt sc oo fuel = some r) :
    erkGuts nd f t0 t1 y0 { o with maxSteps := N' } dt sc oo fuel = some r ∨
    ∃ out, r = .ret out ∧ out.status = 128 ∧ ∀ fuel' out', erkGuts nd f t0 t1 y0 { o with maxSteps := N' } dt sc oo fuel' = some (.ret out') →
      out.tVals <+: out'.tVals ∧ out.yVals <+: out'.yVals ∧ out.stages <+: out'.stages ∧ out.errEst <+: out'.errEst ∧ out.err <+: out'.err ∧
      out.calls <+: out'.calls ∧ out.file <+: out'.file ∧ out.rejectErr ≤ out'.rejectErr ∧ out.funEvals ≤ out'.funEvals := by
  unfold erkGuts at h ⊢
  dsimp only at h ⊢
  split at h
  · rename_i hd
    simp only [hd, if_true]
    exact Or.inl h
  rename_i hd
  simp only [hd]
  cases hmo : minOrder sc with
  | none => rw [hmo] at h; exact Or.inl h
  | some mo =>
    rw [hmo] at h
    dsimp only at h ⊢
    have key := runLoop_limit (body := erkBody nd f t1 { o with maxSteps := N } oo sc mo) (body' := erkBody nd f t1 { o with maxSteps := N' } oo sc mo)
      (lim := fun s => 0 ≤ N ∧ N < s.step) (stop := fun s => { s.sol.bump with status := 128 }) (fun s hl => by
        by_cases ht : ltb s.t t1 = true
        · left; unfold erkBody; simp only [ht, if_true]; rw [if_pos hl]
        · right; unfold erkBody; simp only [ht]; rfl) (fun s hl => by
        have hl' : ¬ (0 ≤ N' ∧ N' < s.step) := by omega
        unfold erkBody
        rw [if_neg hl, if_neg hl']
        rfl) h
    rcases key with h' | ⟨s', hr, -, rfl⟩
    · exact Or.inl h'
    · refine Or.inr ⟨_, rfl, rfl, fun fuel' out' h' => ?_⟩
      obtain ⟨k', hk⟩ := runLoop_from hr h'
      have hm : ErkMore s'.sol out' := runLoop_inv (Inv := fun t => ErkMore s'.sol t.sol) (P := fun r => ∀ x, r = .ret x → ErkMore s'.sol x)
        (fun a b ha hb => ha.trans (erk_more.1 b hb)) (fun a r ha hb x hx => ha.trans (erk_more.2 x (by rw [hb, hx]))) (ErkMore.refl _) hk out' rfl
      exact ⟨hm.t, hm.y, hm.k, hm.ee, hm.e, hm.c, hm.l, hm.rej, hm.ev⟩

/-- **C124 (fixed steps).**  With adaptive stepping off the tolerances and `max_dt` have no influence whatever. -/
theorem C124_erk_fixed {o' : ErkOpts F} (ho : o.adaptive = false) (ho' : o'.adaptive = false) (hm : o.maxSteps = o'.maxSteps) (fuel : ℕ) :
    erkGuts nd f t0 t1 y0 o dt sc oo fuel = erkGuts nd f t0 t1 y0 o' dt sc oo fuel := by
  have hb : ∀ mo, erkBody nd f t1 o oo sc mo = erkBody nd f t1 o' oo sc mo := by
    intro mo
    funext s
    unfold erkBody attemptAt attempt
    rw [ho, ho', hm]
    rfl
  unfold erkGuts
  simp only [hb]

theorem attempt_noFile (s : ErkState F n) (mo : ℕ) (l : List (F × Vec F n)) :
    attemptAt f t1 o sc mo { s with sol := { s.sol with file := l } } =
      { attemptAt f t1 o sc mo s with sol := { (attemptAt f t1 o sc mo s).sol with file := l } } := by
  have key : ∀ (is : List ℕ) (Ks : ℕ → Vec F n) (sol : ErkOutput F n) (t dt : F) (y : Vec F n),
      is.foldl (fun st i => let r := evalFun f (t + sc.cn i * dt) (stageArg sc dt y st.1 i) st.2; (Function.update st.1 i r.1, r.2)) (Ks, { sol with file := l }) =
      ((is.foldl (fun st i => let r := evalFun f (t + sc.cn i * dt) (stageArg sc dt y st.1 i) st.2; (Function.update st.1 i r.1, r.2)) (Ks, sol)).1,
        { (is.foldl (fun st i => let r := evalFun f (t + sc.cn i * dt) (stageArg sc dt y st.1 i) st.2; (Function.update st.1 i r.1, r.2)) (Ks, sol)).2 with
          file := l }) := by
    intro is
    induction is with
    | nil => intro _ _ _ _ _; rfl
    | cons i is ih =>
      intro Ks sol t dt y
      simp only [List.foldl_cons]
      exact ih (Function.update Ks i (evalFun f (t + sc.cn i * dt) (stageArg sc dt y Ks i) sol).1) (evalFun f (t + sc.cn i * dt) (stageArg sc dt y Ks i) sol).2 t dt y
  unfold attemptAt attempt stageLoop
  dsimp only [ErkOutput.bump]
  have := key (List.range' (stageStart sc) (sc.ns - stageStart sc)) s.Ks s.sol.bump s.t (clipDt s.t t1 s.dt) s.y
  dsimp only [ErkOutput.bump] at this
  rw [this]
  cases o.adaptive
  · rfl
  · simp only [if_true]
    split <;> rfl

theorem erkBody_file {oo' : OutOpts} (hs : oo.writeToFile = true → oo.streamSet = true) (hs' : oo'.writeToFile = true → oo'.streamSet = true) (mo : ℕ)
    (s : ErkState F n) (l : List (F × Vec F n)) :
    StepRel (fun a b => ∃ l, b = { a with sol := { a.sol with file := l } }) (fun r r' => ∃ l, r' = r.bind fun x => .ret { x with file := l })
      (erkBody nd f t1 o oo sc mo s) (erkBody nd f t1 o oo' sc mo { s with sol := { s.sol with file := l } }) := by
  have w : (oo.writeToFile && !oo.streamSet) = false := by
    cases h : oo.writeToFile with
    | false => rfl
    | true => rw [hs h]; rfl
  have w' : (oo'.writeToFile && !oo'.streamSet) = false := by
    cases h : oo'.writeToFile with
    | false => rfl
    | true => rw [hs' h]; rfl
  unfold erkBody
  dsimp only
  rw [attempt_noFile s mo l]
  dsimp only
  split
  swap
  · exact .done ⟨l, rfl⟩
  split
  · exact .done ⟨l, rfl⟩
  split
  · exact .done ⟨l, rfl⟩
  split
  · exact .done ⟨l, rfl⟩
  rw [w, w']
  simp only [Bool.false_eq_true, if_false]
  split
  · refine .next ?_
    unfold accept ErkOutput.line
    cases oo.writeToFile <;> cases oo'.writeToFile <;> exact ⟨_, rfl⟩
  · refine .next ?_
    unfold rejectStep ErkOutput.line
    cases oo.writeToFile <;> cases oo'.writeToFile <;> exact ⟨_, rfl⟩

/-- **C124 (output options, explicit).**  Two calls that differ in their output options, which ask for nothing but existing streams, take the same time, end the
same way and return the same, apart from the lines written to the stream. -/
theorem C124_erk_output {oo' : OutOpts} (hs : oo.writeToFile = true → oo.streamSet = true) (hs' : oo'.writeToFile = true → oo'.streamSet = true) (fuel : ℕ) :
    (erkGuts nd f t0 t1 y0 o dt sc oo fuel = none ∧ erkGuts nd f t0 t1 y0 o dt sc oo' fuel = none) ∨
    ∃ r l, erkGuts nd f t0 t1 y0 o dt sc oo fuel = some r ∧ erkGuts nd f t0 t1 y0 o dt sc oo' fuel = some (r.bind fun x => .ret { x with file := l }) := by
  unfold erkGuts
  dsimp only
  split
  · exact Or.inr ⟨_, [], rfl, rfl⟩
  split
  · exact Or.inr ⟨_, [], rfl, rfl⟩
  rename_i mo _
  have := runLoop_sim (Sim := fun a b : ErkState F n => ∃ l, b = { a with sol := { a.sol with file := l } })
    (P := fun (r r' : Outcome (ErkOutput F n)) => ∃ l, r' = r.bind fun x => .ret { x with file := l })
    (fun s s' hss => by
      obtain ⟨l, rfl⟩ := hss
      exact erkBody_file (nd := nd) (f := f) (t1 := t1) (o := o) (sc := sc) hs hs' mo s l) fuel
    (s := erkInit f t0 y0 (clipDt t0 t1 dt) sc) (s' := erkInit f t0 y0 (clipDt t0 t1 dt) sc) ⟨_, rfl⟩
  rcases this with h | ⟨r, r', h1, h2, l, rfl⟩
  · exact Or.inl h
  · exact Or.inr ⟨r, l, h1, h2⟩

end erk

/-! ### The implicit integrators -/

section irk
variable {F : Type} [Add F] [Sub F] [Mul F] [Div F] [Neg F] [Scalar F] {n : ℕ} {nd : Bool} {la : LinAlg F} {fn : OdeFun F n} {t0 t1 : F} {y0 : Vec F n}
  {o : IrkOpts F} {no : NewtonOpts F} {oo : OutOpts} {dt : F} {sc : SolverCoeffs F}

/-- `b` has everything `a` has, and perhaps more behind it -/
structure IrkMore {m : ℕ} (a b : IrkOutput F m n) : Prop where
  t : a.tVals <+: b.tVals
  y : a.yVals <+: b.yVals
  k : a.stages <+: b.stages
  ee : a.errEst <+: b.errEst
  e : a.err <+: b.err
  fs : a.log.funs <+: b.log.funs
  js : a.log.jacs <+: b.log.jacs
  l : a.file <+: b.file
  rej : a.count.rejectErr ≤ b.count.rejectErr
  rejN : a.count.rejectNewton ≤ b.count.rejectNewton
  succ : a.count.newtonSuccess ≤ b.count.newtonSuccess
  fe : a.count.funEvals ≤ b.count.funEvals
  je : a.count.jacEvals ≤ b.count.jacEvals

theorem IrkMore.refl {m : ℕ} (a : IrkOutput F m n) : IrkMore a a :=
  ⟨List.prefix_refl _, List.prefix_refl _, List.prefix_refl _, List.prefix_refl _, List.prefix_refl _, List.prefix_refl _, List.prefix_refl _,
    List.prefix_refl _, le_refl _, le_refl _, le_refl _, le_refl _, le_refl _⟩

theorem IrkMore.trans {m : ℕ} {a b c : IrkOutput F m n} (h : IrkMore a b) (h' : IrkMore b c) : IrkMore a c :=
  ⟨h.t.trans h'.t, h.y.trans h'.y, h.k.trans h'.k, h.ee.trans h'.ee, h.e.trans h'.e, h.fs.trans h'.fs, h.js.trans h'.js, h.l.trans h'.l, h.rej.trans h'.rej,
    h.rejN.trans h'.rejN, h.succ.trans h'.succ, h.fe.trans h'.fe, h.je.trans h'.je⟩

theorem irk_more {mo : ℕ} {d d2 : Vec F sc.ns} {s : IrkState F (sc.ns * n) n} :
    (∀ s', irkBody nd la fn t1 o no oo sc mo d d2 s = .next s' → IrkMore s.sol s'.sol) ∧
      ∀ out, irkBody nd la fn t1 o no oo sc mo d d2 s = .done (.ret out) → IrkMore s.sol out := by
  have hc := bodyCaseI nd la fn t1 o no oo sc mo d d2 s
  constructor
  · intro s' hb
    rw [hb] at hc
    cases hc with
    | newton h hm r hr hs had =>
      obtain ⟨-, L, K, hl, hcn⟩ := solve_count hr
      constructor <;> simp [newtonReject, hcn, hl, IrkOutput.bump]
    | rejected h hm r hr hs had a ha hE hrj =>
      obtain ⟨-, L, K, hl, hcn⟩ := solve_count hr
      obtain ⟨L', hl', hcn', -⟩ := attemptI_count ha
      constructor <;> simp [rejectI, hcn', hl', StageResult.success, hl, hcn, IrkOutput.bump] <;> omega
    | accepted h hm r hr hs had a ha hE hrj hi hw =>
      obtain ⟨-, L, K, hl, hcn⟩ := solve_count hr
      obtain ⟨L', hl', hcn', -⟩ := attemptI_count ha
      by_cases e1 : (s.step + 1) % oo.interval.toNat = 0 <;> cases e2 : oo.storeInVectors <;>
        cases e3 : oo.writeToFile <;> constructor <;>
        simp [acceptI, e1, e2, e3, hcn', hl', StageResult.success, hl, hcn, IrkOutput.bump] <;> omega
  · intro out hb
    rw [hb] at hc
    cases hc with
    | finished h => constructor <;> simp
    | limit h hm => constructor <;> simp [IrkOutput.bump]
    | general h hm r hr hs had =>
      obtain ⟨-, L, K, hl, hcn⟩ := solve_count hr
      constructor <;> simp [hcn, hl, IrkOutput.bump]
    | stop r hr => exact absurd rfl (hr out)

/-- a call of `irk_guts` ends before its loop or runs the loop; neither the step limit nor the output options decide which -/
theorem irkGuts_form (nd : Bool) (la : LinAlg F) (fn : OdeFun F n) (t0 t1 : F) (y0 : Vec F n) (o : IrkOpts F) (dt : F) (sc : SolverCoeffs F) :
    (∃ r : Outcome (IrkOutput F (sc.ns * n) n), (∀ x, r ≠ .ret x) ∧
      ∀ N oo fuel, irkGuts nd la fn t0 t1 y0 { o with maxSteps := N } dt sc oo fuel = some r) ∨
    ∃ no mo d d2, ∀ N oo fuel, irkGuts nd la fn t0 t1 y0 { o with maxSteps := N } dt sc oo fuel =
      runLoop (irkBody nd la fn t1 { o with maxSteps := N } no oo sc mo d d2) fuel (irkInit (sc.ns * n) t0 y0 (clipDt t0 t1 dt) no.maxit) := by
  obtain ⟨oad, ort, oat, omd, oms, ono⟩ := o
  unfold irkGuts
  dsimp only
  cases ono with
  | none => exact Or.inl ⟨_, by cases nd <;> simp, fun _ _ _ => rfl⟩
  | some no =>
    dsimp only
    split
    · exact Or.inl ⟨.assertFail, by simp, fun _ _ _ => rfl⟩
    cases minOrder sc with
    | none => exact Or.inl ⟨.ub, by simp, fun _ _ _ => rfl⟩
    | some mo =>
      dsimp only
      split
      · exact Or.inl ⟨.throws, by simp, fun _ _ _ => rfl⟩
      cases la.inv sc.mat with
      | none => exact Or.inl ⟨.throws, by simp, fun _ _ _ => rfl⟩
      | some Ai =>
        dsimp only
        split
        · exact Or.inl ⟨.throws, by simp, fun _ _ _ => rfl⟩
        · exact Or.inr ⟨no, mo, _, _, fun _ _ _ => rfl⟩

/-- **C124 (step limit, implicit).**  The same for the implicit integrators. -/
theorem C124_irk_max_steps {N N' : ℤ} (hN : N' < 0 ∨ (0 ≤ N ∧ N ≤ N')) {fuel : ℕ} {r : Outcome (IrkOutput F (sc.ns * n) n)}
    (h : irkGuts nd la fn t0 t1 y0 { o with maxSteps := N } dt sc oo fuel = some r) :
    irkGuts nd la fn t0 t1 y0 { o with maxSteps := N' } dt sc oo fuel = some r ∨
    ∃ out, r = .ret out ∧ out.status = 128 ∧ ∀ fuel' out', irkGuts nd la fn t0 t1 y0 { o with maxSteps := N' } dt sc oo fuel' = some (.ret out') →
      out.tVals <+: out'.tVals ∧ out.yVals <+: out'.yVals ∧ out.stages <+: out'.stages ∧ out.errEst <+: out'.errEst ∧ out.err <+: out'.err ∧
      out.log.funs <+: out'.log.funs ∧ out.log.jacs <+: out'.log.jacs ∧ out.file <+: out'.file ∧ out.count.rejectErr ≤ out'.count.rejectErr ∧
      out.count.rejectNewton ≤ out'.count.rejectNewton ∧ out.count.newtonSuccess ≤ out'.count.newtonSuccess ∧
      out.count.funEvals ≤ out'.count.funEvals ∧ out.count.jacEvals ≤ out'.count.jacEvals := by
  rcases irkGuts_form nd la fn t0 t1 y0 o dt sc with ⟨r', -, hr⟩ | ⟨no, mo, d, d2, hr⟩
  · rw [hr] at h ⊢
    exact Or.inl h
  simp only [hr] at h ⊢
  have key := runLoop_limit (body := irkBody nd la fn t1 { o with maxSteps := N } no oo sc mo d d2)
    (body' := irkBody nd la fn t1 { o with maxSteps := N' } no oo sc mo d d2)
    (lim := fun s => 0 ≤ N ∧ N < s.step) (stop := fun s => { s.sol.bump with status := 128 }) (fun s hl => by
      by_cases ht : ltb s.t t1 = true
      · left; unfold irkBody; simp only [ht, if_true]; rw [if_pos hl]
      · right; unfold irkBody; simp only [ht]; rfl) (fun s hl => by
      have hl' : ¬ (0 ≤ N' ∧ N' < s.step) := by omega
      unfold irkBody
      dsimp only
      rw [if_neg hl, if_neg hl']
      rfl) h
  rcases key with h' | ⟨s', hr, -, rfl⟩
  · exact Or.inl h'
  · refine Or.inr ⟨_, rfl, rfl, fun fuel' out' h' => ?_⟩
    obtain ⟨k', hk⟩ := runLoop_from hr h'
    have hm : IrkMore s'.sol out' := runLoop_inv (Inv := fun t => IrkMore s'.sol t.sol) (P := fun r => ∀ x, r = .ret x → IrkMore s'.sol x)
      (fun a b ha hb => ha.trans (irk_more.1 b hb)) (fun a r ha hb x hx => ha.trans (irk_more.2 x (by rw [hb, hx]))) (IrkMore.refl _) hk out' rfl
    exact ⟨hm.t, hm.y, hm.k, hm.ee, hm.e, hm.fs, hm.js, hm.l, hm.rej, hm.rejN, hm.succ, hm.fe, hm.je⟩

/-- the samples of a list taken at every `k`-th place -/
def EveryNth {A : Type} (k : ℕ) (l l' : List A) : Prop := ∀ i, l[i]? = l'[k * i]?

/-- two states of runs, the first of which keeps every sample, the second every `k`-th or none -/
structure Thinned {m : ℕ} (oo' : OutOpts) (s s' : IrkState F m n) : Prop where
  same : s' = { s with sol := s'.sol }
  status : s'.sol.status = s.sol.status
  elapsed : s'.sol.elapsed = s.sol.elapsed
  frac : s'.sol.acceptFrac = s.sol.acceptFrac
  count : s'.sol.count = s.sol.count
  log : s'.sol.log = s.sol.log
  lt : s.sol.tVals.length = s.step + 1
  ly : s.sol.yVals.length = s.step + 1
  lk : s.sol.stages.length = s.step + 1
  le : s.sol.errEst.length = s.step + 1
  lr : s.sol.err.length = s.step + 1
  t : oo'.storeInVectors = true → EveryNth oo'.interval.toNat s'.sol.tVals s.sol.tVals
  y : oo'.storeInVectors = true → EveryNth oo'.interval.toNat s'.sol.yVals s.sol.yVals
  k : oo'.storeInVectors = true → EveryNth oo'.interval.toNat s'.sol.stages s.sol.stages
  ee : oo'.storeInVectors = true → EveryNth oo'.interval.toNat s'.sol.errEst s.sol.errEst
  e : oo'.storeInVectors = true → EveryNth oo'.interval.toNat s'.sol.err s.sol.err
  t0 : oo'.storeInVectors = false → s'.sol.tVals = s.sol.tVals.take 1 ∧ s'.sol.yVals = s.sol.yVals.take 1

/-- a sample more in the full list, and in the thinned list if it is its turn -/
theorem everyNth_step {A : Type} {k q : ℕ} (hk : 0 < k) {l l' : List A} (hl : l'.length = q + 1) (h : EveryNth k l l') (a : A) :
    EveryNth k (if (q + 1) % k = 0 then l ++ [a] else l) (l' ++ [a]) := by
  have hlen : ∀ i, i < l.length ↔ k * i ≤ q := by
    intro i
    have := h i
    constructor
    · intro hi
      by_contra hc
      rw [List.getElem?_eq_getElem hi, List.getElem?_eq_none (by omega)] at this
      cases this
    · intro hi
      by_contra hc
      rw [List.getElem?_eq_none (by omega), List.getElem?_eq_getElem (by omega)] at this
      cases this
  intro i
  by_cases hi : i < l.length
  · have h1 : (if (q + 1) % k = 0 then l ++ [a] else l)[i]? = l[i]? := by
      split
      · exact List.getElem?_append_left hi
      · rfl
    rw [h1, h i, List.getElem?_append_left (by have := (hlen i).mp hi; omega)]
  · have hq : q < k * i := by
      by_contra hc
      exact hi ((hlen i).mpr (by omega))
    rcases Nat.lt_or_ge (q + 1) (k * i) with h2 | h2
    · rw [List.getElem?_eq_none (l := l' ++ [a]) (by simp; omega)]
      rw [List.getElem?_eq_none]
      split
      · rename_i hm
        rw [List.length_append, List.length_singleton]
        by_contra hc
        have hil : i = l.length := by omega
        obtain ⟨j, hj⟩ := Nat.dvd_of_mod_eq_zero hm
        have hji : j < i := by
          by_contra hc'
          have : k * i ≤ k * j := Nat.mul_le_mul_left k (by omega)
          omega
        have := (hlen j).mp (by omega)
        omega
      · omega
    · have e : k * i = q + 1 := by omega
      have hm : (q + 1) % k = 0 := by rw [← e]; exact Nat.mul_mod_right k i
      rw [if_pos hm, e, ← hl]
      have hil : i = l.length := by
        rcases Nat.lt_or_ge l.length i with h3 | h3
        · exfalso
          have h4 : q < k * l.length := by
            by_contra hc
            exact absurd ((hlen l.length).mpr (by omega)) (by omega)
          have h5 : k * l.length < k * i := Nat.mul_lt_mul_of_pos_left h3 hk
          omega
        · omega
      rw [hil]
      simp

/-- what two runs, the first of which keeps every sample, return -/
structure ThinnedOut {m : ℕ} (oo' : OutOpts) (a b : IrkOutput F m n) : Prop where
  status : b.status = a.status
  elapsed : b.elapsed = a.elapsed
  frac : b.acceptFrac = a.acceptFrac
  count : b.count = a.count
  log : b.log = a.log
  t : oo'.storeInVectors = true → EveryNth oo'.interval.toNat b.tVals a.tVals
  y : oo'.storeInVectors = true → EveryNth oo'.interval.toNat b.yVals a.yVals
  k : oo'.storeInVectors = true → EveryNth oo'.interval.toNat b.stages a.stages
  ee : oo'.storeInVectors = true → EveryNth oo'.interval.toNat b.errEst a.errEst
  e : oo'.storeInVectors = true → EveryNth oo'.interval.toNat b.err a.err
  t0 : oo'.storeInVectors = false → b.tVals = a.tVals.take 1 ∧ b.yVals = a.yVals.take 1

theorem thinned_accept {m : ℕ} {oo' : OutOpts} (hst : oo.storeInVectors = true) (hi : oo.interval.toNat = 1) (hi' : 0 < oo'.interval.toNat)
    {s s' : IrkState F m n} (h : Thinned oo' s s') (a : AttemptI F n) : Thinned oo' (acceptI oo s a) (acceptI oo' s' a) := by
  have hsame := h.same
  have e1 : (s.step + 1) % oo.interval.toNat = 0 := by rw [hi]; exact Nat.mod_one _
  have es : s'.step = s.step := by rw [hsame]
  have et : s'.t = s.t := by rw [hsame]
  have q1 : (acceptI oo s a).sol = { s.sol.bump with
      count := a.count, log := a.log, tVals := s.sol.tVals ++ [s.t + a.dt], yVals := s.sol.yVals ++ [a.yn], stages := s.sol.stages ++ [fun _ => lit 0],
      errEst := s.sol.errEst ++ [a.errEst], err := s.sol.err ++ [a.err], file := (acceptI oo s a).sol.file } := by
    unfold acceptI
    simp only [e1, hst, IrkOutput.bump, decide_true, Bool.true_and, if_true]
    split <;> rfl
  have q2 : (acceptI oo' s' a).sol = { s'.sol.bump with
      count := a.count, log := a.log
      tVals := if oo'.storeInVectors then (if (s.step + 1) % oo'.interval.toNat = 0 then s'.sol.tVals ++ [s.t + a.dt] else s'.sol.tVals) else s'.sol.tVals
      yVals := if oo'.storeInVectors then (if (s.step + 1) % oo'.interval.toNat = 0 then s'.sol.yVals ++ [a.yn] else s'.sol.yVals) else s'.sol.yVals
      stages := if oo'.storeInVectors then (if (s.step + 1) % oo'.interval.toNat = 0 then s'.sol.stages ++ [fun _ => lit 0] else s'.sol.stages) else s'.sol.stages
      errEst := if oo'.storeInVectors then (if (s.step + 1) % oo'.interval.toNat = 0 then s'.sol.errEst ++ [a.errEst] else s'.sol.errEst) else s'.sol.errEst
      err := if oo'.storeInVectors then (if (s.step + 1) % oo'.interval.toNat = 0 then s'.sol.err ++ [a.err] else s'.sol.err) else s'.sol.err
      file := (acceptI oo' s' a).sol.file } := by
    unfold acceptI
    rw [es, et]
    by_cases e2 : (s.step + 1) % oo'.interval.toNat = 0 <;> cases e3 : oo'.storeInVectors <;> cases e4 : oo'.writeToFile <;>
      simp [e2, IrkOutput.bump]
  refine ⟨?_, ?_, ?_, ?_, ?_, ?_, ?_, ?_, ?_, ?_, ?_, ?_, ?_, ?_, ?_, ?_, ?_⟩
  · unfold acceptI
    rw [hsame]
  · rw [q1, q2]; exact h.status
  · rw [q1, q2]; exact h.elapsed
  · rw [q1, q2]; exact h.frac
  · rw [q1, q2]
  · rw [q1, q2]
  · rw [q1]; simp only [List.length_append, List.length_singleton, h.lt]; rfl
  · rw [q1]; simp only [List.length_append, List.length_singleton, h.ly]; rfl
  · rw [q1]; simp only [List.length_append, List.length_singleton, h.lk]; rfl
  · rw [q1]; simp only [List.length_append, List.length_singleton, h.le]; rfl
  · rw [q1]; simp only [List.length_append, List.length_singleton, h.lr]; rfl
  · intro hs; rw [q1, q2]; simp only [hs, if_true]; exact everyNth_step hi' h.lt (h.t hs) _
  · intro hs; rw [q1, q2]; simp only [hs, if_true]; exact everyNth_step hi' h.ly (h.y hs) _
  · intro hs; rw [q1, q2]; simp only [hs, if_true]; exact everyNth_step hi' h.lk (h.k hs) _
  · intro hs; rw [q1, q2]; simp only [hs, if_true]; exact everyNth_step hi' h.le (h.ee hs) _
  · intro hs; rw [q1, q2]; simp only [hs, if_true]; exact everyNth_step hi' h.lr (h.e hs) _
  · intro hs
    rw [q1, q2]
    simp only [hs, Bool.false_eq_true, if_false]
    rw [List.take_append_of_le_length (by rw [h.lt]; omega), List.take_append_of_le_length (by rw [h.ly]; omega)]
    exact h.t0 hs

theorem thinned_body {mo : ℕ} {d d2 : Vec F sc.ns} {oo' : OutOpts} (hst : oo.storeInVectors = true) (hi : oo.interval.toNat = 1)
    (hi' : 0 < oo'.interval.toNat) (hs : oo.writeToFile = true → oo.streamSet = true) (hs' : oo'.writeToFile = true → oo'.streamSet = true)
    {s s' : IrkState F (sc.ns * n) n} (h : Thinned oo' s s') :
    StepRel (Thinned oo') (fun r r' => (∃ x x', r = .ret x ∧ r' = .ret x' ∧ ThinnedOut oo' x x') ∨ (r' = r ∧ ∀ x, r ≠ .ret x))
      (irkBody nd la fn t1 o no oo sc mo d d2 s) (irkBody nd la fn t1 o no oo' sc mo d d2 s') := by
  have w : (oo.writeToFile && !oo.streamSet) = false := by
    cases h : oo.writeToFile with
    | false => rfl
    | true => rw [hs h]; rfl
  have w' : (oo'.writeToFile && !oo'.streamSet) = false := by
    cases h : oo'.writeToFile with
    | false => rfl
    | true => rw [hs' h]; rfl
  have hacc := fun a => thinned_accept hst hi hi' h a
  have e1 : s'.t = s.t := by rw [h.same]
  have e2 : s'.dt = s.dt := by rw [h.same]
  have e3 : s'.y = s.y := by rw [h.same]
  have e4 : s'.step = s.step := by rw [h.same]
  have e5 : s'.newtonMaxit = s.newtonMaxit := by rw [h.same]
  have e6 : s'.sol.bump.count = s.sol.bump.count := by simp only [IrkOutput.bump, h.count]
  have e7 : ∀ dt r, attemptI la fn o sc mo d d2 s' dt r = attemptI la fn o sc mo d d2 s dt r := by
    intro dt r; rw [h.same]; rfl
  unfold irkBody
  dsimp only
  rw [e1, e2, e3, e4, e5, e6, h.log]
  split
  swap
  · exact .done (Or.inl ⟨_, _, rfl, rfl, h.status, h.elapsed, by rw [h.count], h.count, rfl, h.t, h.y, h.k, h.ee, h.e, h.t0⟩)
  split
  · exact .done (Or.inl ⟨_, _, rfl, rfl, rfl, h.elapsed, h.frac, rfl, h.log, h.t, h.y, h.k, h.ee, h.e, h.t0⟩)
  cases hr : newtonSolveStages nd la fn sc s.t (clipDt s.t t1 s.dt) s.y s.newtonMaxit no.refreshJac no.dxDelta no.tol s.sol.bump.count s.sol.log with
  | assertFail => exact .done (Or.inr ⟨rfl, by simp⟩)
  | throws => exact .done (Or.inr ⟨rfl, by simp⟩)
  | ub => exact .done (Or.inr ⟨rfl, by simp⟩)
  | ret r =>
    dsimp only
    split
    · split
      · exact .done (Or.inl ⟨_, _, rfl, rfl, rfl, h.elapsed, h.frac, rfl, rfl, h.t, h.y, h.k, h.ee, h.e, h.t0⟩)
      · refine .next ⟨?_, h.status, h.elapsed, h.frac, rfl, rfl, h.lt, h.ly, h.lk, h.le, h.lr, h.t, h.y, h.k, h.ee, h.e, h.t0⟩
        unfold newtonReject
        rw [h.same]
    split
    · exact .done (Or.inr ⟨rfl, by simp⟩)
    rw [e7]
    cases attemptI la fn o sc mo d d2 s (clipDt s.t t1 s.dt) r.success with
    | none => exact .done (Or.inr ⟨rfl, by simp⟩)
    | some a =>
      dsimp only
      split
      · exact .done (Or.inr ⟨rfl, by simp⟩)
      split
      · refine .next ⟨?_, h.status, h.elapsed, h.frac, rfl, rfl, h.lt, h.ly, h.lk, h.le, h.lr, h.t, h.y, h.k, h.ee, h.e, h.t0⟩
        unfold rejectI
        rw [h.same]
      have z : ¬ oo.interval.toNat = 0 := by rw [hi]; exact one_ne_zero
      have z' : ¬ oo'.interval.toNat = 0 := hi'.ne'
      simp only [z, z', if_false, Bool.and_assoc, w, w', Bool.and_false, Bool.false_eq_true]
      exact .next (hacc a)

/-- **C124 (output options, implicit).**  Let `oo` keep every sample and `oo'` every `k`-th or none (`output_interval = k > 0`), both asking for nothing but
existing streams.  The two runs take the same time, end the same way, make the same calls and report the same counters, and the samples of the second are
every `k`-th sample of the first, or the initial one only. -/
theorem C124_irk_output {oo' : OutOpts} (hst : oo.storeInVectors = true) (hi : oo.interval.toNat = 1) (hi' : 0 < oo'.interval.toNat)
    (hs : oo.writeToFile = true → oo.streamSet = true) (hs' : oo'.writeToFile = true → oo'.streamSet = true) (fuel : ℕ) :
    (irkGuts nd la fn t0 t1 y0 o dt sc oo fuel = none ∧ irkGuts nd la fn t0 t1 y0 o dt sc oo' fuel = none) ∨
    ∃ r r', irkGuts nd la fn t0 t1 y0 o dt sc oo fuel = some r ∧ irkGuts nd la fn t0 t1 y0 o dt sc oo' fuel = some r' ∧
      ((r' = r ∧ ∀ x, r ≠ .ret x) ∨ ∃ x x', r = .ret x ∧ r' = .ret x' ∧ x'.status = x.status ∧ x'.count = x.count ∧ x'.log = x.log ∧
        x'.acceptFrac = x.acceptFrac ∧
        (oo'.storeInVectors = true → ∀ i, x'.tVals[i]? = x.tVals[oo'.interval.toNat * i]? ∧ x'.yVals[i]? = x.yVals[oo'.interval.toNat * i]? ∧
          x'.stages[i]? = x.stages[oo'.interval.toNat * i]? ∧ x'.errEst[i]? = x.errEst[oo'.interval.toNat * i]? ∧
          x'.err[i]? = x.err[oo'.interval.toNat * i]?) ∧
        (oo'.storeInVectors = false → x'.tVals = x.tVals.take 1 ∧ x'.yVals = x.yVals.take 1)) := by
  rcases irkGuts_form nd la fn t0 t1 y0 o dt sc with ⟨r, hr, h⟩ | ⟨no, mo, d, d2, h⟩
  · exact Or.inr ⟨r, r, h o.maxSteps oo fuel, h o.maxSteps oo' fuel, Or.inl ⟨rfl, hr⟩⟩
  rw [show irkGuts nd la fn t0 t1 y0 o dt sc oo fuel = _ from h o.maxSteps oo fuel,
    show irkGuts nd la fn t0 t1 y0 o dt sc oo' fuel = _ from h o.maxSteps oo' fuel]
  have e0 : ∀ {A : Type} (a : A) (k : ℕ), 0 < k → EveryNth k [a] [a] := by
    intro A a k hk i
    cases i with
    | zero => rfl
    | succ i =>
      rw [List.getElem?_eq_none (by simp), List.getElem?_eq_none]
      have : k * 1 ≤ k * (i + 1) := Nat.mul_le_mul_left k (by omega)
      simp only [List.length_singleton]
      omega
  rcases runLoop_sim (fun s s' hss => thinned_body (nd := nd) (la := la) (fn := fn) (t1 := t1) (o := o) (no := no) (mo := mo) (d := d) (d2 := d2) hst hi hi' hs hs' hss) fuel
      (s := irkInit (sc.ns * n) t0 y0 (clipDt t0 t1 dt) no.maxit) (s' := irkInit (sc.ns * n) t0 y0 (clipDt t0 t1 dt) no.maxit)
      ⟨rfl, rfl, rfl, rfl, rfl, rfl, rfl, rfl, rfl, rfl, rfl, fun _ => e0 _ _ hi', fun _ => e0 _ _ hi', fun _ => e0 _ _ hi', fun _ => e0 _ _ hi',
        fun _ => e0 _ _ hi', fun _ => ⟨rfl, rfl⟩⟩ with h | ⟨r, r', h1, h2, h3⟩
  · exact Or.inl h
  · refine Or.inr ⟨r, r', h1, h2, ?_⟩
    rcases h3 with ⟨x, x', rfl, rfl, g⟩ | h3
    · exact Or.inr ⟨x, x', rfl, rfl, g.status, g.count, g.log, g.frac, fun hq i => ⟨g.t hq i, g.y hq i, g.k hq i, g.ee hq i, g.e hq i⟩, g.t0⟩
    · exact Or.inl h3

end irk

/-! ### examples: runs in binary64 -/

section examples
open FP

/-- a `pow` that lets every step grow -/
local instance powFour : Libm := ⟨fun _ _ => fin 4⟩

/-- status and number of recorded times of a run -/
def erkEnd {n : ℕ} : Option (Outcome (ErkOutput FP n)) → Option (ℤ × ℕ)
  | some (.ret out) => some (out.status, out.tVals.length)
  | _ => none

/-- status and number of recorded times of a run -/
def irkEnd {m n : ℕ} : Option (Outcome (IrkOutput FP m n)) → Option (ℤ × ℕ)
  | some (.ret out) => some (out.status, out.tVals.length)
  | _ => none

/-- Euler's method for `y' = 1` on `[0, 1]` with steps 1/4 -/
def quarters (N : ℤ) : Option (Outcome (ErkOutput FP 1)) :=
  erkGuts false (fun _ _ _ => lit 1) (lit 0) (lit 1) (fun _ => lit 0)
    { ({ adaptive := false, relTol := lit 1, absTol := lit 1, maxDt := lit 0, maxSteps := 0 } : ErkOpts FP) with maxSteps := N }
    (lit (1 / 4)) (erkCoeffs 100) OutOpts.dflt 6

/-- with `max_steps = 1` the run is cut off after two steps, with -1 or 9 it is not -/
theorem quarters_ends : erkEnd (quarters 1) = some (128, 3) ∧ erkEnd (quarters (-1)) = some (0, 5) ∧ erkEnd (quarters 9) = some (0, 5) := by
  decide +kernel

/-- `C124_erk_max_steps`: the three samples of the first run are the first three of the second -/
example : ∃ a b, quarters 1 = some (.ret a) ∧ quarters (-1) = some (.ret b) ∧ a.tVals.length = 3 ∧ b.tVals.length = 5 ∧
    a.tVals <+: b.tVals ∧ a.yVals <+: b.yVals ∧ a.calls <+: b.calls := by
  obtain ⟨h1, h2, -⟩ := quarters_ends
  rcases ha : quarters 1 with _ | r
  · rw [ha] at h1; cases h1
  rcases hb : quarters (-1) with _ | r'
  · rw [hb] at h2; cases h2
  rw [ha] at h1
  rw [hb] at h2
  cases r with
  | ret a =>
    cases r' with
    | ret b =>
      simp only [erkEnd, Option.some.injEq, Prod.mk.injEq] at h1 h2
      have ha' := ha
      unfold quarters at ha hb
      rcases C124_erk_max_steps (N' := -1) (Or.inl (by decide)) ha with h | ⟨out, hout, -, h⟩
      · rw [hb] at h
        cases h
        omega
      · cases hout
        obtain ⟨g1, g2, -, -, -, g6, -⟩ := h _ _ hb
        exact ⟨a, b, rfl, rfl, h1.2, h2.2, g1, g2, g6⟩
    | _ => cases h2
  | _ => cases h1

/-- `C124_erk_fixed`, `C124_erk_output`: other tolerances, another step limit for the control, a stream: the same numbers -/
example : ∃ r l, quarters (-1) = some r ∧
    erkGuts (F := FP) (n := 1) false (fun _ _ _ => lit 1) (lit 0) (lit 1) (fun _ => lit 0)
      { adaptive := false, relTol := lit 7, absTol := FP.nan, maxDt := lit (1 / 8), maxSteps := -1 } (lit (1 / 4)) (erkCoeffs 100) bothOutputs 6 =
      some (r.bind fun x => .ret { x with file := l }) := by
  have e := C124_erk_fixed (nd := false) (f := fun (_ : FP) (_ : Vec FP 1) _ => lit 1) (t0 := lit 0) (t1 := lit 1) (y0 := fun _ => lit 0) (dt := lit (1 / 4))
    (sc := erkCoeffs 100) (oo := OutOpts.dflt) (o := { adaptive := false, relTol := lit 1, absTol := lit 1, maxDt := lit 0, maxSteps := -1 })
    (o' := { adaptive := false, relTol := lit 7, absTol := FP.nan, maxDt := lit (1 / 8), maxSteps := -1 }) rfl rfl rfl 6
  rcases C124_erk_output (nd := false) (f := fun (_ : FP) (_ : Vec FP 1) _ => lit 1) (t0 := lit 0) (t1 := lit 1) (y0 := fun _ => lit 0) (dt := lit (1 / 4))
    (sc := erkCoeffs 100) (oo := OutOpts.dflt) (oo' := bothOutputs) (o := { adaptive := false, relTol := lit 7, absTol := FP.nan, maxDt := lit (1 / 8), maxSteps := -1 })
    (by decide) (by decide) 6 with ⟨h, -⟩ | ⟨r, l, h1, h2⟩
  · have := quarters_ends.2.1
    unfold quarters at this
    rw [e, h] at this
    cases this
  · refine ⟨r, l, ?_, h2⟩
    unfold quarters
    rw [e]
    exact h1

/-- RADAU_IIA_32 for `y' = 0` on `[0, 1]` with steps 1/4 -/
def restQuarters (N : ℤ) (oo : OutOpts) : Option (Outcome (IrkOutput FP ((irkCoeffs 210 : SolverCoeffs FP).ns * 1) 1)) :=
  irkGuts false laId restFP (fin 0) (fin 1) (fun _ => fin 3)
    { ({ adaptive := true, relTol := fin 1, absTol := fin 1, maxDt := lit (1 / 4), maxSteps := 0, newtonOpts := some NewtonOpts.dflt } : IrkOpts FP) with maxSteps := N }
    (lit (1 / 4)) (irkCoeffs 210) oo 40

/-- with `max_steps = 1` the run is cut off after two steps, with -1 it is not; with `output_interval = 2` three of the five samples are kept -/
theorem restQuarters_ends : irkEnd (restQuarters 1 OutOpts.dflt) = some (128, 3) ∧ irkEnd (restQuarters (-1) OutOpts.dflt) = some (0, 5) ∧
    irkEnd (restQuarters (-1) { OutOpts.dflt with interval := 2 }) = some (0, 3) := by
  decide +kernel

/-- `C124_irk_max_steps`: the three samples of the first run are the first three of the second -/
example : ∃ a b, restQuarters 1 OutOpts.dflt = some (.ret a) ∧ restQuarters (-1) OutOpts.dflt = some (.ret b) ∧ a.tVals.length = 3 ∧ b.tVals.length = 5 ∧
    a.tVals <+: b.tVals ∧ a.yVals <+: b.yVals ∧ a.log.funs <+: b.log.funs := by
  obtain ⟨h1, h2, -⟩ := restQuarters_ends
  rcases ha : restQuarters 1 OutOpts.dflt with _ | r
  · rw [ha] at h1; cases h1
  rcases hb : restQuarters (-1) OutOpts.dflt with _ | r'
  · rw [hb] at h2; cases h2
  rw [ha] at h1
  rw [hb] at h2
  cases r with
  | ret a =>
    cases r' with
    | ret b =>
      simp only [irkEnd, Option.some.injEq, Prod.mk.injEq] at h1 h2
      unfold restQuarters at ha hb
      rcases C124_irk_max_steps (N' := -1) (Or.inl (by decide)) ha with h | ⟨out, hout, -, h⟩
      · rw [hb] at h
        cases h
        omega
      · cases hout
        obtain ⟨g1, g2, -, -, -, g6, -⟩ := h _ _ hb
        exact ⟨a, b, rfl, rfl, h1.2, h2.2, g1, g2, g6⟩
    | _ => cases h2
  | _ => cases h1

/-- `C124_irk_output`: with `output_interval = 2` the second and third sample are the third and fifth of the full run -/
example : ∃ a b, restQuarters (-1) OutOpts.dflt = some (.ret a) ∧ restQuarters (-1) { OutOpts.dflt with interval := 2 } = some (.ret b) ∧
    b.count = a.count ∧ b.log = a.log ∧ b.tVals[1]? = a.tVals[2]? ∧ b.tVals[2]? = a.tVals[4]? := by
  obtain ⟨-, h2, -⟩ := restQuarters_ends
  unfold restQuarters at h2 ⊢
  rcases C124_irk_output (nd := false) (la := laId) (fn := restFP) (t0 := fin 0) (t1 := fin 1) (y0 := fun _ => fin 3) (dt := lit (1 / 4)) (sc := irkCoeffs 210)
    (o := { adaptive := true, relTol := fin 1, absTol := fin 1, maxDt := lit (1 / 4), maxSteps := -1, newtonOpts := some NewtonOpts.dflt })
    (oo := OutOpts.dflt) (oo' := { OutOpts.dflt with interval := 2 }) (by decide) (by decide) (by decide) (by decide) (by decide) 40 with
    ⟨h, -⟩ | ⟨r, r', h3, h4, h5⟩
  · rw [h] at h2; cases h2
  · rw [h3] at h2
    rcases h5 with ⟨-, h5⟩ | ⟨x, x', rfl, rfl, -, h6, h7, -, h8, -⟩
    · cases r with
      | ret x => exact absurd rfl (h5 x)
      | _ => cases h2
    · have h8 := h8 (by decide)
      exact ⟨x, x', h3, h4, h6, h7, (h8 1).1, (h8 2).1⟩

end examples
end Verif
