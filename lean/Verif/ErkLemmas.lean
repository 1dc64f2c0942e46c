import Mathlib.Data.List.Chain
import Verif.Erk

/-!
# Helper lemmas about the explicit integrator, valid for every scalar type
-/

set_option linter.unusedSectionVars false

namespace Verif

section generic
variable {F : Type} [Add F] [Sub F] [Mul F] [Div F] [Neg F] [Scalar F] {n : ℕ}

/-- `stageArg i` only reads the columns below `i`. -/
theorem stageArg_congr (sc : SolverCoeffs F) (dt : F) (y : Vec F n) {K K' : ℕ → Vec F n} {i : ℕ}
    (h : ∀ j < i, K j = K' j) : stageArg sc dt y K i = stageArg sc dt y K' i := by
  unfold stageArg
  have : ∀ (l : List ℕ) (z : Vec F n), (∀ j ∈ l, j < i) →
      l.foldl (fun tmp j => fun k => tmp k + (dt * sc.a i j) * K j k) z =
      l.foldl (fun tmp j => fun k => tmp k + (dt * sc.a i j) * K' j k) z := by
    intro l
    induction l with
    | nil => intros; rfl
    | cons j l ih =>
      intro z hl
      simp only [List.foldl_cons]
      rw [h j (hl j List.mem_cons_self)]
      exact ih _ (fun j' hj' => hl j' (List.mem_cons_of_mem _ hj'))
  exact this _ _ (fun j hj => List.mem_range.mp hj)

/-- the first `m` passes of the stage loop -/
theorem stageFold_spec (f : F → Vec F n → Vec F n) (sc : SolverCoeffs F) (t dt : F) (y : Vec F n)
    (start : ℕ) (Ks : ℕ → Vec F n) (sol : ErkOutput F n) (m : ℕ) :
    ∃ K' L, (List.range' start m).foldl (fun st i =>
        let r := evalFun f (t + sc.cn i * dt) (stageArg sc dt y st.1 i) st.2
        (Function.update st.1 i r.1, r.2)) (Ks, sol)
      = (K', { sol with funEvals := sol.funEvals + m, calls := sol.calls ++ L }) ∧
      L.length = m ∧
      (∀ p ∈ L, ∃ i, start ≤ i ∧ i < start + m ∧ p = (t + sc.cn i * dt, stageArg sc dt y K' i)) ∧
      (∀ i, i < start ∨ start + m ≤ i → K' i = Ks i) ∧
      (∀ i, start ≤ i → i < start + m → K' i = f (t + sc.cn i * dt) (stageArg sc dt y K' i)) := by
  induction m with
  | zero =>
    refine ⟨Ks, [], ?_, rfl, by simp, fun _ _ => rfl, fun i h1 h2 => by omega⟩
    simp
  | succ m ih =>
    obtain ⟨K, L, e, hl, hL, ho, hi⟩ := ih
    have hcongr : ∀ i ≤ start + m, stageArg sc dt y
        (Function.update K (start + m) (f (t + sc.cn (start + m) * dt)
          (stageArg sc dt y K (start + m)))) i = stageArg sc dt y K i := by
      intro i hi
      apply stageArg_congr
      intro j hj
      rw [Function.update_of_ne (by omega)]
    refine ⟨Function.update K (start + m) (f (t + sc.cn (start + m) * dt)
        (stageArg sc dt y K (start + m))), L ++ [(t + sc.cn (start + m) * dt,
        stageArg sc dt y K (start + m))], ?_, by simp [hl], ?_, ?_, ?_⟩
    · rw [List.range'_concat, List.foldl_append, e]
      simp [evalFun, List.append_assoc, Nat.add_assoc]
    · intro p hp
      rcases List.mem_append.mp hp with h | h
      · obtain ⟨i, h1, h2, h3⟩ := hL p h
        refine ⟨i, h1, by omega, ?_⟩
        rw [hcongr i (by omega)]; exact h3
      · rw [List.mem_singleton] at h
        exact ⟨start + m, by omega, by omega, by rw [hcongr _ (le_refl _)]; exact h⟩
    · intro i h
      rw [Function.update_of_ne (by omega)]
      exact ho i (by omega)
    · intro i h1 h2
      by_cases e : i = start + m
      · subst e
        rw [Function.update_self, hcongr _ (le_refl _)]
      · rw [Function.update_of_ne e, hcongr i (by omega)]
        exact hi i h1 (by omega)

/-- **Stage loop.**  What the loop over the stages computes, calls and counts. -/
theorem stageLoop_spec (f : F → Vec F n → Vec F n) (sc : SolverCoeffs F) (t dt : F) (y : Vec F n)
    (start : ℕ) (Ks : ℕ → Vec F n) (sol : ErkOutput F n) :
    ∃ K' L, stageLoop f sc t dt y start Ks sol
      = (K', { sol with funEvals := sol.funEvals + (sc.ns - start), calls := sol.calls ++ L }) ∧
      L.length = sc.ns - start ∧
      (∀ p ∈ L, ∃ i, start ≤ i ∧ i < sc.ns ∧ p = (t + sc.cn i * dt, stageArg sc dt y K' i)) ∧
      (∀ i, i < start → K' i = Ks i) ∧
      (∀ i, start ≤ i → i < sc.ns → K' i = f (t + sc.cn i * dt) (stageArg sc dt y K' i)) := by
  obtain ⟨K, L, e, hl, hL, ho, hi⟩ := stageFold_spec f sc t dt y start Ks sol (sc.ns - start)
  refine ⟨K, L, e, hl, ?_, fun i h => ho i (Or.inl h), fun i h1 h2 => hi i h1 (by omega)⟩
  intro p hp
  obtain ⟨i, h1, h2, h3⟩ := hL p hp
  exact ⟨i, h1, by omega, h3⟩

/-- The stage values of an attempt at state `s` with step `dt` (they do not depend on `sol`). -/
def attemptKs (f : F → Vec F n → Vec F n) (sc : SolverCoeffs F) (s : ErkState F n) (dt : F)
    (sol : ErkOutput F n) : ℕ → Vec F n :=
  (stageLoop f sc s.t dt s.y (stageStart sc) s.Ks sol).1

/-- bookkeeping summary of an attempt -/
theorem attempt_sol (f : F → Vec F n → Vec F n) (o : ErkOpts F) (sc : SolverCoeffs F) (mo : ℕ)
    (s : ErkState F n) (dt : F) (sol : ErkOutput F n) :
    let a := attempt f o sc mo s dt sol
    ∃ L, a.sol = { sol with
        funEvals := sol.funEvals + (sc.ns - stageStart sc), calls := sol.calls ++ L,
        rejectErr := sol.rejectErr + (if a.reject then 1 else 0) } ∧
      L.length = sc.ns - stageStart sc ∧
      (∀ p ∈ L, ∃ i, i < sc.ns ∧ p.1 = s.t + sc.cn i * dt) ∧
      a.dt = dt ∧ (∀ i, i < stageStart sc → a.Ks i = s.Ks i) ∧
      (∀ i, stageStart sc ≤ i → i < sc.ns →
        a.Ks i = f (s.t + sc.cn i * dt) (stageArg sc dt s.y a.Ks i)) ∧
      (a.yn = fun k => s.y k + dt * combine sc a.Ks sc.bw k) ∧
      (a.reject = true → o.adaptive = true) := by
  obtain ⟨K, L, e, hl, hL, ho, hi⟩ := stageLoop_spec f sc s.t dt s.y (stageStart sc) s.Ks sol
  intro a
  have hLt : ∀ p ∈ L, ∃ i, i < sc.ns ∧ p.1 = s.t + sc.cn i * dt := by
    intro p hp
    obtain ⟨i, _, h2, h3⟩ := hL p hp
    exact ⟨i, h2, by rw [h3]⟩
  by_cases had : o.adaptive = true
  · have ha : a = attempt f o sc mo s dt sol := rfl
    simp only [attempt, e, had, if_true] at ha
    refine ⟨L, ?_, hl, hLt, by rw [ha], ?_, ?_, by rw [ha], fun _ => had⟩
    · rw [ha]
      split <;> simp_all
    · rw [ha]; exact ho
    · rw [ha]; exact hi
  · have ha : a = attempt f o sc mo s dt sol := rfl
    simp only [attempt, e, had] at ha
    refine ⟨L, ?_, hl, hLt, by rw [ha]; rfl, ?_, ?_, by rw [ha]; rfl, by rw [ha]; simp⟩
    · rw [ha]; simp
    · rw [ha]; exact ho
    · rw [ha]; exact hi

/-- All ways a loop pass can end. -/
inductive BodyCase (nd : Bool) (f : F → Vec F n → Vec F n) (t1 : F) (o : ErkOpts F) (oo : OutOpts)
    (sc : SolverCoeffs F) (mo : ℕ) (s : ErkState F n) :
    LoopStep (ErkState F n) (ErkOutput F n) → Prop
  | finished (h : ltb s.t t1 = false) : BodyCase nd f t1 o oo sc mo s
      (.done (.ret { s.sol with
        acceptFrac := some (lit (s.step : ℚ) / lit (s.sol.attempt : ℚ)) }))
  | maxSteps (h : ltb s.t t1 = true) (h0 : 0 ≤ o.maxSteps) (h1 : o.maxSteps < s.step) :
      BodyCase nd f t1 o oo sc mo s
        (.done (.ret { s.sol.bump with status := 128 }))
  | throws (h : ltb s.t t1 = true) (ha : o.adaptive = true) (hb : sc.b2.length ≠ sc.ns) :
      BodyCase nd f t1 o oo sc mo s (.done .throws)
  | assertFail (h : ltb s.t t1 = true) (ha : o.adaptive = true) (hnd : nd = false)
      (a : Attempt F n) (hA : a = attemptAt f t1 o sc mo s)
      (he : leb (lit 0) a.errTot = false) : BodyCase nd f t1 o oo sc mo s (.done .assertFail)
  | ub (h : ltb s.t t1 = true) (hw : oo.writeToFile = true) (hs : oo.streamSet = false) :
      BodyCase nd f t1 o oo sc mo s (.done .ub)
  | accepted (h : ltb s.t t1 = true) (hm : ¬ (0 ≤ o.maxSteps ∧ o.maxSteps < s.step))
      (hb : o.adaptive = true → sc.b2.length = sc.ns)
      (a : Attempt F n) (hA : a = attemptAt f t1 o sc mo s)
      (hE : o.adaptive = true → nd = false → leb (lit 0) a.errTot = true)
      (hr : o.adaptive = false ∨ a.reject = false) :
      BodyCase nd f t1 o oo sc mo s (.next (accept sc s a (a.sol.line oo s.t a.yn)))
  | rejected (h : ltb s.t t1 = true) (hm : ¬ (0 ≤ o.maxSteps ∧ o.maxSteps < s.step))
      (hb : o.adaptive = true → sc.b2.length = sc.ns)
      (a : Attempt F n) (hA : a = attemptAt f t1 o sc mo s)
      (hE : o.adaptive = true → nd = false → leb (lit 0) a.errTot = true)
      (had : o.adaptive = true) (hr : a.reject = true) :
      BodyCase nd f t1 o oo sc mo s (.next (rejectStep s a (a.sol.line oo s.t a.yn)))

theorem bodyCase (nd : Bool) (f : F → Vec F n → Vec F n) (t1 : F) (o : ErkOpts F) (oo : OutOpts)
    (sc : SolverCoeffs F) (mo : ℕ) (s : ErkState F n) :
    BodyCase nd f t1 o oo sc mo s (erkBody nd f t1 o oo sc mo s) := by
  unfold erkBody
  by_cases h : ltb s.t t1 = true
  · rw [if_pos h]
    simp only
    split_ifs with h1 h2 h3 h4 h5
    · exact .maxSteps h h1.1 h1.2
    · exact .throws h h2.1 h2.2
    · simp only [Bool.and_eq_true, Bool.not_eq_true'] at h3
      exact .assertFail h h3.1.1 h3.1.2 _ rfl h3.2
    · simp only [Bool.and_eq_true, Bool.not_eq_true'] at h4
      exact .ub h h4.1 h4.2
    · exact .accepted h h1 (fun hx => by by_contra hc; exact h2 ⟨hx, hc⟩) _ rfl
        (fun hx hn => by simpa [hx, hn] using h3) (by simpa using h5)
    · simp only [Bool.or_eq_true, Bool.not_eq_true', not_or, Bool.not_eq_false] at h5
      exact .rejected h h1 (fun hx => by by_contra hc; exact h2 ⟨hx, hc⟩) _ rfl
        (fun hx hn => by simpa [hx, hn] using h3) h5.1 h5.2
  · rw [if_neg h]
    exact .finished (by simpa using h)

/-- One row of the output: the five record vectors at one index. -/
structure Sample (F : Type) (n : ℕ) where
  t : F
  y : Vec F n
  ks : List (Vec F n)
  errEst : Vec F n
  err : F

/-- The five record vectors of an output are the columns of `recs` (in particular have equal length). -/
structure IsColumns (out : ErkOutput F n) (recs : List (Sample F n)) : Prop where
  t : out.tVals = recs.map Sample.t
  y : out.yVals = recs.map Sample.y
  ks : out.stages = recs.map Sample.ks
  errEst : out.errEst = recs.map Sample.errEst
  err : out.err = recs.map Sample.err

/-- the sample recorded by an accepted attempt -/
def newSample (sc : SolverCoeffs F) (s : ErkState F n) (a : Attempt F n) : Sample F n :=
  { t := s.t + a.dt, y := a.yn, ks := ksList sc a.Ks, errEst := a.errEst, err := a.err }

/-- the sample recorded before the loop -/
def initSample (t0 : F) (y0 : Vec F n) (sc : SolverCoeffs F) : Sample F n :=
  { t := t0, y := y0, ks := ksList sc (fun _ _ => lit 0), errEst := fun _ => lit 0, err := lit 0 }

/-- Record invariant: the records form a chain under `Rel` (previous time, previous value, new sample) and end
in the current state. -/
structure RecInv (Rel : F → Vec F n → Sample F n → Prop) (t0 : F) (y0 : Vec F n)
    (sc : SolverCoeffs F) (s : ErkState F n) (recs : List (Sample F n)) : Prop where
  cols : IsColumns s.sol recs
  chain : recs.IsChain (fun a b => Rel a.t a.y b)
  head : recs.head? = some (initSample t0 y0 sc)
  last : ∃ l, recs.getLast? = some l ∧ l.t = s.t ∧ l.y = s.y
  len : recs.length = s.step + 1
  status : s.sol.status = 0

theorem recInv_init (f : F → Vec F n → Vec F n) (Rel : F → Vec F n → Sample F n → Prop) (t0 : F)
    (y0 : Vec F n) (dt : F) (sc : SolverCoeffs F) :
    RecInv Rel t0 y0 sc (erkInit f t0 y0 dt sc) [initSample t0 y0 sc] := by
  unfold erkInit
  by_cases h : sc.fsal = true <;> simp only [h, if_true]
  all_goals
    refine ⟨⟨rfl, rfl, rfl, rfl, rfl⟩, List.isChain_singleton _, rfl, ⟨_, rfl, rfl, rfl⟩, rfl, rfl⟩

theorem recInv_accept {f : F → Vec F n → Vec F n} {t1 : F} {o : ErkOpts F} {oo : OutOpts}
    {sc : SolverCoeffs F} {mo : ℕ} {Rel : F → Vec F n → Sample F n → Prop} {t0 : F} {y0 : Vec F n}
    {s : ErkState F n} {recs : List (Sample F n)} (h : RecInv Rel t0 y0 sc s recs)
    {a : Attempt F n} (hA : a = attemptAt f t1 o sc mo s)
    (hrel : Rel s.t s.y (newSample sc s a)) :
    RecInv Rel t0 y0 sc (accept sc s a (a.sol.line oo s.t a.yn))
      (recs ++ [newSample sc s a]) := by
  obtain ⟨L, e, -⟩ := attempt_sol f o sc mo s (clipDt s.t t1 s.dt) s.sol.bump
  rw [← attemptAt, ← hA] at e
  obtain ⟨cols, chain, head, ⟨l, hl, hlt, hly⟩, len, status⟩ := h
  refine ⟨?_, ?_, ?_, ⟨newSample sc s a, by simp, rfl, rfl⟩, ?_, ?_⟩
  · constructor <;> cases hw : oo.writeToFile <;>
      simp [accept, ErkOutput.line, hw, e, ErkOutput.bump, cols.t, cols.y, cols.ks, cols.errEst, cols.err, newSample]
  · rw [List.isChain_append]
    refine ⟨chain, List.isChain_singleton _, ?_⟩
    intro x hx y hy
    rw [hl] at hx
    simp only [Option.mem_def, Option.some.injEq, List.head?_cons] at hx hy
    subst hx; subst hy
    rw [hlt, hly]; exact hrel
  · rw [List.head?_append, head]; rfl
  · simp [accept, len]
  · cases hw : oo.writeToFile <;> simp [accept, ErkOutput.line, hw, e, ErkOutput.bump, status]

theorem recInv_reject {f : F → Vec F n → Vec F n} {t1 : F} {o : ErkOpts F} {oo : OutOpts}
    {sc : SolverCoeffs F} {mo : ℕ} {Rel : F → Vec F n → Sample F n → Prop} {t0 : F} {y0 : Vec F n}
    {s : ErkState F n} {recs : List (Sample F n)} (h : RecInv Rel t0 y0 sc s recs)
    {a : Attempt F n} (hA : a = attemptAt f t1 o sc mo s) :
    RecInv Rel t0 y0 sc (rejectStep s a (a.sol.line oo s.t a.yn))
      recs := by
  obtain ⟨L, e, -⟩ := attempt_sol f o sc mo s (clipDt s.t t1 s.dt) s.sol.bump
  rw [← attemptAt, ← hA] at e
  obtain ⟨cols, chain, head, last, len, status⟩ := h
  refine ⟨?_, chain, head, last, len, ?_⟩
  · constructor <;> cases hw : oo.writeToFile <;>
      simp [rejectStep, ErkOutput.line, hw, e, ErkOutput.bump, cols.t, cols.y, cols.ks, cols.errEst, cols.err]
  · cases hw : oo.writeToFile <;> simp [rejectStep, ErkOutput.line, hw, e, ErkOutput.bump, status]

/-- **Chain rule.**  An invariant `J` of the loop under which every accepted attempt satisfies `Rel` makes the
records of every reachable state a `Rel`-chain. -/
theorem reach_recs' {nd : Bool} {f : F → Vec F n → Vec F n} {t1 : F} {o : ErkOpts F} {oo : OutOpts}
    {sc : SolverCoeffs F} {mo : ℕ} {Rel : F → Vec F n → Sample F n → Prop} {t0 dt : F}
    {y0 : Vec F n} {J : ErkState F n → Prop} (hJ0 : J (erkInit f t0 y0 dt sc))
    (hJ : ∀ s s', J s → erkBody nd f t1 o oo sc mo s = .next s' → J s')
    (hacc : ∀ s a, J s → ltb s.t t1 = true →
      a = attemptAt f t1 o sc mo s → (o.adaptive = true → nd = false → leb (lit 0) a.errTot = true) →
      (o.adaptive = false ∨ a.reject = false) → Rel s.t s.y (newSample sc s a))
    {s : ErkState F n} (hr : Reach (erkBody nd f t1 o oo sc mo) (erkInit f t0 y0 dt sc) s) :
    J s ∧ ∃ recs, RecInv Rel t0 y0 sc s recs := by
  refine hr.inv (Inv := fun s => J s ∧ ∃ recs, RecInv Rel t0 y0 sc s recs)
    ⟨hJ0, _, recInv_init f Rel t0 y0 dt sc⟩ ?_
  rintro s s' ⟨hj, recs, hrec⟩ hb
  refine ⟨hJ s s' hj hb, ?_⟩
  have hc := bodyCase nd f t1 o oo sc mo s
  rw [hb] at hc
  cases hc with
  | accepted h hm hb2 a hA hE hr => exact ⟨_, recInv_accept hrec hA (hacc s a hj h hA hE hr)⟩
  | rejected h hm hb2 a hA hE had hr => exact ⟨_, recInv_reject hrec hA⟩

/-- the chain rule without the assertion -/
theorem reach_recs {nd : Bool} {f : F → Vec F n → Vec F n} {t1 : F} {o : ErkOpts F} {oo : OutOpts}
    {sc : SolverCoeffs F} {mo : ℕ} {Rel : F → Vec F n → Sample F n → Prop} {t0 dt : F}
    {y0 : Vec F n} {J : ErkState F n → Prop} (hJ0 : J (erkInit f t0 y0 dt sc))
    (hJ : ∀ s s', J s → erkBody nd f t1 o oo sc mo s = .next s' → J s')
    (hacc : ∀ s a, J s → ltb s.t t1 = true →
      a = attemptAt f t1 o sc mo s →
      (o.adaptive = false ∨ a.reject = false) → Rel s.t s.y (newSample sc s a))
    {s : ErkState F n} (hr : Reach (erkBody nd f t1 o oo sc mo) (erkInit f t0 y0 dt sc) s) :
    J s ∧ ∃ recs, RecInv Rel t0 y0 sc s recs :=
  reach_recs' hJ0 hJ (fun s a h1 h2 h3 _ h5 => hacc s a h1 h2 h3 h5) hr

/-- Counting invariant. -/
structure CountInv (sc : SolverCoeffs F) (s : ErkState F n) : Prop where
  att : s.sol.attempt = s.step + s.sol.rejectErr
  calls : s.sol.funEvals = s.sol.calls.length
  evals : s.sol.funEvals = (if sc.fsal then 1 else 0) +
    (sc.ns - (if sc.fsal then 1 else 0)) * s.sol.attempt

theorem countInv_init (f : F → Vec F n → Vec F n) (t0 : F) (y0 : Vec F n) (dt : F)
    (sc : SolverCoeffs F) : CountInv sc (erkInit f t0 y0 dt sc) := by
  unfold erkInit
  by_cases h : sc.fsal = true <;> simp only [h, if_true]
  · exact ⟨rfl, rfl, by simp [h, evalFun]⟩
  · exact ⟨rfl, rfl, by simp [h]⟩

theorem countInv_next {nd : Bool} {f : F → Vec F n → Vec F n} {t1 : F} {o : ErkOpts F}
    {oo : OutOpts} {sc : SolverCoeffs F} {mo : ℕ} {s s' : ErkState F n} (h : CountInv sc s)
    (hb : erkBody nd f t1 o oo sc mo s = .next s') : CountInv sc s' := by
  obtain ⟨h1, h2, h3⟩ := h
  have hc := bodyCase nd f t1 o oo sc mo s
  rw [hb] at hc
  obtain ⟨L, e, hl, -⟩ := attempt_sol f o sc mo s (clipDt s.t t1 s.dt) s.sol.bump
  cases hc with
  | accepted h hm hb2 a hA hE hr =>
    rw [← attemptAt, ← hA] at e
    have hrej : a.reject = false := by
      rcases hr with hr | hr
      · rw [hA]; simp [attemptAt, attempt, hr]
      · exact hr
    constructor
    · cases hw : oo.writeToFile <;> simp [accept, ErkOutput.line, hw, e, ErkOutput.bump, hrej, h1] <;> omega
    · cases hw : oo.writeToFile <;> simp [accept, ErkOutput.line, hw, e, ErkOutput.bump, h2, hl]
    · cases hw : oo.writeToFile <;> simp [accept, ErkOutput.line, hw, e, ErkOutput.bump, h3, stageStart] <;> ring
  | rejected h hm hb2 a hA hE had hr =>
    rw [← attemptAt, ← hA] at e
    constructor
    · cases hw : oo.writeToFile <;> simp [rejectStep, ErkOutput.line, hw, e, ErkOutput.bump, hr, h1] <;> omega
    · cases hw : oo.writeToFile <;> simp [rejectStep, ErkOutput.line, hw, e, ErkOutput.bump, h2, hl]
    · cases hw : oo.writeToFile <;> simp [rejectStep, ErkOutput.line, hw, e, ErkOutput.bump, h3, stageStart] <;> ring

/-- How a finished run of `erk_guts` came about. -/
theorem erkGuts_ret {nd : Bool} {f : F → Vec F n → Vec F n} {t0 t1 : F} {y0 : Vec F n}
    {o : ErkOpts F} {dt : F} {sc : SolverCoeffs F} {oo : OutOpts} {fuel : ℕ}
    {out : ErkOutput F n} (h : erkGuts nd f t0 t1 y0 o dt sc oo fuel = some (.ret out)) :
    ∃ mo s, minOrder sc = some mo ∧ (nd = true ∨ ltb (lit 0) (clipDt t0 t1 dt) = true) ∧
      Reach (erkBody nd f t1 o oo sc mo) (erkInit f t0 y0 (clipDt t0 t1 dt) sc) s ∧
      ((ltb s.t t1 = false ∧ out = { s.sol with
          acceptFrac := some (lit (s.step : ℚ) / lit (s.sol.attempt : ℚ)) }) ∨
       (ltb s.t t1 = true ∧ 0 ≤ o.maxSteps ∧ o.maxSteps < s.step ∧
          out = { s.sol.bump with status := 128 })) := by
  unfold erkGuts at h
  simp only at h
  split_ifs at h with h1
  · simp at h
  cases hm : minOrder sc with
  | none => rw [hm] at h; simp at h
  | some mo =>
    rw [hm] at h
    obtain ⟨s, hr, hd⟩ := runLoop_some h
    refine ⟨mo, s, rfl, ?_, hr, ?_⟩
    · cases nd <;> simp_all
    · have hc := bodyCase nd f t1 o oo sc mo s
      rw [hd] at hc
      cases hc with
      | finished h' => exact Or.inl ⟨h', rfl⟩
      | maxSteps h' h0 h1 => exact Or.inr ⟨h', h0, h1, rfl⟩

end generic
end Verif
