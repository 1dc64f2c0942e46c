import Verif.IrkStage
import Verif.ErkLemmas

/-!
# The loop of `irk_guts`: endings of one pass, the accepted steps and their records
-/

set_option linter.unusedSectionVars false

namespace Verif
section
variable {F : Type} [Add F] [Sub F] [Mul F] [Div F] [Neg F] [Scalar F] {n : ℕ}

/-- the stage solve of the pass starting in state `s` -/
def solveAt (nd : Bool) (la : LinAlg F) (fn : OdeFun F n) (t1 : F) (no : NewtonOpts F) (sc : SolverCoeffs F)
    (s : IrkState F (sc.ns * n) n) : Outcome (StageResult F (sc.ns * n) n) :=
  newtonSolveStages nd la fn sc s.t (clipDt s.t t1 s.dt) s.y s.newtonMaxit no.refreshJac no.dxDelta no.tol
    s.sol.bump.count s.sol.log

/-- How one pass can end. -/
inductive BodyCaseI (nd : Bool) (la : LinAlg F) (fn : OdeFun F n) (t1 : F) (o : IrkOpts F) (no : NewtonOpts F)
    (oo : OutOpts) (sc : SolverCoeffs F) (mo : ℕ) (d d2 : Vec F sc.ns) (s : IrkState F (sc.ns * n) n) :
    LoopStep (IrkState F (sc.ns * n) n) (IrkOutput F (sc.ns * n) n) → Prop
  | finished (h : ltb s.t t1 = false) :
      BodyCaseI nd la fn t1 o no oo sc mo d d2 s (.done (.ret { s.sol with
        acceptFrac := some (lit (s.step : ℚ) / lit (s.sol.count.attempt : ℚ)) }))
  | limit (h : ltb s.t t1 = true) (hm : 0 ≤ o.maxSteps ∧ o.maxSteps < s.step) :
      BodyCaseI nd la fn t1 o no oo sc mo d d2 s (.done (.ret { s.sol.bump with status := 128 }))
  | general (h : ltb s.t t1 = true) (hm : ¬ (0 ≤ o.maxSteps ∧ o.maxSteps < s.step)) (r : StageResult F (sc.ns * n) n)
      (hr : solveAt nd la fn t1 no sc s = .ret r) (hs : r.status ≠ 0) (had : o.adaptive = false) :
      BodyCaseI nd la fn t1 o no oo sc mo d d2 s
        (.done (.ret { s.sol.bump with status := 4, count := r.count, log := r.log }))
  | newton (h : ltb s.t t1 = true) (hm : ¬ (0 ≤ o.maxSteps ∧ o.maxSteps < s.step)) (r : StageResult F (sc.ns * n) n)
      (hr : solveAt nd la fn t1 no sc s = .ret r) (hs : r.status ≠ 0) (had : o.adaptive = true) :
      BodyCaseI nd la fn t1 o no oo sc mo d d2 s
        (.next (newtonReject s (clipDt s.t t1 s.dt) no.maxit r.status r.count r.log))
  | rejected (h : ltb s.t t1 = true) (hm : ¬ (0 ≤ o.maxSteps ∧ o.maxSteps < s.step)) (r : StageResult F (sc.ns * n) n)
      (hr : solveAt nd la fn t1 no sc s = .ret r) (hs : r.status = 0) (had : o.adaptive = true) (a : AttemptI F n)
      (ha : attemptI la fn o sc mo d d2 s (clipDt s.t t1 s.dt) r.success = some a)
      (hE : nd = false → leb (lit 0) a.errTot = true) (hj : a.reject = true) :
      BodyCaseI nd la fn t1 o no oo sc mo d d2 s (.next (rejectI s a))
  | accepted (h : ltb s.t t1 = true) (hm : ¬ (0 ≤ o.maxSteps ∧ o.maxSteps < s.step)) (r : StageResult F (sc.ns * n) n)
      (hr : solveAt nd la fn t1 no sc s = .ret r) (hs : r.status = 0) (had : o.adaptive = true) (a : AttemptI F n)
      (ha : attemptI la fn o sc mo d d2 s (clipDt s.t t1 s.dt) r.success = some a)
      (hE : nd = false → leb (lit 0) a.errTot = true) (hj : a.reject = false) (hi : oo.interval.toNat ≠ 0)
      (hw : oo.writeToFile = true → (s.step + 1) % oo.interval.toNat = 0 → oo.streamSet = true) :
      BodyCaseI nd la fn t1 o no oo sc mo d d2 s (.next (acceptI oo s a))
  | stop (r : Outcome (IrkOutput F (sc.ns * n) n)) (hr : ∀ x, r ≠ .ret x) :
      BodyCaseI nd la fn t1 o no oo sc mo d d2 s (.done r)

theorem bodyCaseI (nd : Bool) (la : LinAlg F) (fn : OdeFun F n) (t1 : F) (o : IrkOpts F) (no : NewtonOpts F)
    (oo : OutOpts) (sc : SolverCoeffs F) (mo : ℕ) (d d2 : Vec F sc.ns) (s : IrkState F (sc.ns * n) n) :
    BodyCaseI nd la fn t1 o no oo sc mo d d2 s (irkBody nd la fn t1 o no oo sc mo d d2 s) := by
  unfold irkBody
  by_cases h : ltb s.t t1 = true
  · rw [if_pos h]
    simp only
    by_cases hm : 0 ≤ o.maxSteps ∧ o.maxSteps < s.step
    · rw [if_pos hm]; exact .limit h hm
    · rw [if_neg hm]
      rw [show newtonSolveStages nd la fn sc s.t (clipDt s.t t1 s.dt) s.y s.newtonMaxit no.refreshJac no.dxDelta no.tol
        s.sol.bump.count s.sol.log = solveAt nd la fn t1 no sc s from rfl]
      cases hr : solveAt nd la fn t1 no sc s with
      | assertFail => exact .stop _ (by simp)
      | throws => exact .stop _ (by simp)
      | ub => exact .stop _ (by simp)
      | ret r =>
        simp only
        by_cases hs : r.status ≠ 0
        · rw [if_pos hs]
          cases had : o.adaptive with
          | false => simpa using BodyCaseI.general (d := d) (d2 := d2) h hm r hr hs had
          | true => simpa using BodyCaseI.newton (d := d) (d2 := d2) h hm r hr hs had
        · rw [if_neg hs]
          push Not at hs
          cases had : o.adaptive with
          | false => simpa using BodyCaseI.stop .throws (by simp)
          | true =>
            simp only [Bool.not_true, Bool.false_eq_true, if_false]
            cases ha : attemptI la fn o sc mo d d2 s (clipDt s.t t1 s.dt) r.success with
            | none => exact .stop _ (by simp)
            | some a =>
              simp only
              by_cases hE : (!nd && !leb (lit 0) a.errTot) = true
              · rw [if_pos hE]; exact .stop _ (by simp)
              rw [if_neg hE]
              have hE' : nd = false → leb (lit 0) a.errTot = true := by
                intro hn; subst hn; simpa using hE
              cases hj : a.reject with
              | true => simpa using BodyCaseI.rejected h hm r hr hs had a ha hE' hj
              | false =>
                simp only [Bool.false_eq_true, if_false]
                by_cases hi : oo.interval.toNat = 0
                · rw [if_pos hi]; exact .stop _ (by simp)
                rw [if_neg hi]
                split_ifs with hw
                · exact .stop _ (by simp)
                · refine .accepted h hm r hr hs had a ha hE' hj hi ?_
                  intro h1 h2
                  simpa [h1, h2] using hw
  · rw [if_neg h]
    exact .finished (by simpa using h)

/-- an accepted step: time, value, error estimate, its norm -/
structure SampleI (F : Type) (n : ℕ) where
  t : F
  y : Vec F n
  errEst : Vec F n
  err : F

/-- the samples whose index is a multiple of `k` -/
def everyNth {α : Type} (k : ℕ) (l : List α) : List α := (l.zipIdx.filter fun p => p.2 % k = 0).map Prod.fst

theorem everyNth_append {α : Type} (k : ℕ) (l : List α) (x : α) :
    everyNth k (l ++ [x]) = everyNth k l ++ if l.length % k = 0 then [x] else [] := by
  unfold everyNth
  rw [List.zipIdx_append, List.filter_append, List.map_append]
  by_cases h : l.length % k = 0 <;> simp [h]

theorem everyNth_ne {α : Type} {k : ℕ} {x : α} {l : List α} : ∃ l', everyNth k (x :: l) = x :: l' :=
  ⟨_, by unfold everyNth; rw [List.zipIdx_cons, List.filter_cons]; simp; rfl⟩

theorem everyNth_one {α : Type} (l : List α) : everyNth 1 l = l := by
  unfold everyNth
  rw [List.filter_eq_self.mpr (by intro a _; simp [Nat.mod_one]), List.zipIdx_map_fst]

theorem everyNth_sublist {α : Type} (k : ℕ) (l : List α) : (everyNth k l).Sublist l := by
  unfold everyNth
  have := (List.filter_sublist (l := l.zipIdx) (p := fun p => decide (p.2 % k = 0))).map Prod.fst
  rwa [List.zipIdx_map_fst] at this

theorem everyNth_length {α : Type} {k : ℕ} (hk : 0 < k) (l : List α) :
    (everyNth k l).length = (l.length + k - 1) / k := by
  induction l using List.reverseRecOn with
  | nil => simp only [everyNth, List.zipIdx_nil, List.filter_nil, List.map_nil, List.length_nil]
           rw [Nat.div_eq_of_lt (by omega)]
  | append_singleton l x ih =>
    rw [everyNth_append, List.length_append, List.length_append, ih, List.length_singleton]
    have e := Nat.div_add_mod l.length k
    have hlt := Nat.mod_lt l.length hk
    rw [show l.length + 1 + k - 1 = l.length + k by omega, Nat.add_div_right _ hk]
    by_cases h : l.length % k = 0
    · rw [if_pos h, List.length_singleton, show l.length + k - 1 = (k - 1) + k * (l.length / k) by omega,
        Nat.add_mul_div_left _ _ hk, Nat.div_eq_of_lt (by omega : k - 1 < k)]
      omega
    · rw [if_neg h, List.length_nil,
        show l.length + k - 1 = (l.length % k - 1) + k * (l.length / k + 1) by rw [Nat.mul_add]; omega,
        Nat.add_mul_div_left _ _ hk, Nat.div_eq_of_lt (by omega : l.length % k - 1 < k)]
      omega

theorem everyNth_getElem? {α : Type} {k : ℕ} (hk : 0 < k) (l : List α) (i : ℕ) :
    (everyNth k l)[i]? = l[i * k]? := by
  induction l using List.reverseRecOn generalizing i with
  | nil => simp [everyNth]
  | append_singleton l x ih =>
    rw [everyNth_append]
    have hl := everyNth_length hk l
    have e := Nat.div_add_mod l.length k
    have hlt := Nat.mod_lt l.length hk
    have hN : (everyNth k l).length = if l.length % k = 0 then l.length / k else l.length / k + 1 := by
      rw [hl]
      by_cases h : l.length % k = 0
      · rw [if_pos h, show l.length + k - 1 = (k - 1) + k * (l.length / k) by omega,
          Nat.add_mul_div_left _ _ hk, Nat.div_eq_of_lt (by omega : k - 1 < k)]
        omega
      · rw [if_neg h, show l.length + k - 1 = (l.length % k - 1) + k * (l.length / k + 1) by rw [Nat.mul_add]; omega,
          Nat.add_mul_div_left _ _ hk, Nat.div_eq_of_lt (by omega : l.length % k - 1 < k)]
        omega
    by_cases hi : i < (everyNth k l).length
    · have hi2 : (l[i * k]?).isSome = true := by
        rw [← ih, List.getElem?_eq_getElem hi]; rfl
      have hik : i * k < l.length := by
        by_contra hc
        rw [List.getElem?_eq_none (by omega)] at hi2
        cases hi2
      rw [List.getElem?_append_left hi, List.getElem?_append_left hik, ih]
    · have hik : l.length ≤ i * k := by
        have := ih i
        rw [List.getElem?_eq_none (by omega)] at this
        exact List.getElem?_eq_none_iff.mp this.symm
      rw [List.getElem?_append_right (by omega), List.getElem?_append_right hik]
      by_cases h : l.length % k = 0
      · rw [if_pos h] at hN ⊢
        by_cases hq : i = l.length / k
        · have h1 : i - (everyNth k l).length = 0 := by omega
          have h2 : i * k - l.length = 0 := by rw [hq, Nat.mul_comm]; omega
          rw [h1, h2]
        · have h2 : (l.length / k + 1) * k ≤ i * k := Nat.mul_le_mul_right _ (by omega)
          rw [Nat.add_mul, Nat.mul_comm (l.length / k)] at h2
          rw [List.getElem?_eq_none (by simp; omega), List.getElem?_eq_none (by simp; omega)]
      · rw [if_neg h]
        have : i * k ≠ l.length := by
          intro hc; apply h; rw [← hc]; exact Nat.mul_mod_left _ _
        rw [List.getElem?_eq_none (by simp), List.getElem?_eq_none (by simp; omega)]

theorem chain_pred {α : Type} {R : α → α → Prop} {x : α} {l : List α} (h : (x :: l).IsChain R) {b : α} (hb : b ∈ l) :
    ∃ a, R a b := by
  induction l generalizing x with
  | nil => cases hb
  | cons z l ih =>
    rw [List.isChain_cons_cons] at h
    rcases List.mem_cons.mp hb with rfl | hb
    · exact ⟨x, h.1⟩
    · exact ih h.2 hb

/-- the sample of an accepted attempt -/
def newSampleI {m : ℕ} (s : IrkState F m n) (a : AttemptI F n) : SampleI F n := ⟨s.t + a.dt, a.yn, a.errEst, a.err⟩

/-- the initial sample -/
def firstI (t0 : F) (y0 : Vec F n) : SampleI F n := ⟨t0, y0, fun _ => lit 0, lit 0⟩

/-- the samples recorded in memory -/
def storedI (oo : OutOpts) (acc : List (SampleI F n)) : List (SampleI F n) :=
  if oo.storeInVectors then everyNth oo.interval.toNat acc else acc.take 1

/-- the lines written to the stream -/
def writtenI (oo : OutOpts) (acc : List (SampleI F n)) : List (F × Vec F n) :=
  if oo.writeToFile then ((everyNth oo.interval.toNat acc).tail).map fun b => (b.t, b.y) else []

/-- the five record vectors are the columns of `L` (stages zero) -/
structure IsColumnsI {m : ℕ} (sol : IrkOutput F m n) (L : List (SampleI F n)) : Prop where
  t : sol.tVals = L.map (·.t)
  y : sol.yVals = L.map (·.y)
  st : sol.stages = L.map fun _ _ => lit 0
  ee : sol.errEst = L.map (·.errEst)
  e : sol.err = L.map (·.err)

/-- `acc` are the accepted samples so far -/
structure AccInv {m : ℕ} (Rel : SampleI F n → SampleI F n → Prop) (t0 : F) (y0 : Vec F n) (oo : OutOpts)
    (s : IrkState F m n) (acc : List (SampleI F n)) : Prop where
  len : acc.length = s.step + 1
  head : acc.head? = some (firstI t0 y0)
  last : ∃ l, acc.getLast? = some l ∧ l.t = s.t ∧ l.y = s.y
  chain : acc.IsChain Rel
  cols : IsColumnsI s.sol (storedI oo acc)
  file : s.sol.file = writtenI oo acc
  status : s.sol.status = 0
  elapsed : s.sol.elapsed = none

theorem storedI_append (oo : OutOpts) (acc : List (SampleI F n)) (h : acc ≠ []) (b : SampleI F n) :
    storedI oo (acc ++ [b]) = storedI oo acc ++
      (if acc.length % oo.interval.toNat = 0 ∧ oo.storeInVectors = true then [b] else []) := by
  unfold storedI
  cases hs : oo.storeInVectors with
  | true =>
    simp only [if_true, and_true]
    rw [everyNth_append]
  | false =>
    obtain ⟨x, l, rfl⟩ := List.exists_cons_of_ne_nil h
    simp

theorem writtenI_append (oo : OutOpts) (acc : List (SampleI F n)) (h : acc ≠ []) (b : SampleI F n) :
    writtenI oo (acc ++ [b]) = writtenI oo acc ++
      (if acc.length % oo.interval.toNat = 0 ∧ oo.writeToFile = true then [(b.t, b.y)] else []) := by
  unfold writtenI
  cases hs : oo.writeToFile with
  | true =>
    simp only [if_true, and_true]
    rw [everyNth_append]
    obtain ⟨x, l, rfl⟩ := List.exists_cons_of_ne_nil h
    obtain ⟨l', hl'⟩ := everyNth_ne (k := oo.interval.toNat) (x := x) (l := l)
    rw [hl']
    split_ifs <;> simp
  | false => simp

theorem accInv_init (Rel : SampleI F n → SampleI F n → Prop) (m : ℕ) (t0 : F) (y0 : Vec F n) (dt : F) (mx : ℤ)
    (oo : OutOpts) : AccInv Rel t0 y0 oo (irkInit m t0 y0 dt mx) [firstI t0 y0] := by
  have h1 : storedI oo [firstI t0 y0] = [firstI t0 y0] := by
    unfold storedI everyNth
    cases oo.storeInVectors <;> simp
  have h2 : writtenI oo [firstI t0 y0] = [] := by
    unfold writtenI everyNth
    cases oo.writeToFile <;> simp
  refine ⟨rfl, rfl, ⟨_, rfl, rfl, rfl⟩, .singleton _, ?_, ?_, rfl, rfl⟩
  · rw [h1]; exact ⟨rfl, rfl, rfl, rfl, rfl⟩
  · rw [h2]; rfl

theorem accInv_accept {m : ℕ} {Rel : SampleI F n → SampleI F n → Prop} {t0 : F} {y0 : Vec F n} {oo : OutOpts}
    {s : IrkState F m n} {acc : List (SampleI F n)} (h : AccInv Rel t0 y0 oo s acc) {a : AttemptI F n}
    (hR : ∀ l, l.t = s.t → l.y = s.y → Rel l (newSampleI s a)) :
    AccInv Rel t0 y0 oo (acceptI oo s a) (acc ++ [newSampleI s a]) := by
  have hne : acc ≠ [] := by rintro rfl; exact absurd h.len (by simp)
  obtain ⟨l, hl, hlt, hly⟩ := h.last
  refine ⟨by simp [h.len, acceptI], ?_, ⟨newSampleI s a, by simp, rfl, rfl⟩, ?_, ?_, ?_, ?_, ?_⟩
  · rw [List.head?_append_of_ne_nil _ hne]; exact h.head
  · refine List.isChain_append.mpr ⟨h.chain, .singleton _, ?_⟩
    intro x hx y hy
    rw [Option.mem_def, hl, Option.some.injEq] at hx
    simp only [List.head?_cons, Option.mem_def, Option.some.injEq] at hy
    subst hx hy
    exact hR l hlt hly
  · rw [storedI_append _ _ hne, h.len]
    have hc := h.cols
    by_cases h1 : (s.step + 1) % oo.interval.toNat = 0 <;> cases h2 : oo.storeInVectors <;>
      cases h3 : oo.writeToFile <;>
      constructor <;> simp [acceptI, h1, h2, h3, IrkOutput.bump, hc.t, hc.y, hc.st, hc.ee, hc.e, newSampleI]
  · rw [writtenI_append _ _ hne, h.len]
    by_cases h1 : (s.step + 1) % oo.interval.toNat = 0 <;> cases h2 : oo.storeInVectors <;>
      cases h3 : oo.writeToFile <;> simp [acceptI, h1, h2, h3, IrkOutput.bump, h.file, newSampleI]
  · by_cases h1 : (s.step + 1) % oo.interval.toNat = 0 <;> cases h2 : oo.storeInVectors <;>
      cases h3 : oo.writeToFile <;> simp [acceptI, h1, h2, h3, IrkOutput.bump, h.status]
  · by_cases h1 : (s.step + 1) % oo.interval.toNat = 0 <;> cases h2 : oo.storeInVectors <;>
      cases h3 : oo.writeToFile <;> simp [acceptI, h1, h2, h3, IrkOutput.bump, h.elapsed]

theorem accInv_reject {m : ℕ} {Rel : SampleI F n → SampleI F n → Prop} {t0 : F} {y0 : Vec F n} {oo : OutOpts}
    {s : IrkState F m n} {acc : List (SampleI F n)} (h : AccInv Rel t0 y0 oo s acc) (a : AttemptI F n) :
    AccInv Rel t0 y0 oo (rejectI s a) acc :=
  ⟨h.len, h.head, h.last, h.chain, ⟨h.cols.t, h.cols.y, h.cols.st, h.cols.ee, h.cols.e⟩, h.file, h.status, h.elapsed⟩

theorem accInv_newton {m : ℕ} {Rel : SampleI F n → SampleI F n → Prop} {t0 : F} {y0 : Vec F n} {oo : OutOpts}
    {s : IrkState F m n} {acc : List (SampleI F n)} (h : AccInv Rel t0 y0 oo s acc) (dt : F) (mx st : ℤ)
    (c : IrkCounters) (l : CallLog F n) : AccInv Rel t0 y0 oo (newtonReject s dt mx st c l) acc :=
  ⟨h.len, h.head, h.last, h.chain, ⟨h.cols.t, h.cols.y, h.cols.st, h.cols.ee, h.cols.e⟩, h.file, h.status, h.elapsed⟩

/-- **Chain rule.** -/
theorem reach_accs {nd : Bool} {la : LinAlg F} {fn : OdeFun F n} {t1 : F} {o : IrkOpts F} {no : NewtonOpts F}
    {oo : OutOpts} {sc : SolverCoeffs F} {mo : ℕ} {d d2 : Vec F sc.ns} {Rel : SampleI F n → SampleI F n → Prop}
    {t0 dt : F} {y0 : Vec F n} {J : IrkState F (sc.ns * n) n → Prop}
    (hJ0 : J (irkInit (sc.ns * n) t0 y0 dt no.maxit))
    (hJ : ∀ s s', J s → irkBody nd la fn t1 o no oo sc mo d d2 s = .next s' → J s')
    (hacc : ∀ s r a l, J s → ltb s.t t1 = true → ¬ (0 ≤ o.maxSteps ∧ o.maxSteps < s.step) →
      solveAt nd la fn t1 no sc s = .ret r → r.status = 0 → o.adaptive = true →
      attemptI la fn o sc mo d d2 s (clipDt s.t t1 s.dt) r.success = some a →
      (nd = false → leb (lit 0) a.errTot = true) → a.reject = false →
      l.t = s.t → l.y = s.y → Rel l (newSampleI s a))
    {s : IrkState F (sc.ns * n) n}
    (hr : Reach (irkBody nd la fn t1 o no oo sc mo d d2) (irkInit (sc.ns * n) t0 y0 dt no.maxit) s) :
    J s ∧ ∃ acc, AccInv Rel t0 y0 oo s acc := by
  refine hr.inv (Inv := fun s => J s ∧ ∃ acc, AccInv Rel t0 y0 oo s acc) ⟨hJ0, _, accInv_init Rel _ t0 y0 dt _ oo⟩ ?_
  rintro s s' ⟨hj, acc, hinv⟩ hb
  refine ⟨hJ s s' hj hb, ?_⟩
  have hc := bodyCaseI nd la fn t1 o no oo sc mo d d2 s
  rw [hb] at hc
  cases hc with
  | newton h hm r hr hs had => exact ⟨_, accInv_newton hinv _ _ _ _ _⟩
  | rejected h hm r hr hs had a ha hE hrj => exact ⟨_, accInv_reject hinv a⟩
  | accepted h hm r hr hs had a ha hE hrj hi hw =>
    exact ⟨_, accInv_accept hinv fun l h1 h2 => hacc s r a l hj h hm hr hs had ha hE hrj h1 h2⟩

/-- what the attempt adds to counters and log -/
theorem attemptI_count {la : LinAlg F} {fn : OdeFun F n} {o : IrkOpts F} {sc : SolverCoeffs F} {mo : ℕ}
    {d d2 : Vec F sc.ns} {m : ℕ} {s : IrkState F m n} {dt : F} {r : StageResult F (sc.ns * n) n} {a : AttemptI F n}
    (h : attemptI la fn o sc mo d d2 s dt r = some a) :
    ∃ L, a.log = { r.log with funs := r.log.funs ++ L } ∧
      a.count = { r.count with
        funEvals := r.count.funEvals + L.length
        rejectErr := r.count.rejectErr + (if a.reject then 1 else 0) } ∧
      L.length = (if s.alt then 2 else 1) := by
  unfold attemptI at h
  simp only at h
  split at h
  · cases h
  · rename_i e1 he1
    by_cases halt : s.alt = true
    · rw [if_pos halt] at h
      split at h
      · cases h
      · simp only [Option.some.injEq] at h
        subst h
        refine ⟨[(s.t, s.y), (s.t, fun k => s.y k + dt * e1 k)], ?_, ?_, ?_⟩
        · simp only [List.append_assoc, List.cons_append, List.nil_append]
        · simp only [List.length_cons, List.length_nil]; split_ifs <;> simp
        · simp [halt]
    · rw [if_neg halt] at h
      simp only [Option.some.injEq] at h
      subst h
      refine ⟨[(s.t, s.y)], ?_, ?_, ?_⟩
      · rfl
      · simp only [List.length_cons, List.length_nil]; split_ifs <;> simp
      · simp [halt]

/-- the numbers of an attempt -/
theorem attemptI_spec {la : LinAlg F} {fn : OdeFun F n} {o : IrkOpts F} {sc : SolverCoeffs F} {mo : ℕ}
    {d d2 : Vec F sc.ns} {m : ℕ} {s : IrkState F m n} {dt : F} {r : StageResult F (sc.ns * n) n} {a : AttemptI F n}
    (h : attemptI la fn o sc mo d d2 s dt r = some a) :
    a.dt = dt ∧ a.yn = (fun k => s.y k + combineI sc r.Y d k) ∧
      a.errTot = errTot o.toErk s.y a.yn a.errEst ∧ a.err = errNorm n a.errTot ∧ a.reject = ltb (lit 1) a.err ∧
      a.newDt = newDtI o mo dt a.err a.err s.errs0 s.dts0 s.dts1 s.newtonMaxit r.iters := by
  unfold attemptI at h
  simp only at h
  split at h
  · cases h
  · by_cases halt : s.alt = true
    · rw [if_pos halt] at h
      split at h
      · cases h
      · simp only [Option.some.injEq] at h
        subst h
        exact ⟨rfl, rfl, rfl, rfl, rfl, rfl⟩
    · rw [if_neg halt] at h
      simp only [Option.some.injEq] at h
      subst h
      exact ⟨rfl, rfl, rfl, rfl, rfl, rfl⟩

/-- Counting invariant. -/
structure CountInvI {m : ℕ} (s : IrkState F m n) : Prop where
  att : s.sol.count.attempt = s.step + s.sol.count.rejectErr + s.sol.count.rejectNewton
  ok : s.sol.count.newtonSuccess = s.step + s.sol.count.rejectErr
  mx : s.sol.count.newtonMaxitExceed = s.sol.count.rejectNewton
  dv : s.sol.count.newtonIncrDiverge = 0
  ie : s.sol.count.newtonIterErrorTooLarge = 0
  fe : s.sol.count.funEvals = s.sol.log.funs.length
  je : s.sol.count.jacEvals = s.sol.log.jacs.length

theorem flatMap_constructCalls_length (sc : SolverCoeffs F) (t dt : F) (y : Vec F n) (m : ℕ)
    (Ys : ℕ → Vec F (sc.ns * n)) :
    ((List.range m).flatMap fun j => constructCalls sc t dt y (Ys (j + 1))).length = sc.ns * m := by
  induction m with
  | zero => simp
  | succ m ih => rw [List.range_succ, List.flatMap_append, List.length_append, ih]; simp [constructCalls, Nat.mul_succ]

/-- what the stage solve adds to counters and log -/
theorem solve_count {nd : Bool} {la : LinAlg F} {fn : OdeFun F n} {sc : SolverCoeffs F} {t dt : F} {y : Vec F n}
    {refresh : ℤ} {xtol Rtol : F} {maxit : ℤ} {count : IrkCounters} {log : CallLog F n}
    {r : StageResult F (sc.ns * n) n}
    (h : newtonSolveStages nd la fn sc t dt y maxit refresh xtol Rtol count log = .ret r) :
    (r.status = 0 ∨ r.status = 3) ∧ ∃ L K, r.log = { funs := log.funs ++ L, jacs := log.jacs ++ K } ∧
      r.count = { count with funEvals := count.funEvals + L.length, jacEvals := count.jacEvals + K.length } := by
  obtain ⟨-, m, Ys, dYs, H⟩ := stage_run h
  refine ⟨by rcases H.stop with h | h <;> simp [h.1], ?_⟩
  refine ⟨constructCalls sc t dt y (fun _ => lit 0) ++
    (List.range m).flatMap (fun j => constructCalls sc t dt y (Ys (j + 1))),
    (t, y) :: List.replicate (refreshes refresh 1 (r.iters - 1)) (t, y), ?_, ?_⟩
  · have h1 := H.funs
    have h2 := H.jacs
    cases hl : r.log
    rw [hl] at h1 h2
    simp only at h1 h2
    rw [h1, h2]
    simp
  · rw [H.count]
    simp only [List.length_append, flatMap_constructCalls_length, List.length_cons, List.length_replicate]
    simp only [constructCalls, List.length_map, List.length_finRange]
    congr 1 <;> omega

theorem countInvI_next {nd : Bool} {la : LinAlg F} {fn : OdeFun F n} {t1 : F} {o : IrkOpts F} {no : NewtonOpts F}
    {oo : OutOpts} {sc : SolverCoeffs F} {mo : ℕ} {d d2 : Vec F sc.ns} {s s' : IrkState F (sc.ns * n) n}
    (h : CountInvI s) (hb : irkBody nd la fn t1 o no oo sc mo d d2 s = .next s') : CountInvI s' := by
  obtain ⟨h1, h2, h3, h4, h5, h6, h7⟩ := h
  have hc := bodyCaseI nd la fn t1 o no oo sc mo d d2 s
  rw [hb] at hc
  cases hc with
  | newton h hm r hr hs had =>
    obtain ⟨hst, L, K, hl, hcn⟩ := solve_count hr
    have hst : r.status = 3 := hst.resolve_left hs
    constructor <;> simp [newtonReject, hcn, hl, hst, IrkOutput.bump] <;> omega
  | rejected h hm r hr hs had a ha hE hrj =>
    obtain ⟨-, L, K, hl, hcn⟩ := solve_count hr
    obtain ⟨L', hl', hcn', -⟩ := attemptI_count ha
    constructor <;> simp [rejectI, hcn', hl', hrj, StageResult.success, hl, hcn, IrkOutput.bump] <;> omega
  | accepted h hm r hr hs had a ha hE hrj hi hw =>
    obtain ⟨-, L, K, hl, hcn⟩ := solve_count hr
    obtain ⟨L', hl', hcn', -⟩ := attemptI_count ha
    by_cases e1 : (s.step + 1) % oo.interval.toNat = 0 <;> cases e2 : oo.storeInVectors <;>
      cases e3 : oo.writeToFile <;> constructor <;>
      simp [acceptI, e1, e2, e3, hcn', hl', hrj, StageResult.success, hl, hcn, IrkOutput.bump] <;> omega

theorem countInvI_init {m : ℕ} (t0 : F) (y0 : Vec F n) (dt : F) (mx : ℤ) : CountInvI (irkInit m t0 y0 dt mx) := by
  constructor <;> rfl

/-- How a finished run of `irk_guts` came about. -/
theorem irkGuts_ret {nd : Bool} {la : LinAlg F} {fn : OdeFun F n} {t0 t1 : F} {y0 : Vec F n}
    {o : IrkOpts F} {dt : F} {sc : SolverCoeffs F} {oo : OutOpts} {fuel : ℕ}
    {out : IrkOutput F (sc.ns * n) n} (h : irkGuts nd la fn t0 t1 y0 o dt sc oo fuel = some (.ret out)) :
    ∃ no mo Ai s, o.newtonOpts = some no ∧ minOrder sc = some mo ∧ la.inv sc.mat = some Ai ∧ sc.b2.length = sc.ns ∧
      (nd = true ∨ ltb (lit 0) (clipDt t0 t1 dt) = true) ∧
      Reach (irkBody nd la fn t1 o no oo sc mo (dWeights Ai fun i => sc.bw i) (dWeights Ai fun i => sc.bw2 i))
        (irkInit (sc.ns * n) t0 y0 (clipDt t0 t1 dt) no.maxit) s ∧
      irkBody nd la fn t1 o no oo sc mo (dWeights Ai fun i => sc.bw i) (dWeights Ai fun i => sc.bw2 i) s
        = .done (.ret out) := by
  unfold irkGuts at h
  simp only at h
  cases hno : o.newtonOpts with
  | none => rw [hno] at h; cases nd <;> simp at h
  | some no =>
    rw [hno] at h
    simp only at h
    by_cases hA : (!nd && !ltb (lit 0) (clipDt t0 t1 dt)) = true
    · rw [if_pos hA] at h; simp at h
    rw [if_neg hA] at h
    have hA' : nd = true ∨ ltb (lit 0) (clipDt t0 t1 dt) = true := by
      cases nd
      · right; simpa using hA
      · left; rfl
    cases hmo : minOrder sc with
    | none => rw [hmo] at h; simp at h
    | some mo =>
      rw [hmo] at h
      simp only at h
      by_cases hd : sc.nRows ≠ sc.ns ∨ sc.nCols ≠ sc.ns
      · rw [if_pos hd] at h; simp at h
      rw [if_neg hd] at h
      cases hi : la.inv sc.mat with
      | none => rw [hi] at h; simp at h
      | some Ai =>
        rw [hi] at h
        simp only at h
        by_cases hb : sc.b2.length ≠ sc.ns
        · rw [if_pos hb] at h; simp at h
        rw [if_neg hb] at h
        obtain ⟨s, hs, hr⟩ := runLoop_some h
        exact ⟨no, mo, Ai, s, rfl, rfl, rfl, by simpa using hb, hA', hs, hr⟩

end
end Verif
