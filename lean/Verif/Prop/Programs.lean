import Verif.Programs
import Verif.Prop.CyclicBuffer
import Verif.Prop.StabilityFiles
import Verif.Prop.Erk
import Verif.Prop.Irk
import Verif.Prop.DenseOrder

/-!
# The reports and the small programs: C116 to C120
-/

namespace Verif
open Timer (Tok)

/-! ### C116: the report on the timings -/

/-- milliseconds per unit -/
def reportUnit : String → ℝ
  | "ms" => 1
  | " s" => 1000
  | _ => 0

/-- **C116, the claim**: the times in the report, read in the unit of the report, are the times measured. -/
def C116_claim : Prop :=
  ∀ (timings : List ℝ) (unit : String) (lines : List (ℝ × ℝ)), timingBreakdown timings = .ret (unit, lines) →
    (∀ p, lines.head? = some p → p.1 * reportUnit unit = timings.sum) ∧
    ∀ i < 6, ∀ p, lines[i + 1]? = some p → some (p.1 * reportUnit unit) = timings[i]?

theorem foldl_add (l : List ℝ) (a : ℝ) : l.foldl (· + ·) a = a + l.sum := by
  induction l generalizing a with
  | nil => simp
  | cons x l ih => rw [List.foldl_cons, ih, List.sum_cons, add_assoc]

/-- **C116 (what is printed).**  The unit is "ms" up to 1000 ms and " s" above; in the second case all times are a tenth of the time in
seconds.  The percentages are right in both cases. -/
theorem C116_lines_partial {timings : List ℝ} {unit : String} {lines : List (ℝ × ℝ)} (h : timingBreakdown timings = .ret (unit, lines)) :
    lines.length = 7 ∧ (unit = "ms" ∨ unit = " s") ∧ (unit = "ms" ↔ timings.sum ≤ 1000) ∧
    (∀ p, lines.head? = some p → p.1 * reportUnit unit = (if unit = "ms" then 1 else 1 / 10) * timings.sum ∧ (timings.sum ≠ 0 → p.2 = 100)) ∧
    ∀ i < 6, ∃ p t, lines[i + 1]? = some p ∧ timings[i]? = some t ∧ p.1 * reportUnit unit = (if unit = "ms" then 1 else 1 / 10) * t ∧
      p.2 = 100 * t / timings.sum := by
  unfold timingBreakdown at h
  simp only [foldl_add, lit_real, Rat.cast_zero, zero_add] at h
  by_cases hl : timings.length < 6
  · rw [if_pos hl] at h
    cases h
  rw [if_neg hl] at h
  simp only [Outcome.ret.injEq, Prod.mk.injEq] at h
  obtain ⟨rfl, rfl⟩ := h
  have hlen : (timings.take 6).length = 6 := by simp; omega
  have hget : ∀ i < 6, ∃ t, timings[i]? = some t ∧ (timings.take 6)[i]? = some t := fun i hi => by
    have := List.getElem?_eq_getElem (l := timings) (i := i) (by omega)
    exact ⟨_, this, by rw [List.getElem?_take, if_pos hi, this]⟩
  by_cases hb : (1000 : ℝ) < timings.sum
  · have hb' : ltb (((1000 : ℚ) : ℝ)) timings.sum = true := by rw [ltb_real]; simpa using hb
    have hne : timings.sum ≠ 0 := by linarith
    simp only [hb', if_true]
    refine ⟨by rw [List.length_cons, List.length_map, hlen], by simp, ⟨fun h => absurd h (by decide), fun h => by linarith⟩, ?_, ?_⟩
    · intro p hp
      simp only [List.head?_cons, Option.some.injEq, timingLine] at hp
      subst hp
      refine ⟨?_, fun _ => ?_⟩
      · simp [reportUnit]
        ring
      · simp
        field_simp
    · intro i hi
      obtain ⟨t, h1, h2⟩ := hget i hi
      refine ⟨_, t, by rw [List.getElem?_cons_succ, List.getElem?_map, h2, Option.map_some], h1, ?_, ?_⟩
      · simp [timingLine, reportUnit]
        ring
      · simp [timingLine]
        field_simp
  · have hb' : ltb (((1000 : ℚ) : ℝ)) timings.sum = false := by rw [ltb_real_false]; simpa using hb
    simp only [hb', Bool.false_eq_true, if_false]
    refine ⟨by rw [List.length_cons, List.length_map, hlen], by simp, ⟨fun _ => not_lt.1 hb, fun _ => by simp⟩, ?_, ?_⟩
    · intro p hp
      simp only [List.head?_cons, Option.some.injEq, timingLine] at hp
      subst hp
      refine ⟨?_, fun hne => ?_⟩
      · simp [reportUnit]
      · simp
        field_simp
    · intro i hi
      obtain ⟨t, h1, h2⟩ := hget i hi
      refine ⟨_, t, by rw [List.getElem?_cons_succ, List.getElem?_map, h2, Option.map_some], h1, ?_, ?_⟩
      · simp [timingLine, reportUnit]
      · simp [timingLine]

/-- **C116 is false**: two seconds are reported as 0.2 s. -/
theorem C116_refuted : ¬ C116_claim := by
  intro h
  have hr : ∃ unit lines, timingBreakdown ([2000, 0, 0, 0, 0, 0, 0] : List ℝ) = .ret (unit, lines) := ⟨_, _, rfl⟩
  obtain ⟨unit, lines, hr⟩ := hr
  obtain ⟨h1, h2, h3, h4, -⟩ := C116_lines_partial hr
  have hu : unit ≠ "ms" := fun e => by
    have := h3.mp e
    norm_num at this
  cases lines with
  | nil => cases h1
  | cons p l =>
    have e1 := (h4 p rfl).1
    rw [if_neg hu, (h _ _ _ hr).1 p rfl] at e1
    norm_num at e1

/-- `C116_lines_partial` on a report in seconds -/
example : ∃ lines, timingBreakdown ([500, 1000, 0, 500, 0, 0, 0] : List ℝ) = .ret (" s", lines) ∧ lines.head? = some (1 / 5, 100) := by
  have hr : ∃ unit lines, timingBreakdown ([500, 1000, 0, 500, 0, 0, 0] : List ℝ) = .ret (unit, lines) := ⟨_, _, rfl⟩
  obtain ⟨unit, lines, hr⟩ := hr
  obtain ⟨h1, h2, h3, h4, -⟩ := C116_lines_partial hr
  have hu : unit = " s" := h2.resolve_left fun e => by
    have := h3.mp e
    norm_num at this
  subst hu
  refine ⟨lines, hr, ?_⟩
  cases lines with
  | nil => cases h1
  | cons p l =>
    obtain ⟨e1, e2⟩ := h4 p rfl
    rw [if_neg (by decide)] at e1
    norm_num [reportUnit] at e1 e2
    rw [List.head?_cons]
    congr 1
    exact Prod.ext (by linarith) e2

/-! ### C117: the iterators of the buffer -/

/-- **C117, the claim**: a loop from `begin()` to `end()` over a buffer visits the stored values, the newest first. -/
def C117_claim : Prop :=
  ∀ (p : ℕ) (h : List ℕ), 1 ≤ p → ∃ b fuel, CBuf.history 0 (p : ℤ) h = .ret b ∧
    CIter.walk fuel b (CIter.first b) [] = some (.ret (h.reverse.take p))

/-- **C117 (every loop is undefined).**  The comparison at the head of the loop already reads an uninitialised member, for every buffer in every
state, also the empty one; incrementing and dereferencing do as well. -/
theorem C117_walk_ub {T : Type} (b : CBuf T) (k : ℕ) (l : List T) :
    CIter.walk (k + 1) b (CIter.first b) l = some .ub ∧ CIter.next (CIter.first b) = .ub ∧ CIter.next (CIter.last b) = .ub ∧
      CIter.deref b.storage (CIter.first b) = .ub ∧ CIter.deref b.storage (CIter.last b) = .ub := by
  have hl : CIter.last b = ⟨none⟩ := by
    unfold CIter.last CIter.make
    split <;> rfl
  rw [hl]
  refine ⟨?_, rfl, rfl, rfl, rfl⟩
  rw [CIter.walk, hl]
  rfl

/-- **C117 is false.** -/
theorem C117_refuted : ¬ C117_claim := by
  intro h
  obtain ⟨b, fuel, -, hw⟩ := h 2 [1, 2, 3] (by norm_num)
  cases fuel with
  | zero => cases hw
  | succ k =>
    rw [(C117_walk_ub b k []).1] at hw
    cases hw

/-- **C117 (`print_internal_state`).**  The state is printed as it is, with exactly one mark, behind the newest value. -/
theorem C117_print_partial {T : Type} (dflt : T) {p : ℕ} (hp : 1 ≤ p) (h : List T) (hne : h ≠ []) :
    ∃ b x, CBuf.history dflt (p : ℤ) h = .ret b ∧ h.getLast? = some x ∧ b.printState.1 = p ∧ b.printState.2.2.length = 2 * p ∧
      b.printState.2.2.map Prod.fst = b.storage ∧
      ∀ i y m, b.printState.2.2[i]? = some (y, m) → (m = true ↔ i = b.current) ∧ (m = true → y = x) := by
  obtain ⟨b, e, r⟩ := CBuf.history_rep dflt hp h
  obtain ⟨b', e', hs, -, hi⟩ := C01_most_recent dflt hp h
  rw [e, Outcome.ret.injEq] at e'
  subst e'
  have hlast : h.getLast? = some (h.getLast hne) := List.getLast?_eq_some_getLast hne
  have hpos : 0 < h.length := List.length_pos_iff.mpr hne
  have h0 := hi true 0 (h.getLast hne) (by rw [hs]; omega) (by rw [← List.head?_eq_getElem?, List.head?_reverse, hlast])
  refine ⟨b, _, e, hlast, r.per, ?_, ?_, ?_⟩
  · simp [CBuf.printState, r.len]
  · simp only [CBuf.printState, List.map_map]
    rw [show (Prod.fst ∘ fun q : ℕ × T => (q.2, decide (b.current = q.1))) = Prod.snd from rfl, List.map_snd_zip (by simp)]
  · intro i y m hm
    simp only [CBuf.printState, List.getElem?_map, List.getElem?_zip_eq_some, Option.map_eq_some_iff, Prod.mk.injEq] at hm
    obtain ⟨⟨j, z⟩, ⟨hj, hz⟩, rfl, rfl⟩ := hm
    have hij : j = i := by
      rw [List.getElem?_range] at hj
      · simpa using hj.symm
      · by_contra hlt
        rw [List.getElem?_eq_none (by simpa using hlt)] at hj
        cases hj
    subst hij
    refine ⟨by simp [eq_comm], fun ht => ?_⟩
    simp only [decide_eq_true_eq] at ht
    simp only [CBuf.index, Bool.not_true, Bool.false_and, Bool.false_eq_true, if_false, not_lt_zero, Nat.sub_zero, CBuf.readAt, ht] at h0
    simp only at hz
    rw [hz] at h0
    simpa using h0

/-- five values in a buffer of period 3 -/
example : ∃ b, CBuf.history 0 (3 : ℤ) [1, 2, 3, 4, 5] = .ret b ∧
    b.printState = (3, 4, [(4, false), (5, false), (3, false), (4, false), (5, true), (0, false)]) := ⟨_, rfl, by decide⟩

/-! ### C118: the stability program -/

theorem printCoeffs_ret (name : String) {sc : SolverCoeffs ℝ} (h1 : sc.c = [] ∨ sc.c.length ≤ sc.A.length ∧ sc.b.length ≤ (sc.A.headD []).length) :
    ∃ l, printCoeffs name sc = .ret l := by
  refine ⟨_, if_neg ?_⟩
  rintro ⟨a, b, c⟩
  rcases h1 with h | h
  · exact a h
  · omega

theorem shapes : ∀ p ∈ irkMethods, ((irkCoeffs p.2 : SolverCoeffs ℝ).c = [] ∨
    (irkCoeffs p.2 : SolverCoeffs ℝ).c.length ≤ (irkCoeffs p.2 : SolverCoeffs ℝ).A.length ∧
      (irkCoeffs p.2 : SolverCoeffs ℝ).b.length ≤ ((irkCoeffs p.2 : SolverCoeffs ℝ).A.headD []).length) := by
  intro p hp
  rcases irk_or_empty p hp with h | h
  · right
    have hv : irkVerify (irkCoeffs p.2 : SolverCoeffs ℝ) = true := (C08_irk p.2).mpr (by
      simpa [irkImplemented] using h)
    simp only [irkVerify, SolverCoeffs.nRows, SolverCoeffs.nCols] at hv
    have hc : ¬ ((irkCoeffs p.2 : SolverCoeffs ℝ).b.length ≠ (irkCoeffs p.2 : SolverCoeffs ℝ).c.length ∨
        (irkCoeffs p.2 : SolverCoeffs ℝ).b.length ≠ (irkCoeffs p.2 : SolverCoeffs ℝ).A.length ∨
        (irkCoeffs p.2 : SolverCoeffs ℝ).b.length ≠ ((irkCoeffs p.2 : SolverCoeffs ℝ).A.headD []).length) := fun hc => by
      simp only [hc, if_true] at hv
      cases hv
    push Not at hc
    omega
  · left
    rcases h with h | h | h | h <;> rw [h] <;> rfl

/-- **C118.**  What the program does: without arguments it returns -1 and writes nothing; for the name of a method with embedded weights it writes
three complete files and returns 0; for everything else it ends with an exception. -/
theorem C118_outcome (args : List String) :
    (args = [] → stabilityMain args = .ret (-1, none)) ∧
    ∀ name rest, args = name :: rest →
      ((name ∈ methodNames ∧ name ∉ ["IMPLICIT_EULER", "EXPLICIT_EULER", "RUNGE_KUTTA_4"]) →
        ∃ files, stabilityMain args = .ret (0, some files) ∧ files.region.length = 32000 ∧ files.embedded.length = 32000 ∧ files.limit.length = 35) ∧
      (¬ (name ∈ methodNames ∧ name ∉ ["IMPLICIT_EULER", "EXPLICIT_EULER", "RUNGE_KUTTA_4"]) → stabilityMain args = .throws) := by
  refine ⟨fun h => by rw [h]; rfl, ?_⟩
  rintro name rest rfl
  have hprint : ∃ l, (if irkNamed name ≠ 0 then printCoeffs name (irkCoeffs (irkNamed name) : SolverCoeffs ℝ) else .ret []) = .ret l := by
    split
    · exact printCoeffs_ret _ (shapes _ (irkNamed_mem ‹_›))
    · exact ⟨_, rfl⟩
  obtain ⟨l, hl⟩ := hprint
  simp only [stabilityMain, hl, Outcome.ret_bind]
  have w := C65_written name
  have o := C66_outcome name
  have x := C66_exact name
  constructor
  · rintro ⟨h1, h2⟩
    obtain ⟨r, hr⟩ := (w false).mpr ⟨h1, by simp⟩
    obtain ⟨e, he⟩ := (w true).mpr ⟨h1, fun h => h2 (by rw [h.1]; simp)⟩
    obtain ⟨t, ht⟩ := x.1.mpr h2
    refine ⟨⟨r, e, t⟩, by rw [hr, he, ht]; rfl, (C65_grid hr).1, (C65_grid he).1, ?_⟩
    have := x.2 t ht
    rw [if_pos h1] at this
    exact this
  · intro hn
    rcases (o false).2 with h | ⟨r, hr⟩
    · rw [h]
      rfl
    rw [hr]
    simp only [Outcome.ret_bind]
    rcases (o true).2 with h | ⟨e, he⟩
    · rw [h]
      rfl
    rw [he]
    simp only [Outcome.ret_bind]
    rcases (o true).1 with h | ⟨t, ht⟩
    · rw [h]
      rfl
    · exact absurd ⟨((w false).mp ⟨r, hr⟩).1, x.1.mp ⟨t, ht⟩⟩ hn

/-- **C118, the claim**: the program ends with status 0 for every method and with -1 otherwise. -/
def C118_claim : Prop :=
  ∀ args : List String, (∃ st files, stabilityMain args = .ret (st, files) ∧ (st = 0 ↔ ∃ name ∈ args.head?, name ∈ methodNames))

/-- **C118 is false**: an unknown name, and the methods without embedded weights, end the program with an exception. -/
theorem C118_refuted : ¬ C118_claim := by
  intro h
  obtain ⟨st, files, h1, -⟩ := h ["RUNGE_KUTTA_4"]
  rw [((C118_outcome ["RUNGE_KUTTA_4"]).2 _ _ rfl).2 (by simp)] at h1
  cases h1

example : ∃ files, stabilityMain ["DORMAND_PRINCE_54", "ignored"] = .ret (0, some files) :=
  let ⟨f, h, _⟩ := ((C118_outcome ["DORMAND_PRINCE_54", "ignored"]).2 _ _ rfl).1 (by decide)
  ⟨f, h⟩

/-! ### C119: the batch of runs -/

/-- **C119, the claim**: `run_batch` returns, and it returns 0 only if all four runs do. -/
def C119_claim : Prop :=
  ∀ (nd : Bool) (la : LinAlg ℝ) (y0 : Vec ℝ 12) (l r v : ℤ) (fuel : ℕ) (x : Outcome ℤ), runBatch nd la y0 (.ret (l, r, v)) fuel = some x →
    ∃ st, x = .ret st ∧ (st = 0 → l = 0 ∧ r = 0 ∧ v = 0)

/-- **C119 (never defined).**  `run_batch` copies the uninitialised `time_internals` before it has run anything, in any arithmetic. -/
theorem C119_ub {F : Type} [Add F] [Sub F] [Mul F] [Div F] [Neg F] [Scalar F] (nd : Bool) (la : LinAlg F) (y0 : Vec F 12)
    (rest : Outcome (ℤ × ℤ × ℤ)) (fuel : ℕ) : runBatch nd la y0 rest fuel = some .ub := by
  have hm : ((Tables.init irkMethods).nameToMethod "LOBATTO_IIIC_85").1 ≠ 0 := by decide
  unfold runBatch intEquation
  simp only [batchOpts]
  have hu : (UserOpts.dflt : UserOpts F).timeInternals = none := rfl
  simp only [hu, hm, ne_eq, not_false_eq_true, if_true]
  rfl

theorem int_zero_iff (x : ℤ) : x = 0 ↔ ∀ i, x.testBit i = false := by
  constructor
  · rintro rfl i
    exact Nat.zero_testBit i
  · intro h
    cases x with
    | ofNat m =>
      have : m = 0 := Nat.zero_of_testBit_eq_false h
      subst this
      rfl
    | negSucc m =>
      have h1 := h m
      have h2 : m.testBit m = false := Nat.testBit_lt_two_pow Nat.lt_two_pow_self
      simp only [Int.testBit, h2, Bool.not_false, Bool.true_eq_false] at h1

/-- **C119 (the statuses).**  The combined status is the bitwise conjunction: it is 0 as soon as one run succeeds, whatever the others do, and
also when the failures have no bit in common. -/
theorem C119_status (tb l r v : ℤ) :
    (batchStatus tb l r v = 0 ↔ ∀ i, ¬ (tb.testBit i = true ∧ l.testBit i = true ∧ r.testBit i = true ∧ v.testBit i = true)) ∧
    (tb = 0 ∨ l = 0 ∨ r = 0 ∨ v = 0 → batchStatus tb l r v = 0) := by
  have hb : ∀ i, (batchStatus tb l r v).testBit i = (tb.testBit i && l.testBit i && r.testBit i && v.testBit i) := by
    intro i
    simp only [batchStatus]
    rw [Int.testBit_land, Int.testBit_land, Int.testBit_land]
  have h0 : batchStatus tb l r v = 0 ↔ ∀ i, (batchStatus tb l r v).testBit i = false := int_zero_iff _
  have hiff : batchStatus tb l r v = 0 ↔ ∀ i, ¬ (tb.testBit i = true ∧ l.testBit i = true ∧ r.testBit i = true ∧ v.testBit i = true) := by
    rw [h0]
    refine forall_congr' fun i => ?_
    rw [hb]
    cases tb.testBit i <;> cases l.testBit i <;> cases r.testBit i <;> cases v.testBit i <;> simp
  refine ⟨hiff, fun h => hiff.mpr fun i hi => ?_⟩
  have hz : ∀ i, (0 : ℤ).testBit i = false := (int_zero_iff 0).mp rfl
  rcases h with h | h | h | h <;> subst h <;> simp only [hz, Bool.false_eq_true, false_and, and_false] at hi

/-- **C119 is false.** -/
theorem C119_refuted : ¬ C119_claim := by
  intro h
  obtain ⟨st, h1, -⟩ := h false laReal (fun _ => 0) 0 0 0 0 _ (C119_ub _ _ _ _ _)
  cases h1

/-- three failures and one success are reported as a success; so are four failures of different kinds -/
example : batchStatus 16 16 0 16 = 0 ∧ batchStatus 16 128 16 4 = 0 := by decide

/-! ### C120: dense output and printed output -/

theorem erk_dense_none (m : ℤ) : (erkCoeffs m : SolverCoeffs ℝ).bInterp = [] := by
  unfold erkCoeffs
  split_ifs <;> rfl

/-- **C120 (explicit methods).**  No explicit method has dense output; asking for it ends with an assertion, without assertions with an exception. -/
theorem C120_explicit (nd : Bool) (theta : ℝ) {m : ℤ} (hm : m ∈ ([100, 110, 120, 130, 131, 132] : List ℤ)) :
    erkProjectB nd theta (erkCoeffs m) = if nd then .throws else .assertFail := by
  have hns : (erkCoeffs m : SolverCoeffs ℝ).ns ≠ 0 := by
    simp only [List.mem_cons, List.not_mem_nil, or_false] at hm
    rcases hm with rfl | rfl | rfl | rfl | rfl | rfl <;>
      simp [erkCoeffs, SolverCoeffs.ns, explicitEuler, rungeKutta4, bogackiShampine32, cashKarp54, dormandPrince54, fehlberg54]
  unfold erkProjectB
  rw [erk_dense_none]
  cases nd
  · rfl
  · simp [hns.symm]

/-- **C120 (implicit methods).**  Exactly RADAU_IIA_32, 53, 95, 137 and LOBATTO_IIIC_85 have dense output; for the other methods asking for it ends
with an assertion, without assertions with an exception. -/
theorem C120_implicit (nd : Bool) (theta : ℝ) {m : ℤ} (hm : m ∈ irkImplemented) :
    (m ∈ ([210, 211, 212, 213, 232] : List ℤ) → ∃ w, projectB nd theta (irkCoeffs m) = .ret w ∧ w.length = (irkCoeffs m : SolverCoeffs ℝ).b.length) ∧
    (m ∉ ([210, 211, 212, 213, 232] : List ℤ) → projectB nd theta (irkCoeffs m : SolverCoeffs ℝ) = if nd then .throws else .assertFail) := by
  constructor
  · intro h
    obtain ⟨w, h1, h2, -⟩ := C112_weights (m := m) (by
      simp only [List.mem_cons, List.not_mem_nil, or_false] at h ⊢
      tauto) nd theta
    exact ⟨w, h1, h2⟩
  · intro h
    have key : (irkCoeffs m : SolverCoeffs ℝ).bInterp = [] ∧ (irkCoeffs m : SolverCoeffs ℝ).ns ≠ 0 := by
      simp only [irkImplemented, List.mem_cons, List.not_mem_nil, or_false] at hm h
      rcases hm with rfl | rfl | rfl | rfl | rfl | rfl | rfl | rfl | rfl | rfl | rfl | rfl <;> first
        | (exfalso; revert h; decide)
        | exact ⟨rfl, Nat.succ_ne_zero _⟩
    unfold projectB
    rw [key.1]
    cases nd
    · rfl
    · simp [key.2.symm]

/-- **C120 (`print_output`).**  The output of every integrator can be printed: one line per recorded time, with the time and the components of the value. -/
theorem C120_print_erk {F : Type} [Add F] [Sub F] [Mul F] [Div F] [Neg F] [Scalar F] {n : ℕ} {nd : Bool} {f : F → Vec F n → Vec F n} {t0 t1 : F}
    {y0 : Vec F n} {o : ErkOpts F} {oo : OutOpts} {m : ℤ} {dt : F} {fuel : ℕ} {out : ErkOutput F n}
    (h : erkOdeint nd f t0 t1 y0 o oo m dt fuel = some (.ret out)) :
    ∃ lines, printOutput out.tVals out.yVals = .ret lines ∧ lines.map Prod.fst = out.tVals ∧
      ∀ (i : ℕ) (l : F × List F), lines[i]? = some l → ∃ y : Vec F n, out.yVals[i]? = some y ∧ l.2.length = n ∧ ∀ k : Fin n, l.2[k.1]? = some (y k) := by
  have hl := (C10_odeint h).1
  refine ⟨_, if_neg (by omega), ?_, ?_⟩
  · rw [List.map_map, show (Prod.fst ∘ fun p : F × Vec F n => (p.1, (List.finRange n).map p.2)) = Prod.fst from rfl, List.map_fst_zip (by omega)]
  · intro i l hi
    simp only [List.getElem?_map, Option.map_eq_some_iff, List.getElem?_zip_eq_some] at hi
    obtain ⟨⟨t, y⟩, ⟨-, hy⟩, rfl⟩ := hi
    exact ⟨y, hy, by simp, fun k => by simp⟩

/-- **C120 (`to_fixed_w_string`).**  The result is at least `wide` characters long and exactly that if the text fits; the third argument never matters
because `std::setw` has already filled the text with blanks. -/
theorem C120_fixed_width (s : List Char) (wide : ℕ) (c : Char) :
    (toFixedW s wide c).1.length = max s.length wide ∧ toFixedW s wide c = toFixedW s wide ' ' ∧
      (toFixedW s wide c).1 = List.replicate (wide - s.length) ' ' ++ s ∧ ((toFixedW s wide c).2 = true ↔ wide < s.length) := by
  have hl : (List.replicate (wide - s.length) ' ' ++ s).length = max s.length wide := by simp; omega
  unfold toFixedW
  simp only [hl]
  by_cases h : wide < max s.length wide
  · rw [if_pos h, if_pos h]
    exact ⟨hl, rfl, rfl, by simp; omega⟩
  · have : wide - max s.length wide = 0 := by omega
    rw [if_neg h, if_neg h, this]
    simp only [List.replicate_zero, List.append_nil]
    exact ⟨hl, trivial, trivial, by simp; omega⟩

/-- the third argument is documented as the padding -/
example : toFixedW "1.5e-03".toList 10 '*' = ("   1.5e-03".toList, false) := by decide

end Verif
