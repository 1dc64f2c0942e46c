import Verif.CyclicBuffer

/-!
# Properties C01–C04 (cyclic_buffer.hpp)

Specification: the history is a plain list `h` of pushes, oldest first; the `i`-th most recent value is
`h.reverse[i]`.
-/

namespace Verif
open CBuf
variable {T : Type}

/-- **C01.**  After construction with period `p ≥ 1` and any pushes `h`, `size() = min(n,p)`, `empty()` iff
nothing was pushed, and `b[i]` is the `i`-th most recent value for every `i < size()`; with assertions
compiled in or not. -/
theorem C01_most_recent (dflt : T) {p : ℕ} (hp : 1 ≤ p) (h : List T) :
    ∃ b, history dflt (p : ℤ) h = .ret b ∧ b.size = min h.length p ∧
      (b.isEmpty = true ↔ h = []) ∧
      ∀ nd i v, i < b.size → h.reverse[i]? = some v → b.index nd i = .ret v := by
  obtain ⟨b, e, r⟩ := history_rep dflt hp h
  refine ⟨b, e, r.size, ?_, ?_⟩
  · simp only [isEmpty, r.size, beq_iff_eq]
    rw [← List.length_eq_zero_iff]; omega
  · intro nd i v hi hv
    rw [r.size] at hi
    obtain ⟨h1, h2⟩ := rep_read hp r hi
    have hr : h.reverse[i]? = h[h.length - 1 - i]? := List.getElem?_reverse (by omega)
    rw [← hr, hv] at h2
    have hper : i < b.period := by rw [r.per]; omega
    simp [index, hper, h1, not_lt.mpr h1, readAt, h2]

example : ∃ b, history 0 (3 : ℕ) [10, 11, 12, 13, 14] = .ret b ∧ b.size = 3 ∧ b.index false 1 = .ret 13 := by
  obtain ⟨b, h, hs, -, hi⟩ := C01_most_recent 0 (p := 3) (by norm_num) [10, 11, 12, 13, 14]
  exact ⟨b, h, hs, hi false 1 13 (by rw [hs]; decide) rfl⟩

/-- every index below `size()` really designates a pushed value (so C01 is not vacuous) -/
theorem C01_index_total (dflt : T) {p : ℕ} (hp : 1 ≤ p) (h : List T) {b : CBuf T}
    (e : history dflt (p : ℤ) h = .ret b) {i : ℕ} (hi : i < b.size) :
    ∃ v ∈ h, ∀ nd, b.index nd i = .ret v := by
  obtain ⟨b', e', hs, _, hr⟩ := C01_most_recent dflt hp h
  rw [e] at e'; cases e'
  have hlt : i < h.reverse.length := by rw [List.length_reverse]; omega
  exact ⟨h.reverse[i], by simp, fun nd =>
    hr nd i _ hi (List.getElem?_eq_getElem hlt)⟩

example : ∃ b, history 0 (3 : ℕ) [10, 11, 12, 13, 14] = .ret b ∧ ∃ v ∈ [10, 11, 12, 13, 14], ∀ nd, b.index nd 2 = .ret v := by
  obtain ⟨b, h, hs, -⟩ := C01_most_recent 0 (p := 3) (by norm_num) [10, 11, 12, 13, 14]
  exact ⟨b, h, C01_index_total 0 (by norm_num) _ h (by rw [hs]; decide)⟩

example : ∃ b, history 0 (3 : ℕ) [10, 11, 12, 13, 14, 15, 16] = .ret b ∧ b.size = 3 ∧
    b.index false 0 = .ret 16 ∧ b.index false 2 = .ret 14 := by
  refine ⟨_, rfl, ?_, ?_, ?_⟩ <;> rfl

/-- **C01 (copy).**  The copy constructor gives a buffer with the same future: all later pushes and reads
agree with those on the original. -/
theorem C01_copy (b : CBuf T) (ts : List T) : b.copy.pushAll ts = b.pushAll ts := rfl

example : (CBuf.copy ⟨2, 2, 2, [3, 2, 3, 7]⟩).pushAll [8, 9] = .ret ⟨2, 2, 2, [9, 8, 9, 8]⟩ := (C01_copy _ _).trans rfl

/-- **C02.**  No push history leads to an out-of-bounds write (the result is `ret`), the storage keeps its `2p`
cells, every accepted access is in bounds (never `ub`), and on a non-empty buffer the assertions accept
`i` exactly when `i < size()`; an empty buffer accepts exactly `i = 0`. -/
theorem C02_memory_safe (dflt : T) {p : ℕ} (hp : 1 ≤ p) (h : List T) :
    ∃ b, history dflt (p : ℤ) h = .ret b ∧ b.storage.length = 2 * p ∧
      (∀ i, ((∃ v, b.index false i = .ret v) ↔ i < max b.size 1)) ∧
      (∀ i, ¬ i < max b.size 1 → b.index false i = .assertFail) := by
  obtain ⟨b, e, r⟩ := history_rep dflt hp h
  have key : ∀ i, i < max b.size 1 ↔ (i < b.period ∧ i ≤ b.current) := by
    intro i
    rw [r.size, r.per, r.cur]
    have := Nat.mod_lt h.length hp
    split <;> omega
  have hlt : ∀ i, i < max b.size 1 → b.current - i < b.storage.length := by
    intro i _
    rw [r.len, r.cur]
    have := Nat.mod_lt h.length hp
    split <;> omega
  have h1 : ∀ i, i < max b.size 1 → ∃ v, b.index false i = .ret v := by
    intro i hi
    have := (key i).mp hi
    refine ⟨b.storage[b.current - i]'(hlt i hi), ?_⟩
    simp [index, this.1, this.2, not_lt.mpr this.2, readAt, hlt i hi]
  have h2 : ∀ i, ¬ i < max b.size 1 → b.index false i = .assertFail := by
    intro i hi
    rw [key] at hi
    unfold index
    by_cases c1 : i < b.period
    · have c2 : ¬ i ≤ b.current := fun c => hi ⟨c1, c⟩
      simp [c1, c2]
    · simp [c1]
  refine ⟨b, e, r.len, fun i => ⟨fun ⟨v, hv⟩ => ?_, h1 i⟩, h2⟩
  by_contra hc
  rw [h2 i hc] at hv
  cases hv

example : ∃ b, history 7 (2 : ℕ) [1, 2, 3] = .ret b ∧ b.storage.length = 4 ∧ b.index false 5 = .assertFail := by
  obtain ⟨b, h, hl, -, hf⟩ := C02_memory_safe 7 (p := 2) (by norm_num) [1, 2, 3]
  refine ⟨b, h, hl, hf 5 ?_⟩
  have : b.size = 2 := by
    obtain ⟨b', h', hs, -⟩ := C01_most_recent 7 (p := 2) (by norm_num) [1, 2, 3]
    rw [h] at h'; cases h'; exact hs
  rw [this]; decide

/-- **C02 (period 0, negative period).**  A period-0 buffer has undefined behaviour on the first push; a
negative period throws. -/
theorem C02_period_nonpositive (dflt : T) (t : T) (ts : List T) :
    history dflt 0 (t :: ts) = .ub ∧ ∀ p : ℤ, p < 0 → ∀ h, history dflt p h = .throws := by
  refine ⟨by simp [history, construct, pushAll, pushBack, writeAt], fun p hp h => ?_⟩
  simp [history, construct, hp]

example : history 7 0 [1] = .ub ∧ history 7 (-3) [1] = .throws :=
  ⟨(C02_period_nonpositive 7 1 []).1, (C02_period_nonpositive 7 1 []).2 (-3) (by norm_num) [1]⟩

example : history 7 (2 : ℕ) [1, 2, 3] ≠ (.ub : Outcome (CBuf ℕ)) := by
  intro h
  have h' : history 7 (2 : ℕ) [1, 2, 3] = .ret ⟨2, 2, 2, [3, 2, 3, 7]⟩ := rfl
  rw [h'] at h; cases h

/-- C03 as users would like it: after `resize(m)` the buffer is like a fresh one of period `m`. -/
def C03_claim : Prop :=
  ∀ (T : Type) (dflt : T) (p m : ℕ) (h h' : List T) (b : CBuf T), 1 ≤ p → 1 ≤ m →
    history dflt (p : ℤ) h = .ret b →
    (b.resize m).size = 0 ∧
    ∃ b', (b.resize m).pushAll h' = .ret b' ∧ b'.size = min h'.length m

/-- **C03 is false of the code**: the first push after any `resize`, on any buffer, is an out-of-bounds
write. -/
theorem C03_push_after_resize_ub (b : CBuf T) (m : ℕ) (t : T) :
    (b.resize m).pushBack t = .ub := by
  simp only [pushBack, resize, writeAt, List.length_nil, Nat.not_lt_zero, if_false,
    Outcome.ub_bind, ite_self]

example : (CBuf.resize ⟨2, 2, 2, [3, 2, 3, 7]⟩ 5).pushBack 1 = .ub := C03_push_after_resize_ub _ _ _

theorem C03_refuted : ¬ C03_claim := by
  intro hc
  obtain ⟨b, e, _⟩ := history_rep 0 (le_refl 1) ([] : List ℕ)
  obtain ⟨_, b', h1, _⟩ := hc ℕ 0 1 1 [] [5] b (le_refl _) (le_refl _) e
  simp [pushAll, C03_push_after_resize_ub] at h1

/-- What `resize` does achieve (the missing part is everything about later pushes, see
`C03_push_after_resize_ub`): the new period is reported, the old values are gone, but `size()` still
reports the old count. -/
theorem C03_resize_partial (dflt : T) {p : ℕ} (hp : 1 ≤ p) (h : List T) (m : ℕ) :
    ∃ b, history dflt (p : ℤ) h = .ret b ∧ (b.resize m).period = m ∧
      (b.resize m).storage = [] ∧ (b.resize m).size = min h.length p := by
  obtain ⟨b, e, r⟩ := history_rep dflt hp h
  exact ⟨b, e, rfl, rfl, r.size⟩

example : ∃ b, history 7 (2 : ℕ) [1, 2, 3] = .ret b ∧ (b.resize 5).period = 5 ∧ (b.resize 5).size = 2 := by
  obtain ⟨b, h, h1, -, h2⟩ := C03_resize_partial 7 (p := 2) (by norm_num) [1, 2, 3] 5
  exact ⟨b, h, h1, h2⟩

/-- C04 as users would like it: calling `end()` does not change what is read afterwards. -/
def C04_claim : Prop :=
  ∀ (T : Type) (dflt : T) (p : ℕ) (h : List T) (b : CBuf T), 1 ≤ p →
    history dflt (p : ℤ) h = .ret b → ∀ i, b.endEffect.index false i = b.index false i

/-- **C04 is false of the code**: after five pushes into a period-3 buffer, `end()` makes `b[0]` the second
most recent value. -/
theorem C04_refuted : ¬ C04_claim := by
  intro hc
  have := hc ℕ 0 3 [10, 11, 12, 13, 14] _ (by norm_num) rfl 0
  have h1 : (CBuf.endEffect ⟨3, 4, 3, [13, 14, 12, 13, 14, 0]⟩).index false 0 = .ret 13 := rfl
  have h2 : (CBuf.index false ⟨3, 4, 3, [13, 14, 12, 13, 14, 0]⟩ 0) = .ret 14 := rfl
  have h3 := h1.symm.trans (this.trans h2)
  simp at h3

/-- The part of C04 that holds: `end()` is harmless exactly when the number of pushes is below the period
or is 0 or 1 modulo it. (`operator[]`, `size`, `empty`, `period`, `current`, `begin` do not assign any
member: in the model they do not return a buffer.) -/
theorem C04_end_partial (dflt : T) {p : ℕ} (hp : 1 ≤ p) (h : List T) :
    ∃ b, history dflt (p : ℤ) h = .ret b ∧
      (b.endEffect = b ↔ (h.length < p ∨ h.length % p ≤ 1)) := by
  obtain ⟨b, e, r⟩ := history_rep dflt hp h
  refine ⟨b, e, ?_⟩
  have := Nat.mod_lt h.length hp
  unfold endEffect
  constructor
  · intro hb
    by_contra hc
    push Not at hc
    rw [if_pos (by rw [r.per, r.cur]; split <;> omega)] at hb
    have h1 : b.period = b.current := congrArg CBuf.current hb
    rw [r.per, r.cur, if_neg (by omega)] at h1
    omega
  · intro hc
    split
    next hle =>
      have : b.current = b.period := by
        rw [r.per, r.cur] at hle ⊢
        split at hle <;> rename_i h1 <;> simp only [h1, if_true, if_false] <;> omega
      cases b; simp_all
    next => rfl

example : (∃ b, history 7 (3 : ℕ) [1, 2, 3, 4] = .ret b ∧ b.endEffect = b) ∧
    ∃ b, history 7 (3 : ℕ) [1, 2, 3, 4, 5] = .ret b ∧ b.endEffect ≠ b := by
  obtain ⟨b, h, hb⟩ := C04_end_partial 7 (p := 3) (by norm_num) [1, 2, 3, 4]
  obtain ⟨c, h', hc⟩ := C04_end_partial 7 (p := 3) (by norm_num) [1, 2, 3, 4, 5]
  exact ⟨⟨b, h, hb.2 (by decide)⟩, c, h', fun e => absurd (hc.1 e) (by decide)⟩

end Verif
