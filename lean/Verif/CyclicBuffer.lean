import Verif.Core

/-!
# Model of cyclic_buffer.hpp
-/

namespace Verif

/-- State of `cyclic_buffer<T>` (cyclic_buffer.hpp 213-218).  `period_`, `current_`, `size_` are `long` in
the code; they are never negative after a successful construction, so `ℕ` is used (overflow of `long` is
not modelled). -/
structure CBuf (T : Type) where
  period : ℕ
  current : ℕ
  size : ℕ
  storage : List T

namespace CBuf
variable {T : Type}

/-- `explicit cyclic_buffer(int period)` (cyclic_buffer.hpp 18-20).  `storage_(2*period_)` value-initialises
`2*period` elements (`dflt`); a negative period is converted to a huge `size_t` and
`std::vector` throws `std::length_error`. -/
def construct (dflt : T) (period : ℤ) : Outcome (CBuf T) :=
  if period < 0 then .throws
  else .ret { period := period.toNat, current := 0, size := 0,
              storage := List.replicate (2 * period.toNat) dflt }

/-- `std::vector::operator[]` used for writing (cyclic_buffer.hpp 102-122): out of range is undefined behaviour. -/
def writeAt (l : List T) (i : ℕ) (v : T) : Outcome (List T) :=
  if i < l.length then .ret (l.set i v) else .ub

/-- `std::vector::operator[]` used for reading (cyclic_buffer.hpp 68-84): out of range is undefined behaviour. -/
def readAt (l : List T) (i : ℕ) : Outcome T :=
  match l[i]? with
  | some v => .ret v
  | none => .ub

/-- `push_back` (cyclic_buffer.hpp 102-122).  `next_spot == 2*period_-1` is written without
subtraction. -/
def pushBack (b : CBuf T) (t : T) : Outcome (CBuf T) := do
  let next := if b.size = 0 then 0 else b.current + 1
  let st ←
    if b.period ≤ next then do
      let st ← writeAt b.storage next t
      writeAt st (next - b.period) t
    else writeAt b.storage next t
  let cur := if next + 1 = 2 * b.period then b.period - 1 else next
  let size := if b.size < b.period then b.size + 1 else b.size
  return { period := b.period, current := cur, size := size, storage := st }

/-- `operator[]` (cyclic_buffer.hpp 68-84), both overloads.  `nd` = compiled with `NDEBUG`.  With
`current_ < i` the `size_t` difference wraps to a huge index: out of range. -/
def index (nd : Bool) (b : CBuf T) (i : ℕ) : Outcome T :=
  if !nd && !decide (i < b.period) then .assertFail
  else if !nd && !decide (i ≤ b.current) then .assertFail
  else if b.current < i then .ub
  else readAt b.storage (b.current - i)

/-- `empty()` (cyclic_buffer.hpp 61-63) -/
def isEmpty (b : CBuf T) : Bool := b.size == 0

/-- `resize(size)` (cyclic_buffer.hpp 180-186): `clear` and `reserve` leave an empty storage; `size_` is not
touched. -/
def resize (b : CBuf T) (m : ℕ) : CBuf T :=
  { b with storage := [], period := m, current := 0 }

/-- Effect of `end()` on the buffer (cyclic_buffer.hpp 166-173): note the assignment `current_ = period_`.
The returned iterator is not modelled (its constructor initialises no member, lines 133 and 157-158,
so using it is undefined behaviour). -/
def endEffect (b : CBuf T) : CBuf T :=
  if b.period ≤ b.current then { b with current := b.period } else b

/-- Copy constructor (cyclic_buffer.hpp 21-22). -/
def copy (b : CBuf T) : CBuf T :=
  { period := b.period, current := b.current, size := b.size, storage := b.storage }

/-- A sequence of `push_back` calls. -/
def pushAll (b : CBuf T) : List T → Outcome (CBuf T)
  | [] => .ret b
  | t :: ts => do
    let b' ← b.pushBack t
    b'.pushAll ts

/-- Refinement invariant: `b` is a period-`p` buffer after the pushes `h` (oldest first). -/
structure Rep (p : ℕ) (h : List T) (b : CBuf T) : Prop where
  per : b.period = p
  len : b.storage.length = 2 * p
  size : b.size = min h.length p
  cur : b.current = if h.length < p then h.length - 1 else p - 1 + h.length % p
  lo : ∀ m, m < h.length → h.length ≤ m + p → b.storage[m % p]? = h[m]?
  hi : ∀ m, m < h.length → h.length ≤ m + p → p ≤ m → b.storage[p + m % p]? = h[m]?

theorem rep_construct (dflt : T) {p : ℕ} (hp : 1 ≤ p) :
    ∃ b, construct dflt (p : ℤ) = .ret b ∧ Rep p [] b := by
  refine ⟨_, if_neg (by omega), ?_⟩
  constructor <;> simp
  omega

theorem rep_pushBack {p : ℕ} (hp : 1 ≤ p) {h : List T} {b : CBuf T} (r : Rep p h b) (t : T) :
    ∃ b', b.pushBack t = .ret b' ∧ Rep p (h ++ [t]) b' := by
  obtain ⟨per, len, size, cur, lo, hi⟩ := r
  have hmod : h.length % p < p := Nat.mod_lt _ hp
  have hnext : (if b.size = 0 then 0 else b.current + 1) =
      if h.length < p then h.length else p + h.length % p := by
    rw [size, cur]
    by_cases h1 : h.length < p
    · rw [if_pos h1, if_pos h1]; split <;> omega
    · have : min h.length p ≠ 0 := by omega
      simp only [this, h1, if_false]; omega
  by_cases h1 : h.length < p
  · -- first round: only the lower copy is written
    have hn : h.length % p = h.length := Nat.mod_eq_of_lt h1
    refine ⟨_, by
      unfold pushBack
      rw [hnext, per, if_pos h1, if_neg (by omega)]
      simp only [writeAt, len, show h.length < 2 * p by omega, if_true, Outcome.ret_bind,
        Outcome.pure_eq]
      rfl, ?_⟩
    have hne : ∀ m, m < h.length → m % p ≠ h.length := fun m hm => by
      rw [Nat.mod_eq_of_lt (by omega)]; omega
    constructor
    · rfl
    · simp [len]
    · simp only [size, List.length_append, List.length_singleton]; split <;> omega
    · simp only [List.length_append, List.length_singleton]
      by_cases h2 : h.length + 1 < p
      · rw [if_neg (by omega), if_pos h2]; omega
      · have h3 : h.length + 1 = p := by omega
        rw [if_neg h2, h3, Nat.mod_self]
        split <;> omega
    · intro m hm hm2
      simp only [List.length_append, List.length_singleton] at hm
      simp only
      by_cases e : m = h.length
      · subst e
        rw [hn, List.getElem?_set_self (by omega), List.getElem?_append_right (le_refl _)]; simp
      · rw [List.getElem?_set_ne (Ne.symm (hne m (by omega))), lo m (by omega) (by omega),
          List.getElem?_append_left (by omega)]
    · intro m hm hm2 hpm
      simp only [List.length_append, List.length_singleton] at hm
      omega
  · have hge : p ≤ h.length := by omega
    refine ⟨_, by
      unfold pushBack
      rw [hnext, per, if_neg h1, if_pos (by omega)]
      simp only [writeAt, len, show p + h.length % p < 2 * p by omega, if_true, Outcome.ret_bind,
        List.length_set, show p + h.length % p - p < 2 * p by omega, Outcome.pure_eq]
      rfl, ?_⟩
    have hsub : p + h.length % p - p = h.length % p := by omega
    have hmodne : ∀ m, m < h.length → h.length + 1 ≤ m + p → m % p ≠ h.length % p := by
      intro m hm hm2 e
      have e' : Nat.ModEq p m h.length := e
      have := (Nat.modEq_iff_dvd' (by omega : m ≤ h.length)).mp e'
      exact absurd (Nat.le_of_dvd (by omega) this) (by omega)
    constructor
    · rfl
    · simp [len]
    · simp only [size, List.length_append, List.length_singleton]; split <;> omega
    · simp only [List.length_append, List.length_singleton]
      rw [if_neg (show ¬ (h.length + 1 < p) by omega)]
      have hdm := Nat.div_add_mod h.length p
      by_cases h2 : h.length % p + 1 = p
      · rw [if_pos (by omega)]
        have : (h.length + 1) % p = 0 := by
          rw [Nat.add_mod, show h.length % p = p - 1 by omega]
          by_cases hp1 : p = 1
          · subst hp1; simp
          · rw [Nat.mod_eq_of_lt (show 1 < p by omega), show p - 1 + 1 = p by omega, Nat.mod_self]
        rw [this]; omega
      · rw [if_neg (by omega)]
        have : (h.length + 1) % p = h.length % p + 1 := by
          rw [Nat.add_mod, Nat.mod_eq_of_lt (show 1 < p by omega),
            Nat.mod_eq_of_lt (show h.length % p + 1 < p by omega)]
        rw [this]; omega
    · intro m hm hm2
      simp only [List.length_append, List.length_singleton] at hm hm2
      simp only [hsub]
      by_cases e : m = h.length
      · subst e
        rw [List.getElem?_set_self (by simp [len]; omega),
          List.getElem?_append_right (le_refl _)]; simp
      · have hlt := Nat.mod_lt m hp
        rw [List.getElem?_set_ne (Ne.symm (hmodne m (by omega) (by omega))),
          List.getElem?_set_ne (by omega), lo m (by omega) (by omega),
          List.getElem?_append_left (by omega)]
    · intro m hm hm2 hpm
      simp only [List.length_append, List.length_singleton] at hm hm2
      simp only [hsub]
      by_cases e : m = h.length
      · subst e
        rw [List.getElem?_set_ne (by omega), List.getElem?_set_self (by omega),
          List.getElem?_append_right (le_refl _)]; simp
      · have hlt := Nat.mod_lt m hp
        have := hmodne m (by omega) (by omega)
        rw [List.getElem?_set_ne (by omega), List.getElem?_set_ne (by omega),
          hi m (by omega) (by omega) hpm, List.getElem?_append_left (by omega)]

theorem rep_pushAll {p : ℕ} (hp : 1 ≤ p) : ∀ (ts : List T) {h : List T} {b : CBuf T},
    Rep p h b → ∃ b', b.pushAll ts = .ret b' ∧ Rep p (h ++ ts) b'
  | [], h, b, r => ⟨b, rfl, by simpa using r⟩
  | t :: ts, h, b, r => by
    obtain ⟨b1, e1, r1⟩ := rep_pushBack hp r t
    obtain ⟨b2, e2, r2⟩ := rep_pushAll hp ts r1
    exact ⟨b2, by simp [pushAll, e1, e2], by simpa using r2⟩

/-- Reading the slot `current - i` gives the `i`-th most recent push. -/
theorem rep_read {p : ℕ} (hp : 1 ≤ p) {h : List T} {b : CBuf T} (r : Rep p h b) {i : ℕ}
    (hi : i < min h.length p) :
    i ≤ b.current ∧ b.storage[b.current - i]? = h[h.length - 1 - i]? := by
  obtain ⟨per, len, size, cur, lo, hi'⟩ := r
  have hmod : h.length % p < p := Nat.mod_lt _ hp
  by_cases h1 : h.length < p
  · rw [cur, if_pos h1]
    refine ⟨by omega, ?_⟩
    have := lo (h.length - 1 - i) (by omega) (by omega)
    rwa [Nat.mod_eq_of_lt (by omega)] at this
  · rw [cur, if_neg h1]
    refine ⟨by omega, ?_⟩
    have hdm := Nat.div_add_mod h.length p
    have hq : 1 ≤ h.length / p := Nat.div_pos (by omega) hp
    obtain ⟨q, hq'⟩ : ∃ q, h.length / p = q + 1 := ⟨h.length / p - 1, by omega⟩
    rw [hq', Nat.mul_add, Nat.mul_one] at hdm
    by_cases h2 : i < h.length % p
    · have e : (h.length - 1 - i) % p = h.length % p - 1 - i := by
        have : h.length - 1 - i = (h.length % p - 1 - i) + p * (q + 1) := by
          rw [Nat.mul_add, Nat.mul_one]; omega
        rw [this, Nat.add_mul_mod_self_left, Nat.mod_eq_of_lt (by omega)]
      have := hi' (h.length - 1 - i) (by omega) (by omega) (by omega)
      rw [e] at this
      rw [← this]; congr 1; omega
    · have e : (h.length - 1 - i) % p = p + h.length % p - 1 - i := by
        have : h.length - 1 - i = (p + h.length % p - 1 - i) + p * q := by omega
        rw [this, Nat.add_mul_mod_self_left, Nat.mod_eq_of_lt (by omega)]
      have := lo (h.length - 1 - i) (by omega) (by omega)
      rw [e] at this
      rw [← this]; congr 1; omega

/-- The buffer obtained by constructing with period `p` and pushing `h`. -/
def history (dflt : T) (p : ℤ) (h : List T) : Outcome (CBuf T) := do
  let b ← construct dflt p
  b.pushAll h

theorem history_rep (dflt : T) {p : ℕ} (hp : 1 ≤ p) (h : List T) :
    ∃ b, history dflt (p : ℤ) h = .ret b ∧ Rep p h b := by
  obtain ⟨b0, e0, r0⟩ := rep_construct dflt hp
  obtain ⟨b, e, r⟩ := rep_pushAll hp h r0
  exact ⟨b, by simp [history, e0, e], by simpa using r⟩

end CBuf
end Verif
