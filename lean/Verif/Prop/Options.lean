import Verif.Options

/-!
# Property C09 (output option bits)
-/

namespace Verif
open OutOpts

/-- Specification of `store_in_vectors()` after a call sequence: the last enable/disable wins. -/
def specStore (init : Bool) : List Call → Bool
  | [] => init
  | .enable :: cs => specStore true cs
  | .disable :: cs => specStore false cs
  | .setStream :: cs => specStore init cs

theorem store_eq (o : OutOpts) : o.storeInVectors = o.mode.getLsbD 0 := by
  have h : ∀ x : BitVec 64, ((x &&& 1#64) != 0#64) = x.getLsbD 0 := by
    intro x
    rw [BitVec.and_one_eq_setWidth_ofBool_getLsbD]
    cases x.getLsbD 0 <;> rfl
  exact h o.mode

theorem and_two (x : BitVec 64) : ((x &&& 2#64) != 0#64) = x.getLsbD 1 := by
  have : x &&& 2#64 = if x.getLsbD 1 then 2#64 else 0#64 := by
    ext i hi
    by_cases h1 : i = 1
    · subst h1
      cases hx : x.getLsbD 1 <;> simp_all
    · have h2 : (2#64).getLsbD i = false := by
        have : ∀ i : Fin 64, (i : ℕ) ≠ 1 → (2#64).getLsbD i = false := by decide
        exact this ⟨i, hi⟩ h1
      have h2' : (2#64)[i] = false := by simpa [BitVec.getLsbD_eq_getElem hi] using h2
      cases hx : x.getLsbD 1 <;> simp [h2']
  rw [this]
  cases x.getLsbD 1 <;> decide

theorem write_eq (o : OutOpts) : o.writeToFile = o.mode.getLsbD 1 := and_two o.mode

/-- bits of the mode after one call -/
theorem apply_bits (o : OutOpts) (c : Call) (i : ℕ) (hi : i < 64) :
    (o.apply c).mode.getLsbD i =
      match c with
      | .setStream => (o.mode.getLsbD i || decide (i = 1))
      | .enable => (o.mode.getLsbD i || decide (i = 0))
      | .disable => (o.mode.getLsbD i && !decide (i = 0)) := by
  have h1 : ∀ i : Fin 64, ((1#64) <<< (2 - 1)).getLsbD i = decide ((i : ℕ) = 1) := by decide
  have h0 : ∀ i : Fin 64, ((1#64) <<< (1 - 1)).getLsbD i = decide ((i : ℕ) = 0) := by decide
  have h1i := h1 ⟨i, hi⟩
  have h0i := h0 ⟨i, hi⟩
  simp only at h1i h0i
  cases c with
  | setStream =>
    simp only [apply, setOutputStream, BitVec.getLsbD_or]
    exact congrArg _ h1i
  | enable =>
    simp only [apply, enableStore, BitVec.getLsbD_or]
    exact congrArg _ h0i
  | disable =>
    simp only [apply, disableStore, BitVec.getLsbD_and, BitVec.getLsbD_not, hi, decide_true,
      Bool.true_and]
    exact congrArg (fun b => o.mode.getLsbD i && !b) h0i

/-- **C09.**  For every initial options value (all 2^64 modes) and every sequence of calls: the store flag is what
the last enable/disable asked for, the file flag is set iff it was set or some call set a stream, all
other bits and the interval are untouched. -/
theorem C09_bits_independent (o : OutOpts) (cs : List Call) :
    (o.after cs).storeInVectors = specStore o.storeInVectors cs ∧
    ((o.after cs).writeToFile = true ↔ o.writeToFile = true ∨ Call.setStream ∈ cs) ∧
    (∀ i, 2 ≤ i → i < 64 → (o.after cs).mode.getLsbD i = o.mode.getLsbD i) ∧
    (o.after cs).interval = o.interval := by
  induction cs generalizing o with
  | nil => simp [after, specStore]
  | cons c cs ih =>
    obtain ⟨i1, i2, i3, i4⟩ := ih (o.apply c)
    have e : o.after (c :: cs) = (o.apply c).after cs := rfl
    rw [e]
    refine ⟨?_, ?_, ?_, ?_⟩
    · rw [i1, store_eq, store_eq, apply_bits o c 0 (by norm_num)]
      cases c <;> simp [specStore]
    · rw [i2, write_eq, write_eq, apply_bits o c 1 (by norm_num)]
      cases c <;> simp
    · intro i h2 h64
      rw [i3 i h2 h64, apply_bits o c i h64]
      cases c <;> simp <;> omega
    · rw [i4]; cases c <;> rfl

example : (OutOpts.after ⟨0xff00#64, 5, true⟩ [.disable, .setStream, .enable, .disable]).storeInVectors = false ∧
    (OutOpts.after ⟨0xff00#64, 5, true⟩ [.disable, .setStream, .enable, .disable]).interval = 5 :=
  ⟨(C09_bits_independent _ _).1, (C09_bits_independent _ _).2.2.2⟩

/-- **C09 (stream pointer).**  From the default object, `write_to_file()` is true only if the stream pointer
has been set: the integrators never dereference an unset pointer. -/
theorem C09_stream_set (cs : List Call) :
    (dflt.after cs).writeToFile = true → (dflt.after cs).streamSet = true := by
  have key : ∀ (cs : List Call) (o : OutOpts), (o.writeToFile = true → o.streamSet = true) →
      ((o.after cs).writeToFile = true → (o.after cs).streamSet = true) := by
    intro cs
    induction cs with
    | nil => intro o h; exact h
    | cons c cs ih =>
      intro o h
      refine ih (o.apply c) ?_
      rw [write_eq, apply_bits o c 1 (by norm_num)]
      cases c with
      | setStream => intro _; rfl
      | enable => simpa [write_eq, apply, enableStore] using h
      | disable => simpa [write_eq, apply, disableStore] using h
  exact key cs dflt (by decide)

example : (dflt.after [.enable, .setStream, .disable]).streamSet = true := C09_stream_set _ (by decide)

example : (dflt.after [.setStream, .disable]).writeToFile = true ∧
    (dflt.after [.setStream, .disable]).storeInVectors = false ∧
    dflt.storeInVectors = true := by decide

end Verif
