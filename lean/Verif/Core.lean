import Mathlib.Analysis.SpecialFunctions.Pow.Real

/-!
# Scalars, outcomes and loops

Foundations of the model: the operations a C++ `double` offers to the library (without any law),
the possible outcomes of running a C++ function, and `while` loops as iterated step functions.
-/

namespace Verif

/-- Numeric literals.  A C++ literal such as `0.9` is modelled as `lit (9/10)`; what it denotes is
decided by the instance (exactly that rational for `ℝ` and `ℚ`, the nearest double for `FP`). -/
class Lit (F : Type) where
  /-- value of a decimal / integer literal -/
  lit : ℚ → F

/-- What the library uses of `double` besides `+ - * /` and negation.  Comparisons are `Bool` valued
functions without any law, so NaN is covered by theorems over an arbitrary `Scalar`. -/
class Scalar (F : Type) extends Lit F where
  /-- `a < b` -/
  ltb : F → F → Bool
  /-- `a <= b` -/
  leb : F → F → Bool
  /-- `a == b` -/
  eqb : F → F → Bool
  /-- `std::fabs` -/
  sabs : F → F
  /-- `std::sqrt` -/
  ssqrt : F → F
  /-- `std::pow` -/
  spow : F → F → F
  /-- finite (neither NaN nor infinite), `arma::is_finite` on one element -/
  isFin : F → Bool

export Lit (lit)
export Scalar (ltb leb eqb sabs ssqrt spow isFin)

instance : Lit ℚ := ⟨id⟩

open Classical in
/-- Exact arithmetic. -/
noncomputable instance : Scalar ℝ where
  lit q := (q : ℝ)
  ltb a b := decide (a < b)
  leb a b := decide (a ≤ b)
  eqb a b := decide (a = b)
  sabs a := |a|
  ssqrt a := Real.sqrt a
  spow a b := a ^ b
  isFin _ := true

@[simp] theorem lit_real (q : ℚ) : (lit q : ℝ) = (q : ℝ) := rfl
@[simp] theorem lit_rat (q : ℚ) : (lit q : ℚ) = q := rfl
@[simp] theorem ltb_real (a b : ℝ) : (ltb a b = true) ↔ a < b := by simp [ltb]
@[simp] theorem leb_real (a b : ℝ) : (leb a b = true) ↔ a ≤ b := by simp [leb]
@[simp] theorem eqb_real (a b : ℝ) : (eqb a b = true) ↔ a = b := by simp [eqb]
@[simp] theorem ltb_real_false (a b : ℝ) : (ltb a b = false) ↔ b ≤ a := by simp [ltb]
@[simp] theorem leb_real_false (a b : ℝ) : (leb a b = false) ↔ b < a := by simp [leb]
@[simp] theorem sabs_real (a : ℝ) : sabs a = |a| := rfl
@[simp] theorem ssqrt_real (a : ℝ) : ssqrt a = Real.sqrt a := rfl
@[simp] theorem spow_real (a b : ℝ) : spow a b = a ^ b := rfl
@[simp] theorem isFin_real (a : ℝ) : isFin a = true := rfl

section
variable {F : Type} [Scalar F]

/-- `std::max(a,b)`, i.e. `(a < b) ? b : a` -/
def cmax (a b : F) : F := if ltb a b then b else a

/-- `std::min(a,b)`, i.e. `(b < a) ? b : a` -/
def cmin (a b : F) : F := if ltb b a then b else a

end

@[simp] theorem cmax_real (a b : ℝ) : cmax a b = max a b := by
  unfold cmax
  by_cases h : a < b
  · simp [h, h.le]
  · simp [h, not_lt.mp h]

@[simp] theorem cmin_real (a b : ℝ) : cmin a b = min a b := by
  unfold cmin
  by_cases h : b < a
  · simp [h, h.le]
  · simp [h, not_lt.mp h]

/-- A column vector (`arma::vec`) of length `n`.  Sizes of user vectors are fixed by the type. -/
abbrev Vec (F : Type) (n : ℕ) := Fin n → F

/-- `for (j = 0; j < m; ++j) acc += g(j)` starting from `0.0`.  Armadillo/BLAS may sum in another
order; over `ℝ` this makes no difference. -/
def sumRange {F : Type} [Add F] [Lit F] (m : ℕ) (g : ℕ → F) : F :=
  (List.range m).foldl (fun acc j => acc + g j) (lit 0)

theorem sumRange_real (m : ℕ) (g : ℕ → ℝ) : sumRange m g = ∑ j ∈ Finset.range m, g j := by
  unfold sumRange
  induction m with
  | zero => simp
  | succ m ih =>
    rw [List.range_succ, List.foldl_append, ih, Finset.sum_range_succ]; rfl

/-- How running a piece of C++ can end (non-termination is not an outcome, see `runLoop`). -/
inductive Outcome (α : Type) where
  /-- normal return -/
  | ret (a : α)
  /-- an enabled `assert` failed: the process aborts -/
  | assertFail
  /-- a C++ exception leaves the function -/
  | throws
  /-- undefined behaviour -/
  | ub
  deriving DecidableEq, Repr

/-- Sequencing: anything but a normal return ends the computation. -/
def Outcome.bind {α β : Type} (x : Outcome α) (g : α → Outcome β) : Outcome β :=
  match x with
  | .ret a => g a
  | .assertFail => .assertFail
  | .throws => .throws
  | .ub => .ub

instance : Monad Outcome where
  pure := .ret
  bind := Outcome.bind

@[simp] theorem Outcome.pure_eq {α : Type} (a : α) : (pure a : Outcome α) = .ret a := rfl
@[simp] theorem Outcome.ret_bind {α β : Type} (a : α) (g : α → Outcome β) :
    ((Outcome.ret a : Outcome α) >>= g) = g a := rfl
@[simp] theorem Outcome.ub_bind {α β : Type} (g : α → Outcome β) :
    ((Outcome.ub : Outcome α) >>= g) = .ub := rfl
@[simp] theorem Outcome.throws_bind {α β : Type} (g : α → Outcome β) :
    ((Outcome.throws : Outcome α) >>= g) = .throws := rfl
@[simp] theorem Outcome.assertFail_bind {α β : Type} (g : α → Outcome β) :
    ((Outcome.assertFail : Outcome α) >>= g) = .assertFail := rfl

/-- One iteration of a `while` loop: go on with a new state, or leave the function. -/
inductive LoopStep (S R : Type) where
  | next (s : S)
  | done (r : Outcome R)

variable {S R : Type}

/-- At most `fuel` iterations of a loop; `none` means the loop is still running. -/
def runLoop (body : S → LoopStep S R) : ℕ → S → Option (Outcome R)
  | 0, _ => none
  | k + 1, s =>
    match body s with
    | .next s' => runLoop body k s'
    | .done r => some r

/-- `s'` is a state at the loop head in the execution from `s`. -/
inductive Reach (body : S → LoopStep S R) (s : S) : S → Prop
  | refl : Reach body s s
  | tail {a b : S} : Reach body s a → body a = .next b → Reach body s b

/-- The loop never ends. -/
def Diverges (body : S → LoopStep S R) (s : S) : Prop := ∀ k, runLoop body k s = none

theorem Reach.inv {body : S → LoopStep S R} {Inv : S → Prop} {s s' : S} (h : Reach body s s')
    (h0 : Inv s) (hstep : ∀ a b, Inv a → body a = .next b → Inv b) : Inv s' := by
  induction h with
  | refl => exact h0
  | tail _ hb ih => exact hstep _ _ ih hb

theorem Reach.head {body : S → LoopStep S R} {s b c : S} (h : body s = .next b)
    (hr : Reach body b c) : Reach body s c := by
  induction hr with
  | refl => exact .tail .refl h
  | tail _ hb ih => exact .tail ih hb

/-- A finished loop left from some reachable state. -/
theorem runLoop_some {body : S → LoopStep S R} : ∀ {k : ℕ} {s : S} {r : Outcome R},
    runLoop body k s = some r → ∃ s', Reach body s s' ∧ body s' = .done r
  | 0, _, _, h => by simp [runLoop] at h
  | k + 1, s, r, h => by
    unfold runLoop at h
    cases hb : body s with
    | next s' =>
      rw [hb] at h
      obtain ⟨s'', h1, h2⟩ := runLoop_some h
      exact ⟨s'', Reach.head hb h1, h2⟩
    | done r' =>
      rw [hb] at h
      simp only [Option.some.injEq] at h
      exact ⟨s, .refl, by rw [hb, h]⟩

theorem runLoop_inv {body : S → LoopStep S R} {Inv : S → Prop} {P : Outcome R → Prop}
    (hstep : ∀ a b, Inv a → body a = .next b → Inv b)
    (hdone : ∀ a r, Inv a → body a = .done r → P r)
    {k : ℕ} {s : S} {r : Outcome R} (h0 : Inv s) (h : runLoop body k s = some r) : P r := by
  obtain ⟨s', h1, h2⟩ := runLoop_some h
  exact hdone _ _ (h1.inv h0 hstep) h2

theorem runLoop_mono {body : S → LoopStep S R} : ∀ {k : ℕ} {s : S} {r : Outcome R} (m : ℕ),
    runLoop body k s = some r → runLoop body (k + m) s = some r
  | 0, _, _, _, h => by simp [runLoop] at h
  | k + 1, s, r, m, h => by
    have : k + 1 + m = (k + m) + 1 := by omega
    rw [this]
    unfold runLoop at h ⊢
    cases hb : body s with
    | next s' => rw [hb] at h; simp only at h ⊢; exact runLoop_mono m h
    | done r' => rw [hb] at h; simpa using h

/-- The result does not depend on the fuel. -/
theorem runLoop_det {body : S → LoopStep S R} {k k' : ℕ} {s : S} {r r' : Outcome R}
    (h : runLoop body k s = some r) (h' : runLoop body k' s = some r') : r = r' := by
  have h1 := runLoop_mono k' h
  have h2 := runLoop_mono k h'
  rw [Nat.add_comm] at h2
  rw [h1] at h2
  simpa using h2

/-- An invariant under which the loop always goes on means divergence. -/
theorem diverges_of_inv {body : S → LoopStep S R} {Inv : S → Prop}
    (hstep : ∀ a, Inv a → ∃ b, body a = .next b ∧ Inv b) {s : S} (h0 : Inv s) :
    Diverges body s := by
  intro k
  induction k generalizing s with
  | zero => rfl
  | succ k ih =>
    obtain ⟨b, hb, hi⟩ := hstep s h0
    unfold runLoop
    rw [hb]
    exact ih hi

/-- Termination by a measure that decreases under an invariant. -/
theorem runLoop_terminates {body : S → LoopStep S R} {Inv : S → Prop} (μ : S → ℕ)
    (hstep : ∀ a b, Inv a → body a = .next b → Inv b ∧ μ b < μ a) :
    ∀ {s : S}, Inv s → ∃ k r, runLoop body k s = some r := by
  intro s
  induction hm : μ s using Nat.strong_induction_on generalizing s with
  | _ m ih =>
    intro h0
    cases hb : body s with
    | done r => exact ⟨1, r, by simp [runLoop, hb]⟩
    | next b =>
      obtain ⟨hi, hlt⟩ := hstep s b h0 hb
      obtain ⟨k, r, hk⟩ := ih (μ b) (hm ▸ hlt) rfl hi
      exact ⟨k + 1, r, by simp [runLoop, hb, hk]⟩

/-- Termination with an explicit bound on the number of iterations. -/
theorem runLoop_terminates_bound {body : S → LoopStep S R} {Inv : S → Prop} (μ : S → ℕ)
    (hstep : ∀ a b, Inv a → body a = .next b → Inv b ∧ μ b < μ a) :
    ∀ {k : ℕ} {s : S}, Inv s → μ s < k → ∃ r, runLoop body k s = some r := by
  intro k
  induction k with
  | zero => intro s _ h; omega
  | succ k ih =>
    intro s h0 hk
    cases hb : body s with
    | done r => exact ⟨r, by simp [runLoop, hb]⟩
    | next b =>
      obtain ⟨hi, hlt⟩ := hstep s b h0 hb
      obtain ⟨r, hr⟩ := ih hi (by omega)
      exact ⟨r, by simp [runLoop, hb, hr]⟩

/-- Two loop passes are related: both go on in related states, or both end with related outcomes. -/
inductive StepRel {S' R' : Type} (Sim : S → S' → Prop) (P : Outcome R → Outcome R' → Prop) :
    LoopStep S R → LoopStep S' R' → Prop
  | next {a : S} {b : S'} (h : Sim a b) : StepRel Sim P (.next a) (.next b)
  | done {r : Outcome R} {r' : Outcome R'} (h : P r r') : StepRel Sim P (.done r) (.done r')

/-- Simulation between two loops, with the same number of iterations. -/
theorem runLoop_sim {S' R' : Type} {body : S → LoopStep S R} {body' : S' → LoopStep S' R'}
    {Sim : S → S' → Prop} {P : Outcome R → Outcome R' → Prop}
    (h : ∀ s s', Sim s s' → StepRel Sim P (body s) (body' s')) :
    ∀ (k : ℕ) {s : S} {s' : S'}, Sim s s' →
      (runLoop body k s = none ∧ runLoop body' k s' = none) ∨
      ∃ r r', runLoop body k s = some r ∧ runLoop body' k s' = some r' ∧ P r r' := by
  intro k
  induction k with
  | zero => intro s s' _; exact Or.inl ⟨rfl, rfl⟩
  | succ k ih =>
    intro s s' hs
    unfold runLoop
    generalize body s = x, body' s' = y, h s s' hs = z at *
    cases z with
    | next h' => exact ih h'
    | done h' => exact Or.inr ⟨_, _, rfl, rfl, h'⟩

/-- A loop still running after `k` passes has reached a state whose pass counter grew by `k`. -/
theorem runLoop_none_reach {body : S → LoopStep S R} (μ : S → ℕ)
    (hstep : ∀ a b, body a = .next b → μ b = μ a + 1) :
    ∀ {k : ℕ} {s : S}, runLoop body k s = none → ∃ s', Reach body s s' ∧ μ s' = μ s + k := by
  intro k
  induction k with
  | zero => intro s _; exact ⟨s, .refl, rfl⟩
  | succ k ih =>
    intro s h
    cases hb : body s with
    | done r => simp [runLoop, hb] at h
    | next b =>
      simp only [runLoop, hb] at h
      obtain ⟨s', h1, h2⟩ := ih h
      exact ⟨s', Reach.head hb h1, by rw [h2, hstep s b hb]; omega⟩

end Verif
