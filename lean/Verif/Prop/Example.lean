import Verif.Example

/-!
# Property C68: the command line of the example program
-/

set_option linter.unusedSectionVars false

namespace Verif

section parsing
variable {F : Type}

/-! ### specification of the command line, from the usage text (example_equations.cpp 56-84) -/

/-- one option with its values -/
inductive CliOpt where
  | equation (v : String)
  | method (v : String)
  | timeSpan (a b : String)
  | dt (a : String)
  | relTol (a : String)
  | absTol (a : String)
  | outInterval (a : String)
  | timeInternals (a : String)
  | outputFile (v : String)

/-- how it is written -/
def CliOpt.render : CliOpt → List String
  | .equation v => ["--equation", v]
  | .method v => ["--method", v]
  | .timeSpan a b => ["--time-span", a, b]
  | .dt a => ["--dt", a]
  | .relTol a => ["--rel-tol", a]
  | .absTol a => ["--abs-tol", a]
  | .outInterval a => ["--out-interval", a]
  | .timeInternals a => ["--time-internals", a]
  | .outputFile v => ["--output-file", v]

/-- what it sets; `none` if a value is not of the right kind -/
def CliOpt.effect (e : TextNum F) (u : UserOpts F) : CliOpt → Option (UserOpts F)
  | .equation v => some { u with eq := v }
  | .method v => some { u with method := v }
  | .timeSpan a b => do some { u with t0 := ← e.stof a, t1 := ← e.stof b }
  | .dt a => do some { u with dt := ← e.stof a }
  | .relTol a => do some { u with relTol := ← e.stof a }
  | .absTol a => do some { u with absTol := ← e.stof a }
  | .outInterval a => do some { u with outInterval := ← e.stoi a }
  | .timeInternals a => do
    match ← e.stoi a with
    | 0 => some { u with timeInternals := some false }
    | 1 => some { u with timeInternals := some true }
    | _ => none
  | .outputFile v => some { u with outputFname := v }

/-- a sequence of options, later ones override earlier ones -/
def interpret (e : TextNum F) : UserOpts F → List CliOpt → Option (UserOpts F)
  | u, [] => some u
  | u, o :: os => (o.effect e u).bind fun u' => interpret e u' os

/-! ### helper lemmas -/

theorem needOne_go {rest r : List String} {u u' : UserOpts F} {set : String → Option (UserOpts F)}
    (h : needOne rest u set = .go r u') : ∃ v, rest = v :: r ∧ set v = some u' := by
  unfold needOne at h
  split at h
  · cases h
  · rename_i v rest'
    split at h
    · cases h
    · rename_i u'' hu
      cases h
      exact ⟨v, rfl, hu⟩

theorem needOne_stop {rest : List String} {u : UserOpts F} {set : String → Option (UserOpts F)} {r : Outcome (ℤ × UserOpts F)}
    (h : needOne rest u set = .stop r) : r = .throws ∨ r = .ret (-1, u) := by
  unfold needOne at h
  split at h
  · cases h; exact Or.inr rfl
  · split at h
    · cases h; exact Or.inl rfl
    · cases h

/-- a complete option is consumed -/
theorem parseOne_render {e : TextNum F} {u u' : UserOpts F} {o : CliOpt} (h : o.effect e u = some u') (rest : List String) :
    ∃ arg vals, o.render = arg :: vals ∧ parseOne e arg (vals ++ rest) u = .go rest u' := by
  cases o with
  | equation v => exact ⟨_, _, rfl, by simp only [CliOpt.effect, Option.some.injEq] at h; subst h; simp [parseOne, needOne]⟩
  | method v => exact ⟨_, _, rfl, by simp only [CliOpt.effect, Option.some.injEq] at h; subst h; simp [parseOne, needOne]⟩
  | outputFile v => exact ⟨_, _, rfl, by simp only [CliOpt.effect, Option.some.injEq] at h; subst h; simp [parseOne, needOne]⟩
  | timeSpan a b =>
    refine ⟨_, _, rfl, ?_⟩
    cases h1 : e.stof a with
    | none => simp [CliOpt.effect, h1] at h
    | some x =>
      cases h2 : e.stof b with
      | none => simp [CliOpt.effect, h1, h2] at h
      | some y =>
        simp only [CliOpt.effect, h1, h2, Option.bind_eq_bind, Option.bind_some, Option.some.injEq] at h
        subst h
        simp [parseOne, h1, h2]
  | dt a =>
    refine ⟨_, _, rfl, ?_⟩
    cases h1 : e.stof a with
    | none => simp [CliOpt.effect, h1] at h
    | some x =>
      simp only [CliOpt.effect, h1, Option.bind_eq_bind, Option.bind_some, Option.some.injEq] at h
      subst h
      simp [parseOne, needOne, h1]
  | relTol a =>
    refine ⟨_, _, rfl, ?_⟩
    cases h1 : e.stof a with
    | none => simp [CliOpt.effect, h1] at h
    | some x =>
      simp only [CliOpt.effect, h1, Option.bind_eq_bind, Option.bind_some, Option.some.injEq] at h
      subst h
      simp [parseOne, needOne, h1]
  | absTol a =>
    refine ⟨_, _, rfl, ?_⟩
    cases h1 : e.stof a with
    | none => simp [CliOpt.effect, h1] at h
    | some x =>
      simp only [CliOpt.effect, h1, Option.bind_eq_bind, Option.bind_some, Option.some.injEq] at h
      subst h
      simp [parseOne, needOne, h1]
  | outInterval a =>
    refine ⟨_, _, rfl, ?_⟩
    cases h1 : e.stoi a with
    | none => simp [CliOpt.effect, h1] at h
    | some x =>
      simp only [CliOpt.effect, h1, Option.bind_eq_bind, Option.bind_some, Option.some.injEq] at h
      subst h
      simp [parseOne, h1]
  | timeInternals a =>
    refine ⟨_, _, rfl, ?_⟩
    cases h1 : e.stoi a with
    | none => simp [CliOpt.effect, h1] at h
    | some x =>
      simp only [CliOpt.effect, h1, Option.bind_eq_bind, Option.bind_some] at h
      split at h
      · cases h; simp [parseOne, h1]
      · cases h; simp [parseOne, h1]
      · cases h

/-- only complete options are consumed -/
theorem parseOne_go {e : TextNum F} {u u' : UserOpts F} {arg : String} {rest r : List String}
    (h : parseOne e arg rest u = .go r u') : ∃ o : CliOpt, arg :: rest = o.render ++ r ∧ o.effect e u = some u' := by
  unfold parseOne at h
  by_cases h0 : arg = "-h" ∨ arg = "--help"
  · rw [if_pos h0] at h; cases h
  rw [if_neg h0] at h
  by_cases h1 : arg = "--equation"
  · rw [if_pos h1] at h
    obtain ⟨v, rfl, hv⟩ := needOne_go h
    exact ⟨.equation v, by rw [h1]; rfl, hv⟩
  rw [if_neg h1] at h
  by_cases h2 : arg = "--method"
  · rw [if_pos h2] at h
    obtain ⟨v, rfl, hv⟩ := needOne_go h
    exact ⟨.method v, by rw [h2]; rfl, hv⟩
  rw [if_neg h2] at h
  by_cases h3 : arg = "--time-span"
  · rw [if_pos h3] at h
    split at h
    · rename_i a b rest'
      split at h
      · cases h
      · rename_i x hx
        split at h
        · cases h
        · rename_i y hy
          cases h
          exact ⟨.timeSpan a b, by rw [h3]; rfl, by simp [CliOpt.effect, hx, hy]⟩
    · cases h
  rw [if_neg h3] at h
  by_cases h4 : arg = "--dt"
  · rw [if_pos h4] at h
    obtain ⟨v, rfl, hv⟩ := needOne_go h
    obtain ⟨x, hx, rfl⟩ := Option.map_eq_some_iff.mp hv
    exact ⟨.dt v, by rw [h4]; rfl, by simp [CliOpt.effect, hx]⟩
  rw [if_neg h4] at h
  by_cases h5 : arg = "--rel-tol"
  · rw [if_pos h5] at h
    obtain ⟨v, rfl, hv⟩ := needOne_go h
    obtain ⟨x, hx, rfl⟩ := Option.map_eq_some_iff.mp hv
    exact ⟨.relTol v, by rw [h5]; rfl, by simp [CliOpt.effect, hx]⟩
  rw [if_neg h5] at h
  by_cases h6 : arg = "--abs-tol"
  · rw [if_pos h6] at h
    obtain ⟨v, rfl, hv⟩ := needOne_go h
    obtain ⟨x, hx, rfl⟩ := Option.map_eq_some_iff.mp hv
    exact ⟨.absTol v, by rw [h6]; rfl, by simp [CliOpt.effect, hx]⟩
  rw [if_neg h6] at h
  by_cases h7 : arg = "--out-interval"
  · rw [if_pos h7] at h
    split at h
    · cases h
    · rename_i v rest'
      split at h
      · cases h
      · rename_i k hk
        cases h
        exact ⟨.outInterval v, by rw [h7]; rfl, by simp [CliOpt.effect, hk]⟩
  rw [if_neg h7] at h
  by_cases h8 : arg = "--time-internals"
  · rw [if_pos h8] at h
    split at h
    · cases h
    · rename_i v rest'
      split at h
      · cases h
      · rename_i k hk
        by_cases hk' : k ≠ 0 ∧ k ≠ 1
        · rw [if_pos hk'] at h; cases h
        · rw [if_neg hk'] at h
          cases h
          refine ⟨.timeInternals v, by rw [h8]; rfl, ?_⟩
          have : k = 0 ∨ k = 1 := by omega
          rcases this with rfl | rfl <;> simp [CliOpt.effect, hk]
  rw [if_neg h8] at h
  by_cases h9 : arg = "--output-file"
  · rw [if_pos h9] at h
    obtain ⟨v, rfl, hv⟩ := needOne_go h
    exact ⟨.outputFile v, by rw [h9]; rfl, hv⟩
  rw [if_neg h9] at h
  cases h

/-- how a pass stops the loop -/
theorem parseOne_stop {e : TextNum F} {u : UserOpts F} {arg : String} {rest : List String} {r : Outcome (ℤ × UserOpts F)}
    (h : parseOne e arg rest u = .stop r) :
    r = .throws ∨ r = .ret (-1, u) ∨ r = .ret (-2, u) ∨ (r = .ret (1, u) ∧ (arg = "-h" ∨ arg = "--help")) ∨
      (r = .ub ∧ arg = "--out-interval" ∧ rest = []) := by
  have key : ∀ {set : String → Option (UserOpts F)}, needOne rest u set = .stop r →
      r = .throws ∨ r = .ret (-1, u) ∨ r = .ret (-2, u) ∨ (r = .ret (1, u) ∧ (arg = "-h" ∨ arg = "--help")) ∨
      (r = .ub ∧ arg = "--out-interval" ∧ rest = []) := fun h => by
    rcases needOne_stop h with h | h
    · exact Or.inl h
    · exact Or.inr (Or.inl h)
  unfold parseOne at h
  by_cases h0 : arg = "-h" ∨ arg = "--help"
  · rw [if_pos h0] at h; cases h; exact Or.inr (Or.inr (Or.inr (Or.inl ⟨rfl, h0⟩)))
  rw [if_neg h0] at h
  by_cases h1 : arg = "--equation"
  · rw [if_pos h1] at h; exact key h
  rw [if_neg h1] at h
  by_cases h2 : arg = "--method"
  · rw [if_pos h2] at h; exact key h
  rw [if_neg h2] at h
  by_cases h3 : arg = "--time-span"
  · rw [if_pos h3] at h
    split at h
    · split at h
      · cases h; exact Or.inl rfl
      · split at h
        · cases h; exact Or.inl rfl
        · cases h
    · cases h; exact Or.inr (Or.inl rfl)
  rw [if_neg h3] at h
  by_cases h4 : arg = "--dt"
  · rw [if_pos h4] at h; exact key h
  rw [if_neg h4] at h
  by_cases h5 : arg = "--rel-tol"
  · rw [if_pos h5] at h; exact key h
  rw [if_neg h5] at h
  by_cases h6 : arg = "--abs-tol"
  · rw [if_pos h6] at h; exact key h
  rw [if_neg h6] at h
  by_cases h7 : arg = "--out-interval"
  · rw [if_pos h7] at h
    split at h
    · cases h; exact Or.inr (Or.inr (Or.inr (Or.inr ⟨rfl, h7, rfl⟩)))
    · split at h
      · cases h; exact Or.inl rfl
      · cases h
  rw [if_neg h7] at h
  by_cases h8 : arg = "--time-internals"
  · rw [if_pos h8] at h
    split at h
    · cases h; exact Or.inr (Or.inl rfl)
    · split at h
      · cases h; exact Or.inl rfl
      · rename_i k hk
        by_cases hk' : k ≠ 0 ∧ k ≠ 1
        · rw [if_pos hk'] at h; cases h; exact Or.inr (Or.inr (Or.inl rfl))
        · rw [if_neg hk'] at h; cases h
  rw [if_neg h8] at h
  by_cases h9 : arg = "--output-file"
  · rw [if_pos h9] at h; exact key h
  rw [if_neg h9] at h
  cases h
  exact Or.inr (Or.inl rfl)

theorem parseOpts_cons_go {e : TextNum F} {arg : String} {rest r : List String} {u u' : UserOpts F}
    (h : parseOne e arg rest u = .go r u') : parseOpts e (arg :: rest) u = parseOpts e r u' := by
  rw [parseOpts]
  split
  · rename_i h'; rw [h] at h'; cases h'
  · rename_i h'; rw [h] at h'; cases h'; rfl

theorem parseOpts_cons_stop {e : TextNum F} {arg : String} {rest : List String} {u : UserOpts F}
    {r : Outcome (ℤ × UserOpts F)} (h : parseOne e arg rest u = .stop r) : parseOpts e (arg :: rest) u = r := by
  rw [parseOpts]
  split
  · rename_i h'; rw [h] at h'; cases h'; rfl
  · rename_i h'; rw [h] at h'; cases h'

/-- a prefix of complete options is processed -/
theorem parseOpts_prefix {e : TextNum F} : ∀ (os : List CliOpt) {u u' : UserOpts F}, interpret e u os = some u' →
    ∀ rest, parseOpts e (os.flatMap CliOpt.render ++ rest) u = parseOpts e rest u'
  | [], u, u', h, rest => by cases h; rfl
  | o :: os, u, u', h, rest => by
    obtain ⟨u1, h1, h2⟩ := Option.bind_eq_some_iff.mp h
    obtain ⟨arg, vals, hr, hp⟩ := parseOne_render h1 (os.flatMap CliOpt.render ++ rest)
    rw [List.flatMap_cons, List.append_assoc, hr, List.cons_append, parseOpts_cons_go hp]
    exact parseOpts_prefix os h2 rest

/-- where the loop ends: complete options, then the end of the arguments or an argument that stops it -/
theorem parseOpts_split {e : TextNum F} (N : ℕ) : ∀ (args : List String) (u : UserOpts F), args.length ≤ N →
    ∃ os u', interpret e u os = some u' ∧
      ((args = os.flatMap CliOpt.render ∧ parseOpts e args u = .ret (0, u')) ∨
        ∃ arg rest r, args = os.flatMap CliOpt.render ++ arg :: rest ∧ parseOne e arg rest u' = .stop r ∧
          parseOpts e args u = r) := by
  induction N with
  | zero =>
    intro args u h
    have : args = [] := List.length_eq_zero_iff.mp (Nat.le_zero.mp h)
    subst this
    exact ⟨[], u, rfl, Or.inl ⟨rfl, by rw [parseOpts]⟩⟩
  | succ N ih =>
    intro args u h
    cases args with
    | nil => exact ⟨[], u, rfl, Or.inl ⟨rfl, by rw [parseOpts]⟩⟩
    | cons arg rest =>
      cases hp : parseOne e arg rest u with
      | stop r => exact ⟨[], u, rfl, Or.inr ⟨arg, rest, r, rfl, hp, parseOpts_cons_stop hp⟩⟩
      | go r u1 =>
        have hl := parseOne_shorter hp
        simp only [List.length_cons] at h
        obtain ⟨o, ho, heff⟩ := parseOne_go hp
        obtain ⟨os, u', hi, hc⟩ := ih r u1 (by omega)
        refine ⟨o :: os, u', by simp [interpret, heff, hi], ?_⟩
        rw [parseOpts_cons_go hp]
        rcases hc with ⟨h1, h2⟩ | ⟨a, rs, rr, h1, h2, h3⟩
        · exact Or.inl ⟨by rw [ho, h1, List.flatMap_cons], h2⟩
        · exact Or.inr ⟨a, rs, rr, by rw [ho, h1, List.flatMap_cons, List.append_assoc], h2, h3⟩

/-! ### C68 -/

/-- the documented claim about memory: whatever the arguments, nothing outside `argv` is read -/
def C68_claim : Prop := ∀ (F : Type) (e : TextNum F) (args : List String) (u : UserOpts F), parseOpts e args u ≠ .ub

/-- **C68 (exact extent of the failure).**  `parse_opts` reads beyond `argv` exactly when a sequence of complete options is
followed by `--out-interval` as last argument. -/
theorem C68_ub (e : TextNum F) (args : List String) (u : UserOpts F) :
    parseOpts e args u = .ub ↔
      ∃ os u', interpret e u os = some u' ∧ args = os.flatMap CliOpt.render ++ ["--out-interval"] := by
  constructor
  · intro h
    obtain ⟨os, u', hi, ⟨-, h2⟩ | ⟨arg, rest, r, h1, h2, h3⟩⟩ := parseOpts_split args.length args u (le_refl _)
    · rw [h] at h2; cases h2
    · rw [h] at h3
      subst h3
      rcases parseOne_stop h2 with h | h | h | ⟨h, -⟩ | ⟨-, ha, hr⟩
      · cases h
      · cases h
      · cases h
      · cases h
      · exact ⟨os, u', hi, by rw [h1, ha, hr]⟩
  · rintro ⟨os, u', hi, rfl⟩
    rw [parseOpts_prefix os hi]
    exact parseOpts_cons_stop (by simp [parseOne])

theorem C68_refuted : ¬ C68_claim := fun h =>
  h Unit ⟨fun _ => none, fun _ => none, fun _ => none⟩ ["--out-interval"] ⟨"", "", (), (), (), (), (), none, 0, ""⟩
    ((C68_ub _ _ _).mpr ⟨[], _, rfl, rfl⟩)

/-- **C68 (what holds).**  `parse_opts` returns 0 exactly for the sequences of complete options with values of the right
kind, and then the settings are those of the options applied in order. -/
theorem C68_accepts_partial (e : TextNum F) (args : List String) (u u' : UserOpts F) :
    parseOpts e args u = .ret (0, u') ↔ ∃ os, interpret e u os = some u' ∧ args = os.flatMap CliOpt.render := by
  constructor
  · intro h
    obtain ⟨os, u1, hi, ⟨h1, h2⟩ | ⟨arg, rest, r, h1, h2, h3⟩⟩ := parseOpts_split args.length args u (le_refl _)
    · rw [h] at h2
      simp only [Outcome.ret.injEq, Prod.mk.injEq, true_and] at h2
      exact ⟨os, by rw [hi, h2], h1⟩
    · rw [h] at h3
      subst h3
      rcases parseOne_stop h2 with h | h | h | ⟨h, -⟩ | ⟨h, -⟩
      · cases h
      · simp at h
      · simp at h
      · simp at h
      · cases h
  · rintro ⟨os, hi, rfl⟩
    have := parseOpts_prefix os hi []
    rw [List.append_nil] at this
    rw [this, parseOpts]

/-- **C68 (help and errors).**  The only other statuses are 1, exactly when complete options are followed by `-h` or
`--help`, and -1, -2. -/
theorem C68_status (e : TextNum F) (args : List String) (u u' : UserOpts F) (st : ℤ) (h : parseOpts e args u = .ret (st, u')) :
    (st = 0 ∨ st = 1 ∨ st = -1 ∨ st = -2) ∧
      (st = 1 ↔ ∃ os u1 arg rest, interpret e u os = some u1 ∧ args = os.flatMap CliOpt.render ++ arg :: rest ∧
        (arg = "-h" ∨ arg = "--help")) := by
  constructor
  · obtain ⟨os, u1, hi, ⟨h1, h2⟩ | ⟨arg, rest, r, h1, h2, h3⟩⟩ := parseOpts_split args.length args u (le_refl _)
    · rw [h] at h2
      cases h2
      exact Or.inl rfl
    · rw [h] at h3
      subst h3
      rcases parseOne_stop h2 with h | h | h | ⟨h, -⟩ | ⟨h, -⟩ <;> cases h <;> simp
  · constructor
    · rintro rfl
      obtain ⟨os, u1, hi, ⟨h1, h2⟩ | ⟨arg, rest, r, h1, h2, h3⟩⟩ := parseOpts_split args.length args u (le_refl _)
      · rw [h] at h2
        simp at h2
      · rw [h] at h3
        subst h3
        rcases parseOne_stop h2 with h | h | h | ⟨-, ha⟩ | ⟨h, -⟩
        · cases h
        · simp at h
        · simp at h
        · exact ⟨os, u1, arg, rest, hi, h1, ha⟩
        · cases h
    · rintro ⟨os, u1, arg, rest, hi, rfl, ha⟩
      rw [parseOpts_prefix os hi, parseOpts_cons_stop (r := .ret (1, u1)) (by unfold parseOne; rw [if_pos ha])] at h
      cases h
      rfl

/-- the last value that an option sequence gives, `d` if there is none -/
def lastOf {α : Type} (sel : CliOpt → Option α) (d : α) (os : List CliOpt) : α := ((os.filterMap sel).getLast?).getD d

theorem interpret_last {α : Type} {e : TextNum F} (π : UserOpts F → α) (sel : CliOpt → Option α)
    (hsel : ∀ o u u', CliOpt.effect e u o = some u' → π u' = (sel o).getD (π u)) :
    ∀ (os : List CliOpt) {u u' : UserOpts F}, interpret e u os = some u' → π u' = lastOf sel (π u) os
  | [], u, u', h => by cases h; rfl
  | o :: os, u, u', h => by
    obtain ⟨u1, h1, h2⟩ := Option.bind_eq_some_iff.mp h
    rw [interpret_last π sel hsel os h2, hsel o u u1 h1]
    unfold lastOf
    cases hs : sel o with
    | none => rw [List.filterMap_cons_none hs]; rfl
    | some a =>
      rw [List.filterMap_cons_some hs, List.getLast?_cons]
      rfl

theorem effect_cases {e : TextNum F} {o : CliOpt} {u u' : UserOpts F} (h : o.effect e u = some u') :
    (∃ v, o = .equation v ∧ u' = { u with eq := v }) ∨ (∃ v, o = .method v ∧ u' = { u with method := v }) ∨
    (∃ a b x y, o = .timeSpan a b ∧ e.stof a = some x ∧ e.stof b = some y ∧ u' = { u with t0 := x, t1 := y }) ∨
    (∃ a x, o = .dt a ∧ e.stof a = some x ∧ u' = { u with dt := x }) ∨
    (∃ a x, o = .relTol a ∧ e.stof a = some x ∧ u' = { u with relTol := x }) ∨
    (∃ a x, o = .absTol a ∧ e.stof a = some x ∧ u' = { u with absTol := x }) ∨
    (∃ a x, o = .outInterval a ∧ e.stoi a = some x ∧ u' = { u with outInterval := x }) ∨
    (∃ a, ∃ x : Bool, o = .timeInternals a ∧ e.stoi a = some (if x then 1 else 0) ∧ u' = { u with timeInternals := some x }) ∨
    ∃ v, o = .outputFile v ∧ u' = { u with outputFname := v } := by
  cases o with
  | equation v => simp only [CliOpt.effect, Option.some.injEq] at h; exact Or.inl ⟨v, rfl, h.symm⟩
  | method v => simp only [CliOpt.effect, Option.some.injEq] at h; exact Or.inr (Or.inl ⟨v, rfl, h.symm⟩)
  | timeSpan a b =>
    simp only [CliOpt.effect, Option.bind_eq_bind, Option.bind_eq_some_iff, Option.some.injEq] at h
    obtain ⟨x, hx, y, hy, h⟩ := h
    exact Or.inr (Or.inr (Or.inl ⟨a, b, x, y, rfl, hx, hy, h.symm⟩))
  | dt a =>
    simp only [CliOpt.effect, Option.bind_eq_bind, Option.bind_eq_some_iff, Option.some.injEq] at h
    obtain ⟨x, hx, h⟩ := h
    exact Or.inr (Or.inr (Or.inr (Or.inl ⟨a, x, rfl, hx, h.symm⟩)))
  | relTol a =>
    simp only [CliOpt.effect, Option.bind_eq_bind, Option.bind_eq_some_iff, Option.some.injEq] at h
    obtain ⟨x, hx, h⟩ := h
    exact Or.inr (Or.inr (Or.inr (Or.inr (Or.inl ⟨a, x, rfl, hx, h.symm⟩))))
  | absTol a =>
    simp only [CliOpt.effect, Option.bind_eq_bind, Option.bind_eq_some_iff, Option.some.injEq] at h
    obtain ⟨x, hx, h⟩ := h
    exact Or.inr (Or.inr (Or.inr (Or.inr (Or.inr (Or.inl ⟨a, x, rfl, hx, h.symm⟩)))))
  | outInterval a =>
    simp only [CliOpt.effect, Option.bind_eq_bind, Option.bind_eq_some_iff, Option.some.injEq] at h
    obtain ⟨x, hx, h⟩ := h
    exact Or.inr (Or.inr (Or.inr (Or.inr (Or.inr (Or.inr (Or.inl ⟨a, x, rfl, hx, h.symm⟩))))))
  | timeInternals a =>
    simp only [CliOpt.effect, Option.bind_eq_bind, Option.bind_eq_some_iff] at h
    obtain ⟨x, hx, h⟩ := h
    refine Or.inr (Or.inr (Or.inr (Or.inr (Or.inr (Or.inr (Or.inr (Or.inl ?_)))))))
    split at h
    · exact ⟨a, false, rfl, hx, (Option.some.inj h).symm⟩
    · exact ⟨a, true, rfl, hx, (Option.some.inj h).symm⟩
    · cases h
  | outputFile v =>
    simp only [CliOpt.effect, Option.some.injEq] at h
    exact Or.inr (Or.inr (Or.inr (Or.inr (Or.inr (Or.inr (Or.inr (Or.inr ⟨v, rfl, h.symm⟩)))))))

/-- **C68 (settings).**  The settings of an accepted command line: for each the value of the last option that gives one, and
otherwise exponential, LOBATTO_IIIC_85, [0, 10], 1e-2, 1e-5, 1e-4, interval 0, no output file. -/
theorem C68_settings [Lit F] {e : TextNum F} {os : List CliOpt} {u : UserOpts F} (h : interpret e UserOpts.dflt os = some u) :
    u.eq = lastOf (fun | .equation v => some v | _ => none) "exponential" os ∧
    u.method = lastOf (fun | .method v => some v | _ => none) "LOBATTO_IIIC_85" os ∧
    u.t0 = lastOf (fun | .timeSpan a _ => e.stof a | _ => none) (lit 0) os ∧
    u.t1 = lastOf (fun | .timeSpan _ b => e.stof b | _ => none) (lit 10) os ∧
    u.dt = lastOf (fun | .dt a => e.stof a | _ => none) (lit (1 / 100)) os ∧
    u.relTol = lastOf (fun | .relTol a => e.stof a | _ => none) (lit (1 / 100000)) os ∧
    u.absTol = lastOf (fun | .absTol a => e.stof a | _ => none) (lit (1 / 10000)) os ∧
    u.outInterval = lastOf (fun | .outInterval a => e.stoi a | _ => none) 0 os ∧
    u.timeInternals = lastOf (fun | .timeInternals a => (e.stoi a).map fun x => some (x == 1) | _ => none) none os ∧
    u.outputFname = lastOf (fun | .outputFile v => some v | _ => none) "" os := by
  have e2 : (1 / 100 : ℚ) = 1 / 10 ^ 2 := by norm_num
  have e5 : (1 / 100000 : ℚ) = 1 / 10 ^ 5 := by norm_num
  have e4 : (1 / 10000 : ℚ) = 1 / 10 ^ 4 := by norm_num
  rw [e2, e5, e4]
  refine ⟨interpret_last (·.eq) _ ?_ os h, interpret_last (·.method) _ ?_ os h, interpret_last (·.t0) _ ?_ os h,
    interpret_last (·.t1) _ ?_ os h, interpret_last (·.dt) _ ?_ os h, interpret_last (·.relTol) _ ?_ os h,
    interpret_last (·.absTol) _ ?_ os h, interpret_last (·.outInterval) _ ?_ os h, interpret_last (·.timeInternals) _ ?_ os h,
    interpret_last (·.outputFname) _ ?_ os h⟩
  all_goals
    intro o u u' ho
    rcases effect_cases ho with ⟨v, rfl, rfl⟩ | ⟨v, rfl, rfl⟩ | ⟨a, b, x, y, rfl, ha, hb, rfl⟩ | ⟨a, x, rfl, ha, rfl⟩ |
      ⟨a, x, rfl, ha, rfl⟩ | ⟨a, x, rfl, ha, rfl⟩ | ⟨a, x, rfl, ha, rfl⟩ | ⟨a, x, rfl, ha, rfl⟩ | ⟨v, rfl, rfl⟩ <;> simp [*]
  all_goals cases x <;> rfl

/-! ### examples -/

/-- a reader of numbers that knows three words -/
def demoText : TextNum ℚ :=
  { stof := fun s => if s = "0" then some 0 else if s = "1" then some 1 else none
    stoi := fun s => if s = "0" then some 0 else if s = "1" then some 1 else if s = "2" then some 2 else none
    word := fun s => if s = "-1" then some (-1) else none }

/-- `C68_ub`: a complete option, then the truncated one -/
example : parseOpts demoText ["--dt", "1", "--out-interval"] UserOpts.dflt = .ub :=
  (C68_ub _ _ _).mpr ⟨[.dt "1"], { UserOpts.dflt with dt := 1 }, rfl, rfl⟩

/-- `C68_accepts_partial`: later options override earlier ones -/
example : parseOpts demoText ["--dt", "1", "--method", "RADAU_IIA_53", "--dt", "0", "--time-internals", "1"] UserOpts.dflt =
    .ret (0, { UserOpts.dflt with dt := 0, method := "RADAU_IIA_53", timeInternals := some true }) :=
  (C68_accepts_partial _ _ _ _).mpr ⟨[.dt "1", .method "RADAU_IIA_53", .dt "0", .timeInternals "1"], rfl, rfl⟩

/-- `C68_status`: the help text is requested after an option -/
example : ∃ u, parseOpts demoText ["--dt", "1", "--help", "nonsense"] UserOpts.dflt = .ret (1, u) :=
  ⟨{ UserOpts.dflt with dt := 1 }, (parseOpts_prefix [.dt "1"] rfl ["--help", "nonsense"]).trans
    (parseOpts_cons_stop (by simp [parseOne]))⟩

/-- `C68_settings`: an option is given twice -/
example (u : UserOpts ℚ) (h : interpret demoText UserOpts.dflt [.dt "1", .relTol "1", .dt "0"] = some u) :
    u.dt = 0 ∧ u.relTol = 1 ∧ u.absTol = lit (1 / 10000) := by
  have := C68_settings h
  exact ⟨this.2.2.2.2.1.trans rfl, this.2.2.2.2.2.1.trans rfl, this.2.2.2.2.2.2.1.trans rfl⟩

example : ∃ u, interpret demoText UserOpts.dflt [.dt "1", .relTol "1", .dt "0"] = some u := ⟨_, rfl⟩

end parsing
end Verif
