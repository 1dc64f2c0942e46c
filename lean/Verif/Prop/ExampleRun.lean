import Verif.Prop.Example
import Verif.Prop.Methods
import Verif.Prop.NoUB
import Verif.Prop.IrkStiff

/-!
# Properties C69, C70: undefined behaviour and exit status of the example program
-/

set_option linter.unusedSectionVars false

namespace Verif
open TestEq

section generic
variable {F : Type} [Add F] [Sub F] [Mul F] [Div F] [Neg F] [Scalar F]
variable {n : ℕ} {nd : Bool} {la : LinAlg F} {fn : OdeFun F n} {y0 : Vec F n} {u : UserOpts F} {e : TextNum F} {fuel : ℕ}

/-! ### specification -/

/-- the names of the methods (enums.hpp 38-69) -/
def methodNames : List String :=
  ["EXPLICIT_EULER", "RUNGE_KUTTA_4", "BOGACKI_SHAMPINE_32", "CASH_KARP_54", "DORMAND_PRINCE_54", "FEHLBERG_54",
   "IMPLICIT_EULER", "RADAU_IIA_32", "RADAU_IIA_53", "RADAU_IIA_95", "RADAU_IIA_137", "LOBATTO_IIIA_43", "LOBATTO_IIIA_85",
   "LOBATTO_IIIA_127", "LOBATTO_IIIC_43", "LOBATTO_IIIC_64", "LOBATTO_IIIC_85", "LOBATTO_IIIC_127", "GAUSS_LEGENDRE_42",
   "GAUSS_LEGENDRE_63", "GAUSS_LEGENDRE_105", "GAUSS_LEGENDRE_147"]

/-- the three masses of the three-body problem get values from the standard input: three words, the first two numbers -/
def MassesGiven (e : TextNum F) (stdin : List String) : Prop :=
  ∃ a b c rest, stdin = a :: b :: c :: rest ∧ (e.word a).isSome ∧ (e.word b).isSome

/-- the user confirms that the Robertson problem shall be solved -/
def Confirmed (stdin : List String) : Prop :=
  ∃ w rest, stdin = w :: rest ∧ w ∈ ["Y", "y", "yes", "Yes"]

/-- the program gets as far as choosing the method -/
def Integrates (e : TextNum F) (stdin : List String) (eq : String) : Prop :=
  eq ∈ ["exponential", "stiff-equation", "van-der-pol", "brusselator", "lorenz"] ∨ (eq = "robertson" ∧ Confirmed stdin) ∨
    (eq ∈ ["three-body", "three-body-resume"] ∧ MassesGiven e stdin)

/-! ### helper lemmas -/

theorem irk_code_ne (s : String) : ((Tables.init irkMethods).nameToMethod s).1 ≠ 0 → 
    (s, ((Tables.init irkMethods).nameToMethod s).1) ∈ irkMethods := fun h =>
  (C06_resolves_or_zero (Or.inr rfl) [] s).resolve_right h

theorem erk_code_ne (s : String) : ((Tables.init erkMethods).nameToMethod s).1 ≠ 0 → 
    (s, ((Tables.init erkMethods).nameToMethod s).1) ∈ erkMethods := fun h =>
  (C06_resolves_or_zero (Or.inl rfl) [] s).resolve_right h

theorem irk_code {s : String} {m : ℤ} (h : (s, m) ∈ irkMethods) : ((Tables.init irkMethods).nameToMethod s).1 = m := by
  have h1 := ((shipped_good (Or.inr rfl)).after []).met s m h
  simp only [Tables.after, List.foldl_nil] at h1
  simp [Tables.nameToMethod, mapIndex, h1]

theorem irk_nz : ∀ p ∈ irkMethods, p.2 ≠ 0 := by decide
theorem erk_nz : ∀ p ∈ erkMethods, p.2 ≠ 0 := by decide

theorem known_iff (s : String) : s ∈ methodNames ↔
    (((Tables.init irkMethods).nameToMethod s).1 ≠ 0 ∨ ((Tables.init erkMethods).nameToMethod s).1 ≠ 0) := by
  constructor
  · have : ∀ s ∈ methodNames, (((Tables.init irkMethods).nameToMethod s).1 ≠ 0 ∨
        ((Tables.init erkMethods).nameToMethod s).1 ≠ 0) := by decide
    exact this s
  · have hi : ∀ p ∈ irkMethods, p.1 ∈ methodNames := by decide
    have he : ∀ p ∈ erkMethods, p.1 ∈ methodNames := by decide
    rintro (h | h)
    · exact hi _ (irk_code_ne s h)
    · exact he _ (erk_code_ne s h)

theorem irkOdeint_frac {o : IrkOpts F} {oo : OutOpts} {t0 t1 dt : F} {m : ℤ}
    {out} (h : irkOdeint nd la fn t0 t1 y0 o oo m dt fuel = some (.ret out)) (hs : out.status = 0) : out.acceptFrac ≠ none := by
  unfold irkOdeint at h
  simp only at h
  by_cases h1 : (!nd && !irkVerify (irkCoeffs m : SolverCoeffs F)) = true
  · rw [if_pos h1] at h; cases h
  rw [if_neg h1] at h
  obtain ⟨acc, -, -, -, -, -, -, -, -, -, h2⟩ := C39_counters h hs
  rw [h2]; exact fun h => nomatch h

theorem erkOdeint_frac {f : F → Vec F n → Vec F n} {o : ErkOpts F} {oo : OutOpts} {t0 t1 dt : F} {m : ℤ}
    {out} (h : erkOdeint nd f t0 t1 y0 o oo m dt fuel = some (.ret out)) (hs : out.status = 0) : out.acceptFrac ≠ none := by
  unfold erkOdeint at h
  simp only at h
  by_cases h1 : (!nd && !erkVerify (erkCoeffs m : SolverCoeffs F)) = true
  · rw [if_pos h1] at h; cases h
  rw [if_neg h1] at h
  obtain ⟨-, -, ⟨-, -, h2⟩ | ⟨h2, -⟩⟩ := C14_counters h
  · rw [h2]; exact fun h => nomatch h
  · rw [h2] at hs; exact absurd hs (by decide)

theorem exampleOut_stream (u : UserOpts F) : (exampleOut u).writeToFile = true → (exampleOut u).streamSet = true := by
  unfold exampleOut
  split
  · exact fun h => absurd h (by decide)
  · exact fun _ => rfl

theorem exampleOut_interval (u : UserOpts F) : (exampleOut u).interval.toNat ≠ 0 := by
  unfold exampleOut
  split <;> decide

/-- where the integration is undefined -/
theorem intEquation_ub (h0 : eqb (lit 0 : F) (lit 0) = true) :
    intEquation false la fn u y0 fuel = some .ub ↔ (u.method ∈ methodNames ∧ (u.timeInternals = none ∨
      (u.method ∈ ["LOBATTO_IIIA_127", "GAUSS_LEGENDRE_147"] ∧ StartsForward u.t0 u.t1 u.dt))) := by
  have hi : ∀ p ∈ irkMethods, (p.2 = 222 ∨ p.2 = 243) ↔ p.1 ∈ ["LOBATTO_IIIA_127", "GAUSS_LEGENDRE_147"] := by decide
  have he : ∀ p ∈ erkMethods, p.1 ∉ ["LOBATTO_IIIA_127", "GAUSS_LEGENDRE_147"] := by decide
  unfold intEquation
  simp only
  by_cases h1 : ((Tables.init irkMethods).nameToMethod u.method).1 ≠ 0
  · rw [if_pos h1]
    have hk := (known_iff u.method).mpr (Or.inl h1)
    have hm := hi _ (irk_code_ne _ h1)
    cases h2 : u.timeInternals with
    | none => simp [hk]
    | some b =>
      have hx := C71_irk_exact (nd := false) (la := la) (fn := fn) (t0 := u.t0) (t1 := u.t1) (y0 := y0) (dt := u.dt) (fuel := fuel)
        (m := ((Tables.init irkMethods).nameToMethod u.method).1) (o := setIrkOptions u)
        (no := { NewtonOpts.dflt with tol := lit (1 / 10) * cmin u.relTol u.absTol }) rfl
        (fun h => nomatch h) (exampleOut_interval u) (exampleOut_stream u) (Or.inl rfl)
      rw [hm] at hx
      simp only [reduceCtorEq, false_or, Bool.false_eq_true] at hx ⊢
      rw [← hx]
      refine ⟨fun h => ⟨hk, ?_⟩, fun h => by rw [h.2]; rfl⟩
      obtain ⟨r, hr, hx⟩ := Option.map_eq_some_iff.mp h
      cases r with
      | ret out =>
        simp only [exitOf] at hx
        by_cases hs : out.status = 0
        · cases hf : out.acceptFrac with
          | none => exact absurd hf (irkOdeint_frac hr hs)
          | some x => simp [hs, hf] at hx
        · simp [hs] at hx
      | assertFail => cases hx
      | throws => cases hx
      | ub => exact hr
  · rw [if_neg h1]
    by_cases h3 : ((Tables.init erkMethods).nameToMethod u.method).1 ≠ 0
    · rw [if_pos h3]
      have hk := (known_iff u.method).mpr (Or.inr h3)
      cases h2 : u.timeInternals with
      | none => simp [hk]
      | some b =>
        simp only [reduceCtorEq, he _ (erk_code_ne _ h3), false_and, or_false, and_false, iff_false]
        intro h
        obtain ⟨r, hr, hx⟩ := Option.map_eq_some_iff.mp h
        cases r with
        | ret out =>
          simp only [exitOf] at hx
          by_cases hs : out.status = 0
          · cases hf : out.acceptFrac with
            | none => exact erkOdeint_frac hr hs hf
            | some x => simp [hs, hf] at hx
          · simp [hs] at hx
        | assertFail => cases hx
        | throws => cases hx
        | ub => exact C71_erk h0 (exampleOut_stream u) (Or.inl rfl) hr
    · rw [if_neg h3]
      have hk : u.method ∉ methodNames := fun h => ((known_iff _).mp h).elim h1 h3
      simp [hk]

theorem readParam_some (s : Stdin) (x : F) : ∃ v, (readParam e s (some x)).1 = some v := by
  unfold readParam
  split
  · exact ⟨_, rfl⟩
  · split
    · exact ⟨_, rfl⟩
    · split
      · exact ⟨_, rfl⟩
      · exact ⟨_, rfl⟩

/-- the masses have values exactly when enough was read -/
theorem solveThreeBody_eq (stdin : List String) (y0 : Vec F 12) :
    (MassesGiven e stdin → ∃ m1 m2 m3, solveThreeBody nd la e { words := stdin } u y0 fuel =
      intEquation nd la (threeBody m1 m2 m3) u y0 fuel) ∧
    (¬ MassesGiven e stdin → solveThreeBody nd la e { words := stdin } u y0 fuel = some .ub) := by
  constructor
  · rintro ⟨a, b, c, rest, rfl, ha, hb⟩
    obtain ⟨x, hx⟩ := Option.isSome_iff_exists.mp ha
    obtain ⟨y, hy⟩ := Option.isSome_iff_exists.mp hb
    cases hz : e.word c with
    | none => exact ⟨x, y, lit 0, by simp [solveThreeBody, readParam, useParam, hx, hy, hz]⟩
    | some z => exact ⟨x, y, z, by simp [solveThreeBody, readParam, useParam, hx, hy, hz]⟩
  · intro h
    match stdin with
    | [] => simp [solveThreeBody, readParam, useParam]
    | [a] => cases hx : e.word a <;> simp [solveThreeBody, readParam, useParam, hx]
    | [a, b] => cases hx : e.word a <;> cases hy : e.word b <;> simp [solveThreeBody, readParam, useParam, hx, hy]
    | a :: b :: c :: rest =>
      cases hx : e.word a with
      | none => simp [solveThreeBody, readParam, useParam, hx]
      | some x =>
        cases hy : e.word b with
        | none => simp [solveThreeBody, readParam, useParam, hx, hy]
        | some y => exact absurd ⟨a, b, c, rest, rfl, by simp [hx], by simp [hy]⟩ h

/-- the equation and initial value that `main` integrates, or the value it returns instead -/
theorem selectEquation_cases (stdin : List String) :
    (Integrates e stdin u.eq → ∃ (n : ℕ) (fn : OdeFun F n) (y0 : Vec F n), 0 < n ∧
      selectEquation nd la e { words := stdin } u fuel = intEquation nd la fn u y0 fuel) ∧
    (u.eq ∈ ["three-body", "three-body-resume"] → ¬ MassesGiven e stdin →
      selectEquation nd la e { words := stdin } u fuel = some .ub) ∧
    (¬ Integrates e stdin u.eq → u.eq ∉ ["three-body", "three-body-resume"] →
      ∃ k, (k = 1 ∨ k = -1) ∧ selectEquation nd la e { words := stdin } u fuel = some (.ret k)) := by
  unfold selectEquation
  by_cases h1 : u.eq = "exponential"
  · rw [if_pos h1]
    refine ⟨fun _ => ?_, fun h => absurd h (by rw [h1]; decide), fun h => absurd (Or.inl (by rw [h1]; decide)) h⟩
    obtain ⟨v, hv⟩ := readParam_some (e := e) { words := stdin } (lit 1)
    exact ⟨1, exponential v, ![lit 1], by decide, by simp [solveExponential, useParam, hv]⟩
  rw [if_neg h1]
  by_cases h2 : u.eq = "stiff-equation"
  · rw [if_pos h2]
    exact ⟨fun _ => ⟨2, stiffEq, ![lit 1, lit 1], by decide, rfl⟩, fun h => absurd h (by rw [h2]; decide),
      fun h => absurd (Or.inl (by rw [h2]; decide)) h⟩
  rw [if_neg h2]
  by_cases h3 : u.eq = "robertson"
  · rw [if_pos h3]
    refine ⟨fun h => ?_, fun h => absurd h (by rw [h3]; decide), fun h _ => ?_⟩
    · rcases h with h | ⟨-, w, rest, rfl, hw⟩ | ⟨h, -⟩
      · rw [h3] at h; exact absurd h (by decide)
      · simp only [List.mem_cons, List.not_mem_nil, or_false] at hw
        exact ⟨3, rober, ![lit 1, lit 0, lit 0], by decide, by simp [solveRobertson, hw]⟩
      · rw [h3] at h; exact absurd h (by decide)
    · cases stdin with
      | nil => exact ⟨1, Or.inl rfl, rfl⟩
      | cons w rest =>
        have hw : ¬ (w = "Y" ∨ w = "y" ∨ w = "yes" ∨ w = "Yes") := fun hw =>
          h (Or.inr (Or.inl ⟨h3, w, rest, rfl, by simpa using hw⟩))
        exact ⟨1, Or.inl rfl, by simp only [solveRobertson, if_neg hw]⟩
  rw [if_neg h3]
  have hthree : ∀ (y0 : Vec F 12), u.eq ∈ ["three-body", "three-body-resume"] →
      (Integrates e stdin u.eq → ∃ (n : ℕ) (fn : OdeFun F n) (y1 : Vec F n), 0 < n ∧
        solveThreeBody nd la e { words := stdin } u y0 fuel = intEquation nd la fn u y1 fuel) ∧
      (u.eq ∈ ["three-body", "three-body-resume"] → ¬ MassesGiven e stdin →
        solveThreeBody nd la e { words := stdin } u y0 fuel = some .ub) ∧
      (¬ Integrates e stdin u.eq → u.eq ∉ ["three-body", "three-body-resume"] →
        ∃ k, (k = 1 ∨ k = -1) ∧ solveThreeBody nd la e { words := stdin } u y0 fuel = some (.ret k)) := by
    intro y0 hm
    refine ⟨fun h => ?_, fun _ h => (solveThreeBody_eq stdin y0).2 h, fun _ h => absurd hm h⟩
    have hg : MassesGiven e stdin := by
      rcases h with h | ⟨h, -⟩ | ⟨-, h⟩
      · simp only [List.mem_cons, List.not_mem_nil, or_false] at h hm
        rcases hm with hm | hm <;> rw [hm] at h <;> exact absurd h (by decide)
      · exact absurd h h3
      · exact h
    obtain ⟨m1, m2, m3, h⟩ := (solveThreeBody_eq (nd := nd) (la := la) (u := u) (fuel := fuel) stdin y0).1 hg
    exact ⟨12, _, _, by decide, h⟩
  by_cases h4 : u.eq = "three-body"
  · rw [if_pos h4]; exact hthree _ (by rw [h4]; decide)
  rw [if_neg h4]
  by_cases h5 : u.eq = "three-body-resume"
  · rw [if_pos h5]; exact hthree _ (by rw [h5]; decide)
  rw [if_neg h5]
  by_cases h6 : u.eq = "van-der-pol"
  · rw [if_pos h6]
    refine ⟨fun _ => ?_, fun h => absurd h (by rw [h6]; decide), fun h => absurd (Or.inl (by rw [h6]; decide)) h⟩
    obtain ⟨v, hv⟩ := readParam_some (e := e) { words := stdin } (lit (5 / 10))
    exact ⟨2, vdpol v, ![lit 2, lit 0], by decide, by simp [solveVanDerPol, useParam, hv]⟩
  rw [if_neg h6]
  by_cases h7 : u.eq = "brusselator"
  · rw [if_pos h7]
    refine ⟨fun _ => ?_, fun h => absurd h (by rw [h7]; decide), fun h => absurd (Or.inl (by rw [h7]; decide)) h⟩
    obtain ⟨v, hv⟩ := readParam_some (e := e) { words := stdin } (lit 1)
    obtain ⟨w, hw⟩ := readParam_some (e := e) (readParam e { words := stdin } (some (lit 1))).2 (lit (25 / 10))
    exact ⟨2, bruss v w, ![lit (25 / 10), lit (25 / 10)], by decide, by simp [solveBrusselator, useParam, hv, hw]⟩
  rw [if_neg h7]
  by_cases h8 : u.eq = "lorenz"
  · rw [if_pos h8]
    refine ⟨fun _ => ?_, fun h => absurd h (by rw [h8]; decide), fun h => absurd (Or.inl (by rw [h8]; decide)) h⟩
    obtain ⟨v, hv⟩ := readParam_some (e := e) { words := stdin } (lit 28)
    obtain ⟨w, hw⟩ := readParam_some (e := e) (readParam e { words := stdin } (some (lit 28))).2 (lit 10)
    obtain ⟨x, hx⟩ := readParam_some (e := e)
      (readParam e (readParam e { words := stdin } (some (lit 28))).2 (some (lit 10))).2 (lit 8 / lit 3)
    exact ⟨3, lorenz w v x, ![lit 1, lit 1, lit 1], by decide, by simp [solveLorenz, useParam, hv, hw, hx]⟩
  rw [if_neg h8]
  have hn : ¬ Integrates e stdin u.eq := by
    rintro (h | ⟨h, -⟩ | ⟨h, -⟩)
    · simp only [List.mem_cons, List.not_mem_nil, or_false] at h
      tauto
    · exact h3 h
    · simp only [List.mem_cons, List.not_mem_nil, or_false] at h
      tauto
  refine ⟨fun h => absurd h hn, fun h => ?_, fun _ _ => ⟨-1, Or.inr rfl, rfl⟩⟩
  simp only [List.mem_cons, List.not_mem_nil, or_false] at h
  tauto

/-- an option touches the timing flag only if it is that option -/
theorem effect_timing {o : CliOpt} {u u' : UserOpts F} (h : o.effect e u = some u') :
    (∃ a, o = .timeInternals a ∧ u'.timeInternals ≠ none) ∨ ((∀ a, o ≠ .timeInternals a) ∧ u'.timeInternals = u.timeInternals) := by
  cases o with
  | timeInternals a =>
    left
    refine ⟨a, rfl, ?_⟩
    cases h1 : e.stoi a with
    | none => simp [CliOpt.effect, h1] at h
    | some x =>
      simp only [CliOpt.effect, h1, Option.bind_eq_bind, Option.bind_some] at h
      split at h
      · cases h; exact fun h => nomatch h
      · cases h; exact fun h => nomatch h
      · cases h
  | equation v => right; simp only [CliOpt.effect, Option.some.injEq] at h; subst h; exact ⟨(fun _ h => nomatch h), rfl⟩
  | method v => right; simp only [CliOpt.effect, Option.some.injEq] at h; subst h; exact ⟨(fun _ h => nomatch h), rfl⟩
  | outputFile v => right; simp only [CliOpt.effect, Option.some.injEq] at h; subst h; exact ⟨(fun _ h => nomatch h), rfl⟩
  | timeSpan a b =>
    right
    simp only [CliOpt.effect, Option.bind_eq_bind, Option.bind_eq_some_iff] at h
    obtain ⟨x, -, y, -, h⟩ := h
    cases h; exact ⟨(fun _ h => nomatch h), rfl⟩
  | dt a =>
    right
    simp only [CliOpt.effect, Option.bind_eq_bind, Option.bind_eq_some_iff] at h
    obtain ⟨x, -, h⟩ := h
    cases h; exact ⟨(fun _ h => nomatch h), rfl⟩
  | relTol a =>
    right
    simp only [CliOpt.effect, Option.bind_eq_bind, Option.bind_eq_some_iff] at h
    obtain ⟨x, -, h⟩ := h
    cases h; exact ⟨(fun _ h => nomatch h), rfl⟩
  | absTol a =>
    right
    simp only [CliOpt.effect, Option.bind_eq_bind, Option.bind_eq_some_iff] at h
    obtain ⟨x, -, h⟩ := h
    cases h; exact ⟨(fun _ h => nomatch h), rfl⟩
  | outInterval a =>
    right
    simp only [CliOpt.effect, Option.bind_eq_bind, Option.bind_eq_some_iff] at h
    obtain ⟨x, -, h⟩ := h
    cases h; exact ⟨(fun _ h => nomatch h), rfl⟩

theorem interpret_timing : ∀ (os : List CliOpt) {u u' : UserOpts F}, interpret e u os = some u' →
    (u'.timeInternals = none ↔ u.timeInternals = none ∧ ∀ a, CliOpt.timeInternals a ∉ os)
  | [], u, u', h => by cases h; simp
  | o :: os, u, u', h => by
    obtain ⟨u1, h1, h2⟩ := Option.bind_eq_some_iff.mp h
    have ih := interpret_timing os h2
    rw [ih]
    rcases effect_timing h1 with ⟨a, rfl, hn⟩ | ⟨hn, he⟩
    · constructor
      · exact fun h => absurd h.1 hn
      · exact fun h => absurd (List.mem_cons_self ..) (h.2 a)
    · rw [he]
      constructor
      · rintro ⟨h3, h4⟩
        exact ⟨h3, fun a ha => (List.mem_cons.mp ha).elim (fun h => hn a h.symm) (h4 a)⟩
      · rintro ⟨h3, h4⟩
        exact ⟨h3, fun a ha => h4 a (List.mem_cons_of_mem _ ha)⟩

theorem render_ne_nil (o : CliOpt) : o.render ≠ [] := by cases o <;> exact fun h => nomatch h

theorem flatMap_render_eq_nil {os : List CliOpt} : os.flatMap CliOpt.render = [] ↔ os = [] := by
  constructor
  · intro h
    cases os with
    | nil => rfl
    | cons o os =>
      rw [List.flatMap_cons, List.append_eq_nil_iff] at h
      exact absurd h.1 (render_ne_nil o)
  · rintro rfl; rfl

/-- a complete command line -/
theorem exampleMain_complete {os : List CliOpt} {u : UserOpts F} (hos : os ≠ []) (hi : interpret e UserOpts.dflt os = some u)
    (stdin : List String) :
    exampleMain nd la e (os.flatMap CliOpt.render) stdin fuel = selectEquation nd la e { words := stdin } u fuel := by
  unfold exampleMain
  rw [if_neg (fun h => hos (flatMap_render_eq_nil.mp h)), (C68_accepts_partial e _ _ u).mpr ⟨os, hi, rfl⟩]
  simp

/-! ### C69 -/

/-- **C69 (exact extent of undefined behaviour).**  With assertions enabled, the program executes an undefined operation exactly for
- a command line of complete options followed by `--out-interval` as last argument;
- a complete command line that selects a three-body problem when the standard input does not provide the masses;
- a complete command line without `--time-internals` that selects a known method and a problem that is then integrated;
- a complete command line that selects `LOBATTO_IIIA_127` or `GAUSS_LEGENDRE_147`, a time span and initial step that go forward and a
  problem that is then integrated. -/
theorem C69_exact (h0 : eqb (lit 0 : F) (lit 0) = true) (args stdin : List String) :
    exampleMain false la e args stdin fuel = some .ub ↔
      (∃ os u', interpret e UserOpts.dflt os = some u' ∧ args = os.flatMap CliOpt.render ++ ["--out-interval"]) ∨
      (∃ os u', os ≠ [] ∧ interpret e UserOpts.dflt os = some u' ∧ args = os.flatMap CliOpt.render ∧
        ((u'.eq ∈ ["three-body", "three-body-resume"] ∧ ¬ MassesGiven e stdin) ∨
          (Integrates e stdin u'.eq ∧ u'.method ∈ methodNames ∧ ((∀ a, CliOpt.timeInternals a ∉ os) ∨
            (u'.method ∈ ["LOBATTO_IIIA_127", "GAUSS_LEGENDRE_147"] ∧ StartsForward u'.t0 u'.t1 u'.dt))))) := by
  -- the second alternative for a given complete command line
  have key : ∀ os u', os ≠ [] → interpret e UserOpts.dflt os = some u' → args = os.flatMap CliOpt.render →
      (exampleMain false la e args stdin fuel = some .ub ↔
        ((u'.eq ∈ ["three-body", "three-body-resume"] ∧ ¬ MassesGiven e stdin) ∨
          (Integrates e stdin u'.eq ∧ u'.method ∈ methodNames ∧ ((∀ a, CliOpt.timeInternals a ∉ os) ∨
            (u'.method ∈ ["LOBATTO_IIIA_127", "GAUSS_LEGENDRE_147"] ∧ StartsForward u'.t0 u'.t1 u'.dt))))) := by
    intro os u' hos hi ha
    have ht := interpret_timing os hi
    have ht' : u'.timeInternals = none ↔ ∀ a, CliOpt.timeInternals a ∉ os := ht.trans ⟨fun h => h.2, fun h => ⟨rfl, h⟩⟩
    rw [ha, exampleMain_complete hos hi]
    obtain ⟨c1, c2, c3⟩ := selectEquation_cases (nd := false) (la := la) (e := e) (u := u') (fuel := fuel) stdin
    by_cases hI : Integrates e stdin u'.eq
    · obtain ⟨n, fn, y0, -, heq⟩ := c1 hI
      rw [heq, intEquation_ub h0, ht']
      constructor
      · rintro ⟨h1, h2⟩; exact Or.inr ⟨hI, h1, h2⟩
      · rintro (⟨h1, h2⟩ | ⟨-, h1, h2⟩)
        · exfalso
          rcases hI with h | ⟨h, -⟩ | ⟨-, h⟩
          · simp only [List.mem_cons, List.not_mem_nil, or_false] at h h1
            rcases h1 with h1 | h1 <;> rw [h1] at h <;> revert h <;> decide
          · rw [h] at h1; revert h1; decide
          · exact h2 h
        · exact ⟨h1, h2⟩
    · by_cases h3 : u'.eq ∈ ["three-body", "three-body-resume"]
      · have hM : ¬ MassesGiven e stdin := fun h => hI (Or.inr (Or.inr ⟨h3, h⟩))
        rw [c2 h3 hM]
        simp only [true_iff]
        exact Or.inl ⟨h3, hM⟩
      · obtain ⟨k, -, hk⟩ := c3 hI h3
        rw [hk]
        simp [hI, h3]
  constructor
  · intro h
    by_cases hnil : args = []
    · subst hnil; simp [exampleMain] at h
    obtain ⟨os, u', hi, ⟨h1, h2⟩ | ⟨arg, rest, r, h1, h2, h3⟩⟩ := parseOpts_split (e := e) args.length args UserOpts.dflt (le_refl _)
    · have hos : os ≠ [] := fun h => hnil (by rw [h1, h]; rfl)
      exact Or.inr ⟨os, u', hos, hi, h1, (key os u' hos hi h1).mp h⟩
    · left
      unfold exampleMain at h
      rw [if_neg hnil, h3] at h
      rcases parseOne_stop h2 with h' | h' | h' | ⟨h', -⟩ | ⟨-, ha, hr⟩
      · subst h'; simp at h
      · subst h'; simp at h
      · subst h'; simp at h
      · subst h'; simp at h
      · exact ⟨os, u', hi, by rw [h1, ha, hr]⟩
  · rintro (⟨os, u', hi, ha⟩ | ⟨os, u', hos, hi, ha, hc⟩)
    · unfold exampleMain
      rw [if_neg (by rw [ha]; simp), (C68_ub e args UserOpts.dflt).mpr ⟨os, u', hi, ha⟩]
    · exact (key os u' hos hi ha).mpr hc

/-! ### C70 -/

/-- an integration over the requested span with the requested method, tolerances and initial step returned a status with `P` -/
def RanWith (nd : Bool) (la : LinAlg F) (fuel : ℕ) (u : UserOpts F) (P : ℤ → Prop) : Prop :=
  ∃ (n : ℕ) (fn : OdeFun F n) (y0 : Vec F n) (m : ℤ), 0 < n ∧
    (((u.method, m) ∈ irkMethods ∧ ∃ out, irkOdeint nd la fn u.t0 u.t1 y0 (setIrkOptions u) (exampleOut u) m u.dt fuel
        = some (.ret out) ∧ P out.status) ∨
     ((u.method, m) ∈ erkMethods ∧ ∃ out, erkOdeint nd fn.fn u.t0 u.t1 y0 (setErkOptions u) (exampleOut u) m u.dt fuel
        = some (.ret out) ∧ P out.status))

theorem intEquation_ret (hn : 0 < n) {k : ℤ} (h : intEquation nd la fn u y0 fuel = some (.ret k)) :
    k = -1 ∨ (k = 0 ∧ RanWith nd la fuel u (· = 0)) ∨ (k = 2 ∧ RanWith nd la fuel u (· ≠ 0)) := by
  unfold intEquation at h
  simp only at h
  by_cases hm1 : ((Tables.init irkMethods).nameToMethod u.method).1 ≠ 0
  · rw [if_pos hm1] at h
    cases ht : u.timeInternals with
    | none => rw [ht] at h; cases h
    | some b =>
      rw [ht] at h
      obtain ⟨r, hr, hx⟩ := Option.map_eq_some_iff.mp h
      cases r with
      | ret out =>
        simp only [exitOf] at hx
        by_cases hs : out.status = 0
        · rw [if_neg (not_not.mpr hs)] at hx
          cases hf : out.acceptFrac with
          | none => rw [hf] at hx; cases hx
          | some x =>
            rw [hf] at hx
            cases hx
            exact Or.inr (Or.inl ⟨rfl, n, fn, y0, _, hn, Or.inl ⟨irk_code_ne _ hm1, out, hr, hs⟩⟩)
        · rw [if_pos hs] at hx
          cases hx
          exact Or.inr (Or.inr ⟨rfl, n, fn, y0, _, hn, Or.inl ⟨irk_code_ne _ hm1, out, hr, hs⟩⟩)
      | assertFail => cases hx
      | throws => cases hx
      | ub => cases hx
  · rw [if_neg hm1] at h
    by_cases hm2 : ((Tables.init erkMethods).nameToMethod u.method).1 ≠ 0
    · rw [if_pos hm2] at h
      cases ht : u.timeInternals with
      | none => rw [ht] at h; cases h
      | some b =>
        rw [ht] at h
        obtain ⟨r, hr, hx⟩ := Option.map_eq_some_iff.mp h
        cases r with
        | ret out =>
          simp only [exitOf] at hx
          by_cases hs : out.status = 0
          · rw [if_neg (not_not.mpr hs)] at hx
            cases hf : out.acceptFrac with
            | none => rw [hf] at hx; cases hx
            | some x =>
              rw [hf] at hx
              cases hx
              exact Or.inr (Or.inl ⟨rfl, n, fn, y0, _, hn, Or.inr ⟨erk_code_ne _ hm2, out, hr, hs⟩⟩)
          · rw [if_pos hs] at hx
            cases hx
            exact Or.inr (Or.inr ⟨rfl, n, fn, y0, _, hn, Or.inr ⟨erk_code_ne _ hm2, out, hr, hs⟩⟩)
        | assertFail => cases hx
        | throws => cases hx
        | ub => cases hx
    · rw [if_neg hm2] at h
      cases h
      exact Or.inl rfl

/-- **C70 (exit status).**  Whatever the arguments, the input and the arithmetic, with or without assertions: the program
returns 3 exactly without arguments, 0 only if the help text was requested or the integration of some system over the
requested span returned with status SUCCESS, 2 only if an integration returned with another status, and otherwise 1
or -1. -/
theorem C70_exit (args stdin : List String) (k : ℤ) (h : exampleMain nd la e args stdin fuel = some (.ret k)) :
    (k = 3 ↔ args = []) ∧ (k = 3 ∨ k = 2 ∨ k = 1 ∨ k = 0 ∨ k = -1) ∧
    (k = 0 → (∃ os u1 arg rest, interpret e UserOpts.dflt os = some u1 ∧ args = os.flatMap CliOpt.render ++ arg :: rest ∧
        (arg = "-h" ∨ arg = "--help")) ∨
      ∃ os u', interpret e UserOpts.dflt os = some u' ∧ args = os.flatMap CliOpt.render ∧ RanWith nd la fuel u' (· = 0)) ∧
    (k = 2 → ∃ os u', interpret e UserOpts.dflt os = some u' ∧ args = os.flatMap CliOpt.render ∧
      RanWith nd la fuel u' (· ≠ 0)) := by
  by_cases hnil : args = []
  · subst hnil
    unfold exampleMain at h
    rw [if_pos rfl] at h
    cases h
    exact ⟨⟨fun _ => rfl, fun _ => rfl⟩, Or.inl rfl, fun h => absurd h (by decide), fun h => absurd h (by decide)⟩
  obtain ⟨os, u', hi, ⟨h1, h2⟩ | ⟨arg, rest, r, h1, h2, h3⟩⟩ := parseOpts_split (e := e) args.length args UserOpts.dflt (le_refl _)
  · have hos : os ≠ [] := fun h => hnil (by rw [h1, h]; rfl)
    rw [h1, exampleMain_complete hos hi] at h
    obtain ⟨c1, c2, c3⟩ := selectEquation_cases (nd := nd) (la := la) (e := e) (u := u') (fuel := fuel) stdin
    by_cases hI : Integrates e stdin u'.eq
    · obtain ⟨n, fn, y0, hn, heq⟩ := c1 hI
      rw [heq] at h
      rcases intEquation_ret hn h with rfl | ⟨rfl, hx⟩ | ⟨rfl, hx⟩
      · exact ⟨⟨fun h => absurd h (by decide), fun h => absurd h hnil⟩, by decide, fun h => absurd h (by decide),
          fun h => absurd h (by decide)⟩
      · exact ⟨⟨fun h => absurd h (by decide), fun h => absurd h hnil⟩, by decide, fun _ => Or.inr ⟨os, u', hi, h1, hx⟩,
          fun h => absurd h (by decide)⟩
      · exact ⟨⟨fun h => absurd h (by decide), fun h => absurd h hnil⟩, by decide, fun h => absurd h (by decide),
          fun _ => ⟨os, u', hi, h1, hx⟩⟩
    · by_cases h3 : u'.eq ∈ ["three-body", "three-body-resume"]
      · rw [c2 h3 (fun h => hI (Or.inr (Or.inr ⟨h3, h⟩)))] at h
        cases h
      · obtain ⟨j, hj, hk⟩ := c3 hI h3
        rw [hk] at h
        cases h
        rcases hj with rfl | rfl <;>
        exact ⟨⟨fun h => absurd h (by decide), fun h => absurd h hnil⟩, by decide, fun h => absurd h (by decide),
          fun h => absurd h (by decide)⟩
  · unfold exampleMain at h
    rw [if_neg hnil, h3] at h
    rcases parseOne_stop h2 with h' | h' | h' | ⟨h', ha⟩ | ⟨h', -⟩
    · subst h'; cases h
    · subst h'
      simp only at h
      rw [if_pos (by decide)] at h
      cases h
      exact ⟨⟨fun h => absurd h (by decide), fun h => absurd h hnil⟩, by decide, fun h => absurd h (by decide),
        fun h => absurd h (by decide)⟩
    · subst h'
      simp only at h
      rw [if_pos (by decide)] at h
      cases h
      exact ⟨⟨fun h => absurd h (by decide), fun h => absurd h hnil⟩, by decide, fun h => absurd h (by decide),
        fun h => absurd h (by decide)⟩
    · subst h'
      simp only at h
      rw [if_neg (by decide), if_pos (by decide)] at h
      cases h
      exact ⟨⟨fun h => absurd h (by decide), fun h => absurd h hnil⟩, by decide,
        fun _ => Or.inl ⟨os, u', arg, rest, hi, h1, ha⟩, fun h => absurd h (by decide)⟩
    · subst h'; cases h

end generic

section real
variable {e : TextNum ℝ}

/-- the claim: a complete command line never leads to undefined behaviour -/
def C69_claim : Prop :=
  ∀ (e : TextNum ℝ) (os : List CliOpt) (u' : UserOpts ℝ), interpret e UserOpts.dflt os = some u' →
    ∀ (stdin : List String) (fuel : ℕ), exampleMain false laReal e (os.flatMap CliOpt.render) stdin fuel ≠ some .ub

/-- `rehuel_example --equation stiff-equation` -/
theorem C69_refuted : ¬ C69_claim := fun h => by
  refine h ⟨fun _ => none, fun _ => none, fun _ => none⟩ [.equation "stiff-equation"] _ rfl [] 0 ?_
  rw [exampleMain_complete (by simp) rfl]
  simp only [selectEquation, String.reduceEq, if_false, if_true, solveStiff]
  exact (intEquation_ub (F := ℝ) (u := { UserOpts.dflt with eq := "stiff-equation" }) (by simp)).mpr
    ⟨show "LOBATTO_IIIC_85" ∈ _ by decide, Or.inl rfl⟩

/-- **C69 (what holds).**  A complete command line with `--time-internals`, a method other than `LOBATTO_IIIA_127` and
`GAUSS_LEGENDRE_147`, and input for the masses if a three-body problem is chosen: no undefined operation. -/
theorem C69_defined_partial {os : List CliOpt} {u' : UserOpts ℝ} (hi : interpret e UserOpts.dflt os = some u')
    (h222 : u'.method ≠ "LOBATTO_IIIA_127") (h243 : u'.method ≠ "GAUSS_LEGENDRE_147")
    (ht : ∃ a, CliOpt.timeInternals a ∈ os) (stdin : List String)
    (h3 : u'.eq ∈ ["three-body", "three-body-resume"] → MassesGiven e stdin) (fuel : ℕ) :
    exampleMain false laReal e (os.flatMap CliOpt.render) stdin fuel ≠ some .ub := by
  obtain ⟨a, ha⟩ := ht
  rw [exampleMain_complete (List.ne_nil_of_mem ha) hi]
  obtain ⟨c1, c2, c3⟩ := selectEquation_cases (nd := false) (la := laReal) (e := e) (u := u') (fuel := fuel) stdin
  by_cases hI : Integrates e stdin u'.eq
  · obtain ⟨n, fn, y0, -, heq⟩ := c1 hI
    rw [heq]
    intro h
    rcases ((intEquation_ub (by simp)).mp h).2 with h | ⟨h, -⟩
    · exact ((interpret_timing os hi).mp h).2 a ha
    · simp [h222, h243] at h
  · have h3' : u'.eq ∉ ["three-body", "three-body-resume"] := fun h => hI (Or.inr (Or.inr ⟨h, h3 h⟩))
    obtain ⟨k, -, hk⟩ := c3 hI h3'
    rw [hk]
    exact fun h => nomatch h

/-- the matrix of the stiff test equation has the eigenvalues -1 and -1000 -/
theorem stiff_dissipative : Dissipative !![0, 1; -1000, -1001] := by
  intro l v hv hl
  have h0 := hl 0
  have h1 := hl 1
  simp only [Fin.sum_univ_two, Matrix.of_apply, Matrix.cons_val_zero, Matrix.cons_val_one] at h0 h1
  push_cast at h0 h1
  have h0' : v 1 = l * v 0 := by linear_combination h0
  have hq : (l + 1) * (l + 1000) * v 0 = 0 := by
    rw [h0'] at h1
    linear_combination -h1
  have hv0 : v 0 ≠ 0 := by
    intro h
    refine hv (funext fun k => ?_)
    fin_cases k
    · exact h
    · change v 1 = 0
      rw [h0', h, mul_zero]
  rcases mul_eq_zero.mp ((mul_eq_zero.mp hq).resolve_right hv0) with h | h
  · rw [eq_neg_of_add_eq_zero_left h]; simp
  · rw [eq_neg_of_add_eq_zero_left h]; simp

theorem exponential_dissipative {l : ℝ} (h : l ≤ 0) : Dissipative !![l] := by
  intro z v hv hz
  have h0 := hz 0
  simp only [Fin.sum_univ_one, Matrix.of_apply, Matrix.cons_val_zero] at h0
  have hv0 : v 0 ≠ 0 := by
    intro h
    refine hv (funext fun k => ?_)
    rw [Subsingleton.elim k 0]; exact h
  rw [← mul_right_cancel₀ hv0 h0]
  simpa using h

/-- the methods of C67 by name -/
theorem stiff_codes : ∀ s ∈ ["RADAU_IIA_32", "RADAU_IIA_53", "LOBATTO_IIIC_43", "LOBATTO_IIIC_64", "LOBATTO_IIIC_85"],
    ((Tables.init irkMethods).nameToMethod s).1 ∈ ([210, 211, 230, 231, 232] : List ℤ) := by decide

theorem intEquation_success {n : ℕ} {fn : OdeFun ℝ n} {y0 : Vec ℝ n} {u : UserOpts ℝ} {J : Matrix (Fin n) (Fin n) ℝ}
    (hf : ∀ t y, fn.fn t y = J.mulVec y) (hJ : ∀ t y i j, fn.jac t y i j = J i j) (hD : Dissipative J) (hn : 0 < n)
    (hm : u.method ∈ ["RADAU_IIA_32", "RADAU_IIA_53", "LOBATTO_IIIC_43", "LOBATTO_IIIC_64", "LOBATTO_IIIC_85"])
    (ht : u.t0 < u.t1) (hdt : 0 < u.dt) (hat : 0 < u.absTol) (hrt : 0 < u.relTol) (hti : u.timeInternals ≠ none) :
    ∃ fuel, intEquation false laReal fn u y0 fuel = some (.ret 0) := by
  have hc := stiff_codes _ hm
  obtain ⟨b, hb⟩ := Option.ne_none_iff_exists'.mp hti
  obtain ⟨fuel, out, h1, h2, -⟩ := C67_stiff_success (fn := fn) (J := J) (g := fun _ => 0) (t0 := u.t0) (t1 := u.t1) (y0 := y0)
    (dt := u.dt) (o := setIrkOptions u) (oo := exampleOut u)
    (no := { NewtonOpts.dflt with tol := lit (1 / 10) * cmin u.relTol u.absTol }) hc
    (fun t y => by rw [hf, add_zero]) hJ (fun R => ⟨0, fun t _ k => by simp⟩) hD hn ht hdt rfl (show (-1 : ℤ) < 0 by decide) rfl
    (show (2 : ℤ) ≤ 5000 by decide)
    (by
      simp only [lit_real, cmin_real]
      have : 0 < min u.relTol u.absTol := lt_min hrt hat
      positivity)
    (fun h => nomatch h) hat hrt.le (exampleOut_interval u) (exampleOut_stream u)
  refine ⟨fuel, ?_⟩
  unfold intEquation
  have hz : ((Tables.init irkMethods).nameToMethod u.method).1 ≠ 0 := by
    intro h
    rw [h] at hc
    revert hc
    decide
  simp only [if_pos hz, hb, h1, Option.map_some, exitOf, h2]
  cases hfr : out.acceptFrac with
  | none => exact absurd hfr (irkOdeint_frac h1 h2)
  | some x => simp

/-- **C70 (stiff problems, whole program).**  In exact arithmetic, the stiff test equation, or the exponential equation with
a rate `λ ≤ 0` on the standard input, with one of the stiff methods, a forward time span, a positive initial step,
positive tolerances and `--time-internals`: the program returns 0. -/
theorem C70_success {os : List CliOpt} {u' : UserOpts ℝ} (hi : interpret e UserOpts.dflt os = some u') (stdin : List String)
    (heq : u'.eq = "stiff-equation" ∨
      (u'.eq = "exponential" ∧ ∃ w rest l, stdin = w :: rest ∧ e.word w = some l ∧ l ≤ 0))
    (hm : u'.method ∈ ["RADAU_IIA_32", "RADAU_IIA_53", "LOBATTO_IIIC_43", "LOBATTO_IIIC_64", "LOBATTO_IIIC_85"])
    (ht : u'.t0 < u'.t1) (hdt : 0 < u'.dt) (hat : 0 < u'.absTol) (hrt : 0 < u'.relTol)
    (hti : ∃ a, CliOpt.timeInternals a ∈ os) :
    ∃ fuel, exampleMain false laReal e (os.flatMap CliOpt.render) stdin fuel = some (.ret 0) := by
  obtain ⟨a, ha⟩ := hti
  have hti' : u'.timeInternals ≠ none := fun h => ((interpret_timing os hi).mp h).2 a ha
  simp only [exampleMain_complete (List.ne_nil_of_mem ha) hi]
  rcases heq with h | ⟨h, w, rest, l, rfl, hw, hl⟩
  · simp only [selectEquation, h, if_true, String.reduceEq, if_false, solveStiff]
    refine intEquation_success (J := !![0, 1; -1000, -1001]) (fun t y => ?_) (fun t y i j => ?_) stiff_dissipative (by decide)
      hm ht hdt hat hrt hti'
    · funext i
      fin_cases i <;> simp [stiffEq, stiffA, mulVec, Matrix.mulVec, dotProduct, Fin.sum_univ_two, sumFin_real]
    · fin_cases i <;> fin_cases j <;> simp [stiffEq, stiffA]
  · simp only [selectEquation, h, if_true, solveExponential, readParam, hw, useParam, Bool.false_eq_true, if_false]
    refine intEquation_success (J := !![l]) (fun t y => ?_) (fun t y i j => ?_) (exponential_dissipative hl) (by decide)
      hm ht hdt hat hrt hti'
    · funext i
      fin_cases i; simp [exponential, Matrix.mulVec, dotProduct]
    · fin_cases i; fin_cases j; simp [exponential]

/-! ### examples -/

/-- a reader of numbers that knows a few words -/
noncomputable def demoReader : TextNum ℝ :=
  { stof := fun s => if s = "20" then some 20 else if s = "0" then some 0 else none
    stoi := fun s => if s = "0" then some 0 else none
    word := fun s => if s = "-50" then some (-50) else none }

/-- `C69_exact`: the masses are missing, although every option is given -/
example : exampleMain false laReal demoReader ["--equation", "three-body", "--time-internals", "0"] ["-50", "-50"] 0 = some .ub := by
  have := exampleMain_complete (F := ℝ) (nd := false) (la := laReal) (fuel := 0) (e := demoReader)
    (os := [.equation "three-body", .timeInternals "0"])
    (u := { UserOpts.dflt with eq := "three-body", timeInternals := some false }) (by simp)
    (by simp [interpret, CliOpt.effect, demoReader]) ["-50", "-50"]
  refine this.trans ?_
  refine (selectEquation_cases (F := ℝ) _).2.1 (show "three-body" ∈ _ by decide) ?_
  rintro ⟨a, b, c, rest, h, -⟩
  simp at h

/-- `C69_exact`: `GAUSS_LEGENDRE_147`, although every option is given -/
example : exampleMain false laReal demoReader ["--equation", "exponential", "--method", "GAUSS_LEGENDRE_147", "--time-internals", "0"]
    [] 0 = some .ub :=
  (C69_exact (F := ℝ) (by simp) _ _).mpr (Or.inr ⟨[.equation "exponential", .method "GAUSS_LEGENDRE_147", .timeInternals "0"],
    { UserOpts.dflt with eq := "exponential", method := "GAUSS_LEGENDRE_147", timeInternals := some false }, by simp,
    by simp [interpret, CliOpt.effect, demoReader], rfl,
    Or.inr ⟨Or.inl (by decide), by decide, Or.inr ⟨by decide, by
      simp only [StartsForward, UserOpts.dflt, ltb_real, lit_real]
      split <;> norm_num⟩⟩⟩)

/-- `C69_defined_partial`, `C70_exit`, `C70_success`: `y' = -50 y` over `[0, 20]` with the default method -/
example : (∃ fuel, exampleMain false laReal demoReader ["--equation", "exponential", "--time-span", "0", "20", "--time-internals", "0"]
      ["-50"] fuel = some (.ret 0)) ∧
    ∀ fuel, exampleMain false laReal demoReader ["--equation", "exponential", "--time-span", "0", "20", "--time-internals", "0"]
      ["-50"] fuel ≠ some .ub := by
  have hi : interpret demoReader UserOpts.dflt [.equation "exponential", .timeSpan "0" "20", .timeInternals "0"] =
      some { UserOpts.dflt with eq := "exponential", t0 := 0, t1 := 20, timeInternals := some false } := by
    simp [interpret, CliOpt.effect, demoReader]
  constructor
  · refine C70_success hi ["-50"] (Or.inr ⟨rfl, "-50", [], -50, rfl, by simp [demoReader], by norm_num⟩)
      (show "LOBATTO_IIIC_85" ∈ _ by decide) (by norm_num) (by norm_num [UserOpts.dflt]) (by norm_num [UserOpts.dflt])
      (by norm_num [UserOpts.dflt]) ⟨"0", by simp⟩
  · exact fun fuel => C69_defined_partial hi (show "LOBATTO_IIIC_85" ≠ _ by decide) (show "LOBATTO_IIIC_85" ≠ _ by decide) ⟨"0", by simp⟩
      ["-50"] (fun h => absurd h (show "exponential" ∉ _ by decide)) fuel

end real
end Verif
