import Verif.Prop.ExampleRun
import Verif.Prop.OutputOptions

/-!
# Property C70: the example program integrates the requested problem
-/

set_option linter.unusedSectionVars false

namespace Verif
open TestEq

section generic
variable {F : Type} [Add F] [Sub F] [Mul F] [Div F] [Neg F] [Scalar F]
variable {n : ℕ} {nd : Bool} {la : LinAlg F} {fn : OdeFun F n} {y0 : Vec F n} {u : UserOpts F} {e : TextNum F} {fuel : ℕ}

/-! ### specification -/

/-- Parameters read from the words of the standard input, with defaults for what is not there.  A word that is not a
number counts as 0 and ends the reading. -/
def params (e : TextNum F) : List F → List String → List F
  | [], _ => []
  | ds, [] => ds
  | _ :: ds, w :: ws =>
    match e.word w with
    | some x => x :: params e ds ws
    | none => lit 0 :: ds

/-- the initial value problem that the name of an equation and the standard input stand for -/
inductive Problem (e : TextNum F) (stdin : List String) : String → (n : ℕ) → OdeFun F n → Vec F n → Prop
  | exponential {l : F} (h : params e [lit 1] stdin = [l]) :
    Problem e stdin "exponential" 1 (exponential l) ![lit 1]
  | stiff : Problem e stdin "stiff-equation" 2 stiffEq ![lit 1, lit 1]
  | robertson (h : Confirmed stdin) : Problem e stdin "robertson" 3 rober ![lit 1, lit 0, lit 0]
  | threeBody {m1 m2 m3 : F} (hg : MassesGiven e stdin) (h : params e [lit 0, lit 0, lit 0] stdin = [m1, m2, m3]) :
    Problem e stdin "three-body" 12 (threeBody m1 m2 m3)
      ![lit 1, lit 0, lit 3, lit 2, lit 0, lit 3, lit 0, lit 2, - lit 1, lit 0, - lit 1, lit 0]
  | threeBodyResume {m1 m2 m3 : F} (hg : MassesGiven e stdin) (h : params e [lit 0, lit 0, lit 0] stdin = [m1, m2, m3]) :
    Problem e stdin "three-body-resume" 12 (TestEq.threeBody m1 m2 m3) threeBodyResume
  | vanDerPol {mu : F} (h : params e [lit (1 / 2)] stdin = [mu]) :
    Problem e stdin "van-der-pol" 2 (vdpol mu) ![lit 2, lit 0]
  | brusselator {a b : F} (h : params e [lit 1, lit (5 / 2)] stdin = [a, b]) :
    Problem e stdin "brusselator" 2 (bruss a b) ![lit (5 / 2), lit (5 / 2)]
  | lorenz {r sg b : F} (h : params e [lit 28, lit 10, lit 8 / lit 3] stdin = [r, sg, b]) :
    Problem e stdin "lorenz" 3 (lorenz sg r b) ![lit 1, lit 1, lit 1]

/-- an implicit run with the settings the user asked for: adaptive, without limits, the Newton tolerance a tenth of the
smaller tolerance; a run with an output file leaves one line per accepted step there and stores only the initial value,
a run without stores every accepted step -/
def ImplicitRun (nd : Bool) (la : LinAlg F) (fn : OdeFun F n) (y0 : Vec F n) (u : UserOpts F) (m : ℤ) (fuel : ℕ) (st : ℤ) : Prop :=
  ∃ (o : IrkOpts F) (no : NewtonOpts F) (oo : OutOpts) (out : _),
    o.adaptive = true ∧ o.relTol = u.relTol ∧ o.absTol = u.absTol ∧ o.maxDt = lit 0 ∧ o.maxSteps = -1 ∧
    o.newtonOpts = some no ∧ no.tol = lit (1 / 10) * (if ltb u.absTol u.relTol then u.absTol else u.relTol) ∧
    no.limitStep = false ∧ no.precondition = false ∧
    irkOdeint nd la fn u.t0 u.t1 y0 o oo m u.dt fuel = some (.ret out) ∧ out.status = st ∧
    (u.outputFname = "" → out.file = [] ∧ out.tVals.length = (out.count.newtonSuccess - out.count.rejectErr) + 1) ∧
    (u.outputFname ≠ "" → out.file.length = out.count.newtonSuccess - out.count.rejectErr ∧ out.tVals = [u.t0] ∧ out.yVals = [y0])

/-- the same for the explicit integrator, which stores every accepted step in any case and writes a line for every
attempt -/
def ExplicitRun (nd : Bool) (f : F → Vec F n → Vec F n) (y0 : Vec F n) (u : UserOpts F) (m : ℤ) (fuel : ℕ) (st : ℤ) : Prop :=
  ∃ (o : ErkOpts F) (oo : OutOpts) (out : ErkOutput F n),
    o.adaptive = true ∧ o.relTol = u.relTol ∧ o.absTol = u.absTol ∧ o.maxDt = lit 0 ∧ o.maxSteps = -1 ∧
    erkOdeint nd f u.t0 u.t1 y0 o oo m u.dt fuel = some (.ret out) ∧ out.status = st ∧
    (u.outputFname = "" → out.file = []) ∧
    (u.outputFname ≠ "" → out.file.length = (out.tVals.length - 1) + out.rejectErr)

/-- the requested problem was integrated with the requested method and settings, with status `st` -/
def Integrated (nd : Bool) (la : LinAlg F) (e : TextNum F) (stdin : List String) (fuel : ℕ) (u : UserOpts F) (st : ℤ) : Prop :=
  ∃ (n : ℕ) (fn : OdeFun F n) (y0 : Vec F n) (m : ℤ), Problem e stdin u.eq n fn y0 ∧
    (((u.method, m) ∈ irkMethods ∧ ImplicitRun nd la fn y0 u m fuel st) ∨
     ((u.method, m) ∈ erkMethods ∧ ExplicitRun nd fn.fn y0 u m fuel st))

/-! ### helper lemmas -/

theorem readParam_failed (x : Option F) (ws : List String) :
    readParam e ⟨ws, true⟩ x = (x, ⟨ws, true⟩) := rfl

theorem params1 (d : F) (stdin : List String) :
    ∃ x, params e [d] stdin = [x] ∧ (readParam e { words := stdin } (some d)).1 = some x := by
  cases stdin with
  | nil => exact ⟨d, rfl, rfl⟩
  | cons w ws =>
    cases hw : e.word w with
    | none => exact ⟨lit 0, by simp [params, hw], by simp [readParam, hw]⟩
    | some x => exact ⟨x, by simp [params, hw], by simp [readParam, hw]⟩

theorem params2 (d1 d2 : F) (stdin : List String) :
    ∃ x y, params e [d1, d2] stdin = [x, y] ∧ (readParam e { words := stdin } (some d1)).1 = some x ∧
      (readParam e (readParam e { words := stdin } (some d1)).2 (some d2)).1 = some y := by
  cases stdin with
  | nil => exact ⟨d1, d2, rfl, rfl, rfl⟩
  | cons w ws =>
    cases hw : e.word w with
    | none => exact ⟨lit 0, d2, by simp [params, hw], by simp [readParam, hw], by simp [readParam, hw]⟩
    | some x =>
      obtain ⟨y, h1, h2⟩ := params1 (e := e) d2 ws
      exact ⟨x, y, by simp [params, hw, h1], by simp [readParam, hw], by
        rw [show (readParam e { words := w :: ws } (some d1)).2 = { words := ws } by simp [readParam, hw]]; exact h2⟩

theorem params3 (d1 d2 d3 : F) (stdin : List String) :
    ∃ x y z, params e [d1, d2, d3] stdin = [x, y, z] ∧ (readParam e { words := stdin } (some d1)).1 = some x ∧
      (readParam e (readParam e { words := stdin } (some d1)).2 (some d2)).1 = some y ∧
      (readParam e (readParam e (readParam e { words := stdin } (some d1)).2 (some d2)).2 (some d3)).1 = some z := by
  cases stdin with
  | nil => exact ⟨d1, d2, d3, rfl, rfl, rfl, rfl⟩
  | cons w ws =>
    cases hw : e.word w with
    | none =>
      exact ⟨lit 0, d2, d3, by simp [params, hw], by simp [readParam, hw], by simp [readParam, hw], by simp [readParam, hw]⟩
    | some x =>
      obtain ⟨y, z, h1, h2, h3⟩ := params2 (e := e) d2 d3 ws
      have hr : (readParam e { words := w :: ws } (some d1)).2 = { words := ws } := by simp [readParam, hw]
      exact ⟨x, y, z, by simp [params, hw, h1], by simp [readParam, hw], by rw [hr]; exact h2, by rw [hr]; exact h3⟩

theorem solveThreeBody_params {stdin : List String} (hg : MassesGiven e stdin) (y0 : Vec F 12) :
    ∃ m1 m2 m3, params e [lit 0, lit 0, lit 0] stdin = [m1, m2, m3] ∧ solveThreeBody nd la e { words := stdin } u y0 fuel =
      intEquation nd la (threeBody m1 m2 m3) u y0 fuel := by
  obtain ⟨a, b, c, rest, rfl, ha, hb⟩ := hg
  obtain ⟨x, hx⟩ := Option.isSome_iff_exists.mp ha
  obtain ⟨y, hy⟩ := Option.isSome_iff_exists.mp hb
  cases hz : e.word c with
  | none => exact ⟨x, y, lit 0, by simp [params, hx, hy, hz], by simp [solveThreeBody, readParam, useParam, hx, hy, hz]⟩
  | some z => exact ⟨x, y, z, by simp [params, hx, hy, hz], by simp [solveThreeBody, readParam, useParam, hx, hy, hz]⟩

/-- the problem passed to `int_equation` -/
theorem selectEquation_problem {stdin : List String} (hI : Integrates e stdin u.eq) :
    ∃ (n : ℕ) (fn : OdeFun F n) (y0 : Vec F n), Problem e stdin u.eq n fn y0 ∧
      selectEquation nd la e { words := stdin } u fuel = intEquation nd la fn u y0 fuel := by
  have hmem : ∀ {s : String} {l : List String}, u.eq = s → s ∉ l → u.eq ∉ l := fun h1 h2 h => h2 (h1 ▸ h)
  rcases hI with h | ⟨h, hc⟩ | ⟨h, hg⟩
  · simp only [List.mem_cons, List.not_mem_nil, or_false] at h
    rcases h with h | h | h | h | h <;> rw [h] <;> unfold selectEquation <;>
      simp only [h, String.reduceEq, if_true, if_false]
    · obtain ⟨x, h1, h2⟩ := params1 (e := e) (lit 1) stdin
      exact ⟨_, _, _, .exponential h1, by simp [solveExponential, useParam, h2]⟩
    · exact ⟨_, _, _, .stiff, rfl⟩
    · obtain ⟨x, h1, h2⟩ := params1 (e := e) (lit (1 / 2)) stdin
      have hl : (5 / 10 : ℚ) = 1 / 2 := by norm_num
      exact ⟨_, _, _, .vanDerPol h1, by simp only [solveVanDerPol, useParam, hl, h2]⟩
    · obtain ⟨x, y, h1, h2, h3⟩ := params2 (e := e) (lit 1) (lit (5 / 2)) stdin
      have hl : (25 / 10 : ℚ) = 5 / 2 := by norm_num
      exact ⟨_, _, _, .brusselator h1, by simp only [solveBrusselator, useParam, hl, h2, h3]⟩
    · obtain ⟨x, y, z, h1, h2, h3, h4⟩ := params3 (e := e) (lit 28) (lit 10) (lit 8 / lit 3) stdin
      exact ⟨_, _, _, .lorenz h1, by simp only [solveLorenz, useParam, h2, h3, h4]⟩
  · rw [h]
    unfold selectEquation
    simp only [h, String.reduceEq, if_true, if_false]
    refine ⟨_, _, _, .robertson hc, ?_⟩
    obtain ⟨w, rest, rfl, hw⟩ := hc
    simp only [List.mem_cons, List.not_mem_nil, or_false] at hw
    simp [solveRobertson, hw]
  · simp only [List.mem_cons, List.not_mem_nil, or_false] at h
    rcases h with h | h <;> rw [h] <;> unfold selectEquation <;> simp only [h, String.reduceEq, if_true, if_false]
    · obtain ⟨m1, m2, m3, h1, h2⟩ := solveThreeBody_params (nd := nd) (la := la) (u := u) (fuel := fuel) hg threeBodyY0
      exact ⟨_, _, _, .threeBody hg h1, h2⟩
    · obtain ⟨m1, m2, m3, h1, h2⟩ := solveThreeBody_params (nd := nd) (la := la) (u := u) (fuel := fuel) hg threeBodyResume
      exact ⟨_, _, _, .threeBodyResume hg h1, h2⟩

theorem exampleOut_irk {m : ℤ} {o : IrkOpts F} {out} (h : irkOdeint nd la fn u.t0 u.t1 y0 o (exampleOut u) m u.dt fuel = some (.ret out)) :
    (u.outputFname = "" → out.file = [] ∧ out.tVals.length = (out.count.newtonSuccess - out.count.rejectErr) + 1) ∧
    (u.outputFname ≠ "" → out.file.length = out.count.newtonSuccess - out.count.rejectErr ∧ out.tVals = [u.t0] ∧
      out.yVals = [y0]) := by
  constructor
  · intro hu
    rw [exampleOut, if_pos hu] at h
    obtain ⟨-, h2, h3, -⟩ := C86_irk_partial (by decide) h
    refine ⟨h3 (by decide), ?_⟩
    rw [(h2 (by decide)).1, show OutOpts.dflt.interval.toNat = 1 by decide, Nat.div_one]
  · intro hu
    rw [exampleOut, if_neg hu] at h
    obtain ⟨h1, -, -, h4⟩ := C86_irk_partial (by decide) h
    refine ⟨?_, h1 (by decide)⟩
    rw [h4 (by decide), show OutOpts.dflt.setOutputStream.disableStore.interval.toNat = 1 by decide, Nat.div_one]

theorem exampleOut_erk {f : F → Vec F n → Vec F n} {m : ℤ} {o : ErkOpts F} {out}
    (h : erkOdeint nd f u.t0 u.t1 y0 o (exampleOut u) m u.dt fuel = some (.ret out)) :
    (u.outputFname = "" → out.file = []) ∧
    (u.outputFname ≠ "" → out.file.length = (out.tVals.length - 1) + out.rejectErr) := by
  constructor
  · intro hu
    rw [exampleOut, if_pos hu] at h
    exact C86_erk_no_stream (by decide) h
  · intro hu
    rw [exampleOut, if_neg hu] at h
    exact (C26_stream_partial (by decide) (erkOdeint_ret h).2).1

theorem implicitRun_of {m : ℤ} {out} {st : ℤ}
    (h : irkOdeint nd la fn u.t0 u.t1 y0 (setIrkOptions u) (exampleOut u) m u.dt fuel = some (.ret out)) (hs : out.status = st) :
    ImplicitRun nd la fn y0 u m fuel st :=
  ⟨setIrkOptions u, _, exampleOut u, out, rfl, rfl, rfl, rfl, rfl, rfl, rfl, rfl, rfl, h, hs, exampleOut_irk h⟩

theorem explicitRun_of {f : F → Vec F n → Vec F n} {m : ℤ} {out} {st : ℤ}
    (h : erkOdeint nd f u.t0 u.t1 y0 (setErkOptions u) (exampleOut u) m u.dt fuel = some (.ret out)) (hs : out.status = st) :
    ExplicitRun nd f y0 u m fuel st :=
  ⟨setErkOptions u, exampleOut u, out, rfl, rfl, rfl, rfl, rfl, h, hs, exampleOut_erk h⟩

/-- what a returned value of `int_equation` says -/
theorem intEquation_run {k : ℤ} (h : intEquation nd la fn u y0 fuel = some (.ret k)) :
    (k = -1 ∧ u.method ∉ methodNames) ∨
    ∃ (m st : ℤ), k = (if st = 0 then 0 else 2) ∧
      (((u.method, m) ∈ irkMethods ∧ ImplicitRun nd la fn y0 u m fuel st) ∨
       ((u.method, m) ∈ erkMethods ∧ ExplicitRun nd fn.fn y0 u m fuel st)) := by
  unfold intEquation at h
  simp only at h
  by_cases hm1 : ((Tables.init irkMethods).nameToMethod u.method).1 ≠ 0
  · rw [if_pos hm1] at h
    right
    cases ht : u.timeInternals with
    | none => rw [ht] at h; cases h
    | some b =>
      rw [ht] at h
      obtain ⟨r, hr, hx⟩ := Option.map_eq_some_iff.mp h
      cases r with
      | ret out =>
        refine ⟨_, out.status, ?_, Or.inl ⟨irk_code_ne _ hm1, implicitRun_of hr rfl⟩⟩
        simp only [exitOf] at hx
        by_cases hs : out.status = 0
        · rw [if_neg (not_not.mpr hs)] at hx
          rw [if_pos hs]
          cases hf : out.acceptFrac with
          | none => rw [hf] at hx; cases hx
          | some x => rw [hf] at hx; cases hx; rfl
        · rw [if_pos hs] at hx
          rw [if_neg hs]
          cases hx; rfl
      | assertFail => cases hx
      | throws => cases hx
      | ub => cases hx
  · rw [if_neg hm1] at h
    by_cases hm2 : ((Tables.init erkMethods).nameToMethod u.method).1 ≠ 0
    · rw [if_pos hm2] at h
      right
      cases ht : u.timeInternals with
      | none => rw [ht] at h; cases h
      | some b =>
        rw [ht] at h
        obtain ⟨r, hr, hx⟩ := Option.map_eq_some_iff.mp h
        cases r with
        | ret out =>
          refine ⟨_, out.status, ?_, Or.inr ⟨erk_code_ne _ hm2, explicitRun_of hr rfl⟩⟩
          simp only [exitOf] at hx
          by_cases hs : out.status = 0
          · rw [if_neg (not_not.mpr hs)] at hx
            rw [if_pos hs]
            cases hf : out.acceptFrac with
            | none => rw [hf] at hx; cases hx
            | some x => rw [hf] at hx; cases hx; rfl
          · rw [if_pos hs] at hx
            rw [if_neg hs]
            cases hx; rfl
        | assertFail => cases hx
        | throws => cases hx
        | ub => cases hx
    · rw [if_neg hm2] at h
      cases h
      exact Or.inl ⟨rfl, fun h => ((known_iff _).mp h).elim hm1 hm2⟩

/-- **C70 (what was integrated).**  If a complete command line makes the program return 0 or 2, then the problem named
by `--equation`, with the parameters from the standard input, was integrated from `t0` to `t1` with the named method,
the given tolerances and initial step and the documented output, and the status was SUCCESS for 0 and another one for 2.
It returns -1 exactly for an unknown equation or, if it would integrate, an unknown method, and 1 exactly if the Robertson
problem is not confirmed. -/
theorem C70_problem {os : List CliOpt} (hos : os ≠ []) (hi : interpret e UserOpts.dflt os = some u) (stdin : List String) {k : ℤ}
    (h : exampleMain nd la e (os.flatMap CliOpt.render) stdin fuel = some (.ret k)) :
    (k = 0 → Integrated nd la e stdin fuel u 0) ∧
    (k = 2 → ∃ st, st ≠ 0 ∧ Integrated nd la e stdin fuel u st) ∧
    (k = -1 ↔ (u.eq ∉ ["exponential", "stiff-equation", "robertson", "three-body", "three-body-resume", "van-der-pol",
      "brusselator", "lorenz"] ∨ (Integrates e stdin u.eq ∧ u.method ∉ methodNames))) ∧
    (k = 1 ↔ u.eq = "robertson" ∧ ¬ Confirmed stdin) := by
  rw [exampleMain_complete hos hi] at h
  by_cases hI : Integrates e stdin u.eq
  · obtain ⟨n, fn, y0, hP, heq⟩ := selectEquation_problem (nd := nd) (la := la) (u := u) (fuel := fuel) hI
    rw [heq] at h
    have hk1 : ¬ (u.eq = "robertson" ∧ ¬ Confirmed stdin) := by
      rintro ⟨h1, h2⟩
      rcases hI with hI | ⟨-, hI⟩ | ⟨hI, -⟩
      · rw [h1] at hI; revert hI; decide
      · exact h2 hI
      · rw [h1] at hI; revert hI; decide
    have hkn : ¬ u.eq ∉ ["exponential", "stiff-equation", "robertson", "three-body", "three-body-resume", "van-der-pol",
      "brusselator", "lorenz"] := by
      simp only [List.mem_cons, List.not_mem_nil, or_false, Integrates] at hI ⊢
      tauto
    rcases intEquation_run h with ⟨rfl, hm⟩ | ⟨m, st, rfl, hr⟩
    · exact ⟨fun h => absurd h (by decide), fun h => absurd h (by decide), ⟨fun _ => Or.inr ⟨hI, hm⟩, fun _ => rfl⟩,
        ⟨fun h => absurd h (by decide), fun h => absurd h hk1⟩⟩
    · have hm : u.method ∈ methodNames := by
        have hi' : ∀ p ∈ irkMethods, p.1 ∈ methodNames := by decide
        have he' : ∀ p ∈ erkMethods, p.1 ∈ methodNames := by decide
        rcases hr with ⟨h, -⟩ | ⟨h, -⟩
        · exact hi' _ h
        · exact he' _ h
      refine ⟨fun h0 => ?_, fun h2 => ?_, ⟨fun h1 => ?_, ?_⟩, ⟨fun h1 => ?_, fun h => absurd h hk1⟩⟩
      · by_cases hs : st = 0
        · subst hs; exact ⟨n, fn, y0, m, hP, hr⟩
        · rw [if_neg hs] at h0; exact absurd h0 (by decide)
      · by_cases hs : st = 0
        · rw [if_pos hs] at h2; exact absurd h2 (by decide)
        · exact ⟨st, hs, n, fn, y0, m, hP, hr⟩
      · exfalso
        split at h1 <;> revert h1 <;> decide
      · rintro (h | ⟨-, h⟩)
        · exact absurd h hkn
        · exact absurd hm h
      · exfalso
        split at h1 <;> revert h1 <;> decide
  · obtain ⟨-, c2, -⟩ := selectEquation_cases (nd := nd) (la := la) (e := e) (u := u) (fuel := fuel) stdin
    have h3 : u.eq ∉ ["three-body", "three-body-resume"] := by
      intro h3
      rw [c2 h3 (fun hM => hI (Or.inr (Or.inr ⟨h3, hM⟩)))] at h
      cases h
    by_cases hr : u.eq = "robertson"
    · have hc : ¬ Confirmed stdin := fun hc => hI (Or.inr (Or.inl ⟨hr, hc⟩))
      have hk : k = 1 := by
        unfold selectEquation at h
        simp only [hr, String.reduceEq, if_true, if_false] at h
        cases stdin with
        | nil => cases h; rfl
        | cons w rest =>
          have hw : ¬ (w = "Y" ∨ w = "y" ∨ w = "yes" ∨ w = "Yes") := fun hw => hc ⟨w, rest, rfl, by simpa using hw⟩
          simp only [solveRobertson, if_neg hw] at h
          cases h; rfl
      subst hk
      refine ⟨fun h => absurd h (by decide), fun h => absurd h (by decide), ⟨fun h => absurd h (by decide), ?_⟩,
        ⟨fun _ => ⟨hr, hc⟩, fun _ => rfl⟩⟩
      rintro (h | ⟨h, -⟩)
      · rw [hr] at h; exact absurd (by decide) h
      · exact absurd h hI
    · have hu : u.eq ∉ ["exponential", "stiff-equation", "robertson", "three-body", "three-body-resume", "van-der-pol",
          "brusselator", "lorenz"] := by
        simp only [List.mem_cons, List.not_mem_nil, or_false, Integrates, not_or] at hI h3 ⊢
        tauto
      have hk : k = -1 := by
        simp only [List.mem_cons, List.not_mem_nil, or_false, not_or] at hu
        unfold selectEquation at h
        simp only [hu, if_false] at h
        cases h; rfl
      subst hk
      exact ⟨fun h => absurd h (by decide), fun h => absurd h (by decide), ⟨fun _ => Or.inl hu, fun _ => rfl⟩,
        ⟨fun h => absurd h (by decide), fun h => absurd h.1 hr⟩⟩

end generic

/-- `C70_problem`: `y' = -50 y` over `[0, 20]` with an output file -/
example : ∃ fuel, exampleMain false laReal demoReader
      ["--equation", "exponential", "--time-span", "0", "20", "--time-internals", "0", "--output-file", "x.dat"] ["-50"] fuel = some (.ret 0) ∧
    ∃ n fn y0, Problem demoReader ["-50"] "exponential" n fn y0 ∧ ∃ m u, u.outputFname = "x.dat" ∧
      ImplicitRun false laReal fn y0 u m fuel 0 := by
  have hi : interpret demoReader UserOpts.dflt [.equation "exponential", .timeSpan "0" "20", .timeInternals "0", .outputFile "x.dat"] =
      some { UserOpts.dflt with eq := "exponential", t0 := 0, t1 := 20, timeInternals := some false, outputFname := "x.dat" } := by
    simp [interpret, CliOpt.effect, demoReader]
  obtain ⟨fuel, h⟩ := C70_success hi ["-50"] (Or.inr ⟨rfl, "-50", [], -50, rfl, by simp [demoReader], by norm_num⟩)
      (show "LOBATTO_IIIC_85" ∈ _ by decide) (by norm_num) (by norm_num [UserOpts.dflt]) (by norm_num [UserOpts.dflt])
      (by norm_num [UserOpts.dflt]) ⟨"0", by simp⟩
  obtain ⟨n, fn, y0, m, hP, ⟨-, hr⟩ | ⟨hm, -⟩⟩ := (C70_problem (by simp) hi ["-50"] h).1 rfl
  · exact ⟨fuel, h, n, fn, y0, hP, m, _, rfl, hr⟩
  · have : ∀ p ∈ erkMethods, p.1 ≠ "LOBATTO_IIIC_85" := by decide
    exact absurd rfl (this _ hm)

/-- a parameter that is not a number counts as 0 -/
example : params demoReader [28, 10, 8 / 3] ["x", "-50"] = [0, 10, 8 / 3] := by simp [params, demoReader]

/-! ### the state stored in the example program (C58) -/

/-- **C58, the stored state.**  The state with which `three-body-resume` starts has, up to the six digits it is written
with, the momentum of the default initial state in the first coordinate, which the shipped equation conserves
(`C58_momentum_x_partial`).  In the second coordinate, where the motion should conserve the momentum 2 just the same, the
stored state has the momentum -0.93884: no motion that conserves the momentum joins the two states.  The first two bodies are
a close pair in it (distance 0.03), the third one is more than 3000 away. -/
theorem C58_resume :
    |(threeBodyResume 6 + threeBodyResume 8 + threeBodyResume 10) - (threeBodyY0 6 + threeBodyY0 8 + threeBodyY0 10 : ℝ)| ≤
        3 / 10 ^ 5 ∧
      (threeBodyResume 7 + threeBodyResume 9 + threeBodyResume 11 : ℝ) = -(93884 / 10 ^ 5) ∧
      (threeBodyY0 7 + threeBodyY0 9 + threeBodyY0 11 : ℝ) = 2 ∧
      ((threeBodyResume 0 - threeBodyResume 2 : ℝ) ^ 2 + (threeBodyResume 1 - threeBodyResume 3) ^ 2 = 85 / 10 ^ 5) ∧
      (3245 : ℝ) ^ 2 ≤ (threeBodyResume 0 - threeBodyResume 4) ^ 2 + (threeBodyResume 1 - threeBodyResume 5) ^ 2 ∧
      (threeBodyResume 0 - threeBodyResume 4 : ℝ) ^ 2 + (threeBodyResume 1 - threeBodyResume 5) ^ 2 ≤ 3247 ^ 2 := by
  have e : (threeBodyResume : Vec ℝ 12) = ![-(161263 / 1000), 195287 / 1000, -(16126 / 100), 195316 / 1000, -(194043 / 100),
      -(251987 / 100), 210719 / 10000, -(156866 / 100000), -(217366 / 10000), 236384 / 100000, -(133533 / 100000),
      -(173402 / 100000)] := by
    unfold threeBodyResume; norm_num [lit_real]
  have e0 : (threeBodyY0 : Vec ℝ 12) = ![1, 0, 3, 2, 0, 3, 0, 2, -1, 0, -1, 0] := by
    unfold threeBodyY0; norm_num [lit_real]
  rw [e, e0]
  simp only [Matrix.cons_val]
  refine ⟨?_, by norm_num, by norm_num, by norm_num, by norm_num, by norm_num⟩
  rw [abs_le]; constructor <;> norm_num

end Verif
