import Verif.Prop.ExampleRun
import Verif.Prop.ErkGrowth

/-!
# Property C70 for the explicit methods: when the example program succeeds
-/

set_option linter.unusedSectionVars false

namespace Verif
open Spec TestEq

section
variable {e : TextNum ℝ} {la : LinAlg ℝ} {nd : Bool} {n : ℕ} {fn : OdeFun ℝ n} {u : UserOpts ℝ} {y0 : Vec ℝ n}

/-- the explicit methods by name, those without embedded formula first -/
theorem explicit_codes :
    (∀ s ∈ ["EXPLICIT_EULER", "RUNGE_KUTTA_4"], ((Tables.init irkMethods).nameToMethod s).1 = 0 ∧
      ((Tables.init erkMethods).nameToMethod s).1 ∈ ([100, 110] : List ℤ)) ∧
    ∀ s ∈ ["BOGACKI_SHAMPINE_32", "CASH_KARP_54", "DORMAND_PRINCE_54", "FEHLBERG_54"],
      ((Tables.init irkMethods).nameToMethod s).1 = 0 ∧
      ((Tables.init erkMethods).nameToMethod s).1 ∈ ([120, 130, 131, 132] : List ℤ) := by decide

/-- the exit status of a successful run of the explicit integrator -/
theorem intEquation_erk (hc : ((Tables.init irkMethods).nameToMethod u.method).1 = 0)
    (hc' : ((Tables.init erkMethods).nameToMethod u.method).1 ≠ 0) (hti : u.timeInternals ≠ none) {fuel : ℕ} {out}
    (h1 : erkOdeint nd fn.fn u.t0 u.t1 y0 (setErkOptions u) (exampleOut u)
      ((Tables.init erkMethods).nameToMethod u.method).1 u.dt fuel = some (.ret out)) (h2 : out.status = 0) :
    intEquation nd la fn u y0 fuel = some (.ret 0) := by
  obtain ⟨b, hb⟩ := Option.ne_none_iff_exists'.mp hti
  unfold intEquation
  simp only [hc, ne_eq, not_true_eq_false, if_false, hc', not_false_eq_true, if_true, hb, h1, Option.map_some, exitOf, h2]
  cases hfr : out.acceptFrac with
  | none => exact absurd hfr (erkOdeint_frac h1 h2)
  | some x => simp

theorem intEquation_fixed (hm : u.method ∈ ["EXPLICIT_EULER", "RUNGE_KUTTA_4"]) (ht : u.t0 < u.t1) (hdt : 0 < u.dt)
    (hti : u.timeInternals ≠ none) : ∃ fuel, intEquation nd la fn u y0 fuel = some (.ret 0) := by
  obtain ⟨h1, h2⟩ := explicit_codes.1 _ hm
  simp only [List.mem_cons, List.not_mem_nil, or_false] at h2
  obtain ⟨fuel, out, h3, h4, -⟩ := C19_fixed_grid (nd := nd) (f := fn.fn) (t0 := u.t0) (t1 := u.t1) (y0 := y0)
    (o := setErkOptions u) (oo := exampleOut u) (dt := u.dt) (m := ((Tables.init erkMethods).nameToMethod u.method).1)
    (by rcases h2 with h | h <;> rw [h] <;> decide) (exampleOut_stream u)
    (Or.inr (by rcases h2 with h | h <;> rw [h] <;> simp [erkCoeffs, explicitEuler, rungeKutta4])) hdt ht
    (Or.inl (show (-1 : ℤ) < 0 by decide))
  exact ⟨fuel, intEquation_erk h1 (by rcases h2 with h | h <;> rw [h] <;> decide) hti h3 h4⟩

theorem intEquation_growth {α β : ℝ} (hf : ∀ t y, ‖fn.fn t y‖ ≤ α + β * ‖y‖)
    (hm : u.method ∈ ["BOGACKI_SHAMPINE_32", "CASH_KARP_54", "DORMAND_PRINCE_54", "FEHLBERG_54"]) (ht : u.t0 < u.t1)
    (hdt : 0 < u.dt) (hat : 0 < u.absTol) (hrt : 0 ≤ u.relTol) (hti : u.timeInternals ≠ none) :
    ∃ fuel, intEquation nd la fn u y0 fuel = some (.ret 0) := by
  obtain ⟨h1, h2⟩ := explicit_codes.2 _ hm
  simp only [List.mem_cons, List.not_mem_nil, or_false] at h2
  obtain ⟨fuel, out, h3, h4⟩ := C73_adaptive_terminates (nd := nd) (f := fn.fn) (t0 := u.t0) (t1 := u.t1) (y0 := y0)
    (o := setErkOptions u) (oo := exampleOut u) (dt := u.dt) (m := ((Tables.init erkMethods).nameToMethod u.method).1)
    (by rcases h2 with h | h | h | h <;> rw [h] <;> decide) (exampleOut_stream u) rfl
    (by rcases h2 with h | h | h | h <;> rw [h] <;>
      simp [erkCoeffs, bogackiShampine32, cashKarp54, dormandPrince54, fehlberg54]) hat hrt
    (fun t y _ _ => hf t y) hdt ht
  exact ⟨fuel, intEquation_erk h1 (by rcases h2 with h | h | h | h <;> rw [h] <;> decide) hti h3
    (h4 (show (-1 : ℤ) < 0 by decide))⟩

/-- the equation and initial value do not depend on the fuel -/
theorem selectEquation_uniform (stdin : List String) (h : Integrates e stdin u.eq) :
    ∃ (n : ℕ) (fn : OdeFun ℝ n) (y0 : Vec ℝ n), ∀ fuel,
      selectEquation nd la e { words := stdin } u fuel = intEquation nd la fn u y0 fuel := by
  have hthree : ∀ (y0 : Vec ℝ 12), MassesGiven e stdin → ∃ (n : ℕ) (fn : OdeFun ℝ n) (y1 : Vec ℝ n), ∀ fuel,
      solveThreeBody nd la e { words := stdin } u y0 fuel = intEquation nd la fn u y1 fuel := by
    rintro y0 ⟨a, b, c, rest, rfl, ha, hb⟩
    obtain ⟨x, hx⟩ := Option.isSome_iff_exists.mp ha
    obtain ⟨y, hy⟩ := Option.isSome_iff_exists.mp hb
    cases hz : e.word c with
    | none => exact ⟨12, threeBody x y (lit 0), y0, fun fuel => by simp [solveThreeBody, readParam, useParam, hx, hy, hz]⟩
    | some z => exact ⟨12, threeBody x y z, y0, fun fuel => by simp [solveThreeBody, readParam, useParam, hx, hy, hz]⟩
  unfold selectEquation
  rcases h with h | ⟨h, w, rest, rfl, hw⟩ | ⟨h, hM⟩
  · simp only [List.mem_cons, List.not_mem_nil, or_false] at h
    rcases h with h | h | h | h | h <;> simp only [h, if_true, String.reduceEq, if_false]
    · obtain ⟨v, hv⟩ := readParam_some (e := e) { words := stdin } (lit 1)
      exact ⟨1, exponential v, ![lit 1], fun fuel => by simp only [solveExponential, useParam, hv]⟩
    · exact ⟨2, stiffEq, ![lit 1, lit 1], fun _ => rfl⟩
    · obtain ⟨v, hv⟩ := readParam_some (e := e) { words := stdin } (lit (5 / 10))
      exact ⟨2, vdpol v, ![lit 2, lit 0], fun fuel => by simp only [solveVanDerPol, useParam, hv]⟩
    · obtain ⟨v, hv⟩ := readParam_some (e := e) { words := stdin } (lit 1)
      obtain ⟨w, hw⟩ := readParam_some (e := e) (readParam e { words := stdin } (some (lit 1))).2 (lit (25 / 10))
      exact ⟨2, bruss v w, ![lit (25 / 10), lit (25 / 10)], fun fuel => by simp only [solveBrusselator, useParam, hv, hw]⟩
    · obtain ⟨v, hv⟩ := readParam_some (e := e) { words := stdin } (lit 28)
      obtain ⟨w, hw⟩ := readParam_some (e := e) (readParam e { words := stdin } (some (lit 28))).2 (lit 10)
      obtain ⟨x, hx⟩ := readParam_some (e := e)
        (readParam e (readParam e { words := stdin } (some (lit 28))).2 (some (lit 10))).2 (lit 8 / lit 3)
      exact ⟨3, lorenz w v x, ![lit 1, lit 1, lit 1], fun fuel => by simp only [solveLorenz, useParam, hv, hw, hx]⟩
  · simp only [List.mem_cons, List.not_mem_nil, or_false] at hw
    simp only [h, if_true, String.reduceEq, if_false]
    exact ⟨3, rober, ![lit 1, lit 0, lit 0], fun fuel => by simp [solveRobertson, hw]⟩
  · simp only [List.mem_cons, List.not_mem_nil, or_false] at h
    rcases h with h | h <;> simp only [h, if_true, String.reduceEq, if_false]
    · exact hthree _ hM
    · exact hthree _ hM

/-- **C70 (fixed steps, whole program).**  In exact arithmetic, with `EXPLICIT_EULER` or `RUNGE_KUTTA_4`, a forward time
span, a positive initial step and `--time-internals`, the program returns 0 for every equation it knows, as soon as the
standard input confirms the Robertson problem or provides the masses of the three-body problem. -/
theorem C70_fixed_step {os : List CliOpt} {u' : UserOpts ℝ} (hi : interpret e UserOpts.dflt os = some u') (stdin : List String)
    (heq : Integrates e stdin u'.eq) (hm : u'.method ∈ ["EXPLICIT_EULER", "RUNGE_KUTTA_4"])
    (ht : u'.t0 < u'.t1) (hdt : 0 < u'.dt) (hti : ∃ a, CliOpt.timeInternals a ∈ os) :
    ∃ fuel, exampleMain nd la e (os.flatMap CliOpt.render) stdin fuel = some (.ret 0) := by
  obtain ⟨a, ha⟩ := hti
  have hti' : u'.timeInternals ≠ none := fun h => ((interpret_timing os hi).mp h).2 a ha
  obtain ⟨n, fn, y0, h⟩ := selectEquation_uniform (nd := nd) (la := la) (e := e) (u := u') stdin heq
  obtain ⟨fuel, hf⟩ := intEquation_fixed (nd := nd) (la := la) (fn := fn) (y0 := y0) hm ht hdt hti'
  exact ⟨fuel, by rw [exampleMain_complete (List.ne_nil_of_mem ha) hi, h, hf]⟩

/-- **C70 (explicit adaptive methods, whole program).**  In exact arithmetic, the stiff test equation or the exponential
equation with any rate on the standard input (or none), with an explicit embedded method, a forward time span, a positive
initial step, `abs_tol > 0`, `rel_tol ≥ 0` and `--time-internals`: the program returns 0. -/
theorem C70_explicit {os : List CliOpt} {u' : UserOpts ℝ} (hi : interpret e UserOpts.dflt os = some u') (stdin : List String)
    (heq : u'.eq = "stiff-equation" ∨ u'.eq = "exponential")
    (hm : u'.method ∈ ["BOGACKI_SHAMPINE_32", "CASH_KARP_54", "DORMAND_PRINCE_54", "FEHLBERG_54"])
    (ht : u'.t0 < u'.t1) (hdt : 0 < u'.dt) (hat : 0 < u'.absTol) (hrt : 0 ≤ u'.relTol)
    (hti : ∃ a, CliOpt.timeInternals a ∈ os) :
    ∃ fuel, exampleMain nd la e (os.flatMap CliOpt.render) stdin fuel = some (.ret 0) := by
  obtain ⟨a, ha⟩ := hti
  have hti' : u'.timeInternals ≠ none := fun h => ((interpret_timing os hi).mp h).2 a ha
  simp only [exampleMain_complete (List.ne_nil_of_mem ha) hi]
  rcases heq with h | h
  · simp only [selectEquation, h, if_true, String.reduceEq, if_false, solveStiff]
    refine intEquation_growth (α := 0) (β := 2001) (fun t y => ?_) hm ht hdt hat hrt hti'
    have hy := norm_nonneg y
    rw [pi_norm_le_iff_of_nonneg (by positivity)]
    intro i
    have n0 := norm_le_pi_norm y 0
    have n1 := norm_le_pi_norm y 1
    rw [Real.norm_eq_abs] at n0 n1
    fin_cases i
    · simp [stiffEq, stiffA, mulVec, sumFin_real, Fin.sum_univ_two]
      linarith
    · simp [stiffEq, stiffA, mulVec, sumFin_real, Fin.sum_univ_two]
      refine (abs_add_le _ _).trans ?_
      rw [abs_neg, abs_neg, abs_mul, abs_mul]
      norm_num
      linarith
  · obtain ⟨l, hl⟩ := readParam_some (e := e) { words := stdin } (lit 1)
    simp only [selectEquation, h, if_true, solveExponential, hl, useParam]
    refine intEquation_growth (α := 0) (β := |l|) (fun t y => ?_) hm ht hdt hat hrt hti'
    rw [pi_norm_le_iff_of_nonneg (by positivity)]
    intro i
    simp only [exponential, norm_mul, Real.norm_eq_abs, zero_add]
    exact mul_le_mul_of_nonneg_left (norm_le_pi_norm y i) (abs_nonneg _)

/-- `C70_explicit`: an unknown word on the standard input, growing solution -/
example : ∃ fuel, exampleMain true laReal demoReader
    ["--equation", "exponential", "--time-span", "0", "20", "--method", "DORMAND_PRINCE_54", "--time-internals", "0"]
      ["what"] fuel = some (.ret 0) :=
  C70_explicit (os := [.equation "exponential", .timeSpan "0" "20", .method "DORMAND_PRINCE_54", .timeInternals "0"])
    (u' := { UserOpts.dflt with eq := "exponential", t0 := 0, t1 := 20, method := "DORMAND_PRINCE_54", timeInternals := some false })
    (by simp [interpret, CliOpt.effect, demoReader]) ["what"] (Or.inr rfl) (show "DORMAND_PRINCE_54" ∈ _ by decide)
    (by norm_num) (by norm_num [UserOpts.dflt]) (by norm_num [UserOpts.dflt]) (by norm_num [UserOpts.dflt]) ⟨"0", by simp⟩

/-- `C70_fixed_step`: the Robertson problem with RK4 -/
example : ∃ fuel, exampleMain true laReal demoReader
    ["--equation", "robertson", "--method", "RUNGE_KUTTA_4", "--time-internals", "0"] ["yes"] fuel = some (.ret 0) :=
  C70_fixed_step (os := [.equation "robertson", .method "RUNGE_KUTTA_4", .timeInternals "0"])
    (u' := { UserOpts.dflt with eq := "robertson", method := "RUNGE_KUTTA_4", timeInternals := some false })
    (by simp [interpret, CliOpt.effect, demoReader]) ["yes"] (Or.inr (Or.inl ⟨rfl, "yes", [], rfl, by decide⟩))
    (show "RUNGE_KUTTA_4" ∈ _ by decide)
    (by norm_num [UserOpts.dflt]) (by norm_num [UserOpts.dflt]) ⟨"0", by simp⟩

end
end Verif
