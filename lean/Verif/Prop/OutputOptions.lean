import Verif.Prop.ErkTerm
import Verif.MultistepLemmas

/-!
# Property C86: what the integrators do with the output options
-/

set_option linter.unusedSectionVars false

namespace Verif

section generic
variable {F : Type} [Add F] [Sub F] [Mul F] [Div F] [Neg F] [Scalar F] {n : ℕ} {nd : Bool}
  {f : F → Vec F n → Vec F n} {t0 t1 dt : F} {y0 : Vec F n} {fuel : ℕ} {m : ℤ}

/-- **C86 (explicit).**  Of the output options the explicit integrator looks only at the stream: two calls that differ in
`output_interval` or in whether samples are to be stored have the same result. -/
theorem C86_erk_ignores {o : ErkOpts F} {oo oo' : OutOpts} (hw : oo.writeToFile = oo'.writeToFile)
    (hs : oo.streamSet = oo'.streamSet) :
    erkOdeint nd f t0 t1 y0 o oo m dt fuel = erkOdeint nd f t0 t1 y0 o oo' m dt fuel := by
  have hb : ∀ (o : ErkOpts F) (sc : SolverCoeffs F) mo, erkBody nd f t1 o oo sc mo = erkBody nd f t1 o oo' sc mo := by
    intro o sc mo
    funext s
    unfold erkBody ErkOutput.line
    rw [hw, hs]
  unfold erkOdeint erkGuts
  simp only [hb]

/-- **C86 (explicit, stream).**  Without the bit for the stream nothing is written. -/
theorem C86_erk_no_stream {o : ErkOpts F} {oo : OutOpts} {out : ErkOutput F n} (hw : oo.writeToFile = false)
    (h : erkOdeint nd f t0 t1 y0 o oo m dt fuel = some (.ret out)) : out.file = [] := by
  obtain ⟨mo, s, -, -, hr, hout⟩ := erkGuts_ret (erkOdeint_ret h).2
  have hs : s.sol.file = [] := hr.inv (Inv := fun s => s.sol.file = [])
    (by unfold erkInit; by_cases hf : (erkCoeffs m : SolverCoeffs F).fsal = true <;> simp [hf, evalFun])
    (fun a b ha hb => by
      have hcase := bodyCase nd f t1 (effOpts o (erkCoeffs m)) oo (erkCoeffs m) mo a
      rw [hb] at hcase
      obtain ⟨L, e, -⟩ := attempt_sol f (effOpts o (erkCoeffs m)) (erkCoeffs m) mo a (clipDt a.t t1 a.dt) a.sol.bump
      cases hcase with
      | accepted h hm hb2 at' hA hE hr =>
        rw [← attemptAt, ← hA] at e
        simp [accept, ErkOutput.line, hw, e, ErkOutput.bump, ha]
      | rejected h hm hb2 at' hA hE had hr =>
        rw [← attemptAt, ← hA] at e
        simp [rejectStep, ErkOutput.line, hw, e, ErkOutput.bump, ha])
  rcases hout with ⟨-, rfl⟩ | ⟨-, -, -, rfl⟩
  · exact hs
  · exact hs

/-- **C86 (implicit), what holds**: with storing disabled the result contains the initial sample only; with storing enabled,
one sample for every `output_interval`-th accepted step; without a stream nothing is written, with a stream one line for
every `output_interval`-th accepted step, whether or not samples are stored.  Missing: the explicit integrator, see
`C86_erk_ignores`. -/
theorem C86_irk_partial {la : LinAlg F} {fn : OdeFun F n} {o : IrkOpts F} {oo : OutOpts}
    {out : IrkOutput F ((irkCoeffs m : SolverCoeffs F).ns * n) n} (hk : 0 < oo.interval.toNat)
    (h : irkOdeint nd la fn t0 t1 y0 o oo m dt fuel = some (.ret out)) :
    (oo.storeInVectors = false → out.tVals = [t0] ∧ out.yVals = [y0]) ∧
    (oo.storeInVectors = true →
      out.tVals.length = (out.count.newtonSuccess - out.count.rejectErr) / oo.interval.toNat + 1 ∧
      out.yVals.length = out.tVals.length) ∧
    (oo.writeToFile = false → out.file = []) ∧
    (oo.writeToFile = true → out.file.length = (out.count.newtonSuccess - out.count.rejectErr) / oo.interval.toNat) := by
  obtain ⟨o', hg⟩ := irkOdeint_guts h
  obtain ⟨no, Ai, -, -, acc, h1, -, h3, ⟨rec, hrec, e1, e2, -⟩, -, -, hf⟩ := C38_records hg
  have hl : (everyNth oo.interval.toNat acc).length =
      (out.count.newtonSuccess - out.count.rejectErr) / oo.interval.toNat + 1 := by
    rw [everyNth_length hk, h3, show out.count.newtonSuccess - out.count.rejectErr + 1 + oo.interval.toNat - 1 =
      (out.count.newtonSuccess - out.count.rejectErr) + oo.interval.toNat by omega, Nat.add_div_right _ hk]
  refine ⟨fun hs => ?_, fun hs => ?_, fun hw => by rw [hf, hw]; rfl, fun hw => ?_⟩
  · rw [hs] at hrec
    cases acc with
    | nil => cases h1
    | cons x l =>
      simp only [List.head?_cons, Option.some.injEq] at h1
      rw [e1, e2, hrec, h1]
      exact ⟨rfl, rfl⟩
  · rw [hs, if_pos rfl] at hrec
    rw [e1, e2, List.length_map, List.length_map, hrec, hl]
    exact ⟨rfl, rfl⟩
  · rw [hf, hw, if_pos rfl, List.length_map, List.length_tail, hl, Nat.add_sub_cancel]

end generic

/-- **C86, the claim** for the explicit integrator: with storing disabled at most the initial sample is stored. -/
def C86_claim : Prop :=
  ∀ (n : ℕ) (nd : Bool) (f : ℝ → Vec ℝ n → Vec ℝ n) (t0 t1 : ℝ) (y0 : Vec ℝ n) (o : ErkOpts ℝ) (oo : OutOpts) (m : ℤ)
    (dt : ℝ) (fuel : ℕ) (out : ErkOutput ℝ n), oo.storeInVectors = false →
    erkOdeint nd f t0 t1 y0 o oo m dt fuel = some (.ret out) → out.tVals.length ≤ 1

/-- options for the counterexample: fixed steps -/
noncomputable def fixedOpts : ErkOpts ℝ := { adaptive := false, relTol := 1, absTol := 1, maxDt := 0, maxSteps := -1 }

/-- **C86 is false of the explicit integrator**: `disable_store_in_vectors` has no effect; a run of Euler's method over
`[0,1]` with `dt = 1` stores both samples. -/
theorem C86_refuted : ¬ C86_claim := by
  intro h
  obtain ⟨fuel, out, h1, -, h3⟩ := C19_fixed_grid (n := 1) (nd := false) (f := fun _ y => y) (t0 := 0) (t1 := 1)
    (y0 := fun _ => 1) (o := fixedOpts) (oo := OutOpts.dflt.disableStore) (dt := 1) (m := 100) (by decide)
    (fun h => by revert h; decide) (Or.inl rfl) (by norm_num) one_pos (Or.inl (by norm_num [fixedOpts]))
  have := h 1 false (fun _ y => y) 0 1 (fun _ => 1) _ _ 100 1 fuel out (by decide) h1
  rw [h3] at this
  norm_num at this

/-- `C86_erk_ignores`: storing on or off, every step or every tenth -/
example (f : ℝ → Vec ℝ 2 → Vec ℝ 2) (y0 : Vec ℝ 2) (fuel : ℕ) :
    erkOdeint false f 0 1 y0 fixedOpts OutOpts.dflt 131 (1 / 100) fuel =
      erkOdeint false f 0 1 y0 fixedOpts { OutOpts.dflt.disableStore with interval := 10 } 131 (1 / 100) fuel :=
  C86_erk_ignores (by decide) (by decide)

/-- `C86_erk_no_stream` applies to a run that exists -/
example : ∃ fuel out, erkOdeint (F := ℝ) (n := 1) false (fun _ y => y) 0 1 (fun _ => 1) fixedOpts OutOpts.dflt 110 (2 / 5) fuel =
    some (.ret out) ∧ out.file = [] := by
  obtain ⟨fuel, out, h1, -⟩ := C19_fixed_grid (n := 1) (nd := false) (f := fun _ y => y) (t0 := 0) (t1 := 1)
    (y0 := fun _ => 1) (o := fixedOpts) (oo := OutOpts.dflt) (dt := 2 / 5) (m := 110) (by decide)
    (fun h => by revert h; decide) (Or.inl rfl) (by norm_num) one_pos (Or.inl (by norm_num [fixedOpts]))
  exact ⟨fuel, out, h1, C86_erk_no_stream (by decide) h1⟩

end Verif
