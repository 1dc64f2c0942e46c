import Verif.Prop.ErkTerm

/-!
# Property C16: first-same-as-last is an optimisation only
-/

namespace Verif
variable {n : ℕ} {nd : Bool} {f : ℝ → Vec ℝ n → Vec ℝ n} {t0 t1 : ℝ} {y0 : Vec ℝ n}
  {o : ErkOpts ℝ} {dt : ℝ} {sc : SolverCoeffs ℝ} {oo : OutOpts} {mo : ℕ}

/-- the same coefficients with the reuse of the last stage turned off -/
def noFsal (sc : SolverCoeffs ℝ) : SolverCoeffs ℝ := { sc with fsal := false }

/-- an output without the number and log of right-hand-side evaluations -/
def ErkOutput.strip (out : ErkOutput ℝ n) : ErkOutput ℝ n :=
  { out with funEvals := 0, calls := [] }

/-- outcome without evaluation counts -/
def stripOutcome : Outcome (ErkOutput ℝ n) → Outcome (ErkOutput ℝ n)
  | .ret a => .ret a.strip
  | .assertFail => .assertFail
  | .throws => .throws
  | .ub => .ub

/-- simulation relation: everything but the stage matrix and the evaluation counts agrees -/
structure FsalSim (f : ℝ → Vec ℝ n → Vec ℝ n) (sc : SolverCoeffs ℝ) (s s' : ErkState ℝ n) : Prop where
  inv : FsalInv f sc s
  t : s.t = s'.t
  dt : s.dt = s'.dt
  y : s.y = s'.y
  step : s.step = s'.step
  err : s.err = s'.err
  errEst : s.errEst = s'.errEst
  sol : s.sol.strip = s'.sol.strip

theorem combine_congr {K K' : ℕ → Vec ℝ n} (h : ∀ i, i < sc.ns → K i = K' i) (w : ℕ → ℝ) :
    combine sc K w = combine sc K' w := by
  funext k
  rw [combine_real, combine_real]
  apply Finset.sum_congr rfl
  intro j hj
  rw [h j (Finset.mem_range.mp hj)]

theorem ksList_congr {K K' : ℕ → Vec ℝ n} (h : ∀ i, i < sc.ns → K i = K' i) :
    ksList sc K = ksList sc K' := by
  unfold ksList
  apply List.map_congr_left
  intro j hj
  exact h j (List.mem_range.mp hj)

/-- the stages do not depend on the reuse -/
theorem fsal_stages (hfs : sc.fsal = true → FsalOK sc) {s s' : ErkState ℝ n}
    (h : FsalSim f sc s s') : ∀ i, i < sc.ns →
      (attemptAt f t1 o sc mo s).Ks i = (attemptAt f t1 o (noFsal sc) mo s').Ks i := by
  intro i
  induction i using Nat.strong_induction_on with
  | _ i ih =>
    intro hi
    have h1 := attempt_stages (t1 := t1) (o := o) (mo := mo) hfs h.inv i hi
    have h2 := attempt_stages (f := f) (t1 := t1) (o := o) (mo := mo) (sc := noFsal sc) (s := s')
      (fun hc => by cases hc) (fun hc => by cases hc) i hi
    have d1 := attempt_dt (f := f) (t1 := t1) (o := o) (sc := sc) (mo := mo) s
    have d2 := attempt_dt (f := f) (t1 := t1) (o := o) (sc := noFsal sc) (mo := mo) s'
    have hd : (attemptAt f t1 o sc mo s).dt = (attemptAt f t1 o (noFsal sc) mo s').dt := by
      rw [d1, d2, h.t, h.dt]
    have hc := stageArg_congr sc (attemptAt f t1 o sc mo s).dt s.y (i := i)
      (fun j hj => ih j hj (by omega))
    refine h1.trans (Eq.trans ?_ h2.symm)
    rw [hc, h.y, h.t, hd]
    rfl

theorem fsal_step (hex : Explicit sc) (hfs : sc.fsal = true → FsalOK sc) {s s' : ErkState ℝ n}
    (h : FsalSim f sc s s') :
    StepRel (FsalSim f sc) (fun r r' => stripOutcome r = stripOutcome r')
      (erkBody nd f t1 o oo sc mo s) (erkBody nd f t1 o oo (noFsal sc) mo s') := by
  have hK := fsal_stages (t1 := t1) (o := o) (mo := mo) hfs h
  have d1 := attempt_dt (f := f) (t1 := t1) (o := o) (sc := sc) (mo := mo) s
  have d2 := attempt_dt (f := f) (t1 := t1) (o := o) (sc := noFsal sc) (mo := mo) s'
  have hd : (attemptAt f t1 o sc mo s).dt = (attemptAt f t1 o (noFsal sc) mo s').dt := by
    rw [d1, d2, h.t, h.dt]
  have y1 := attempt_yn (f := f) (t1 := t1) (o := o) (sc := sc) (mo := mo) s
  have y2 := attempt_yn (f := f) (t1 := t1) (o := o) (sc := noFsal sc) (mo := mo) s'
  have hy : (attemptAt f t1 o sc mo s).yn = (attemptAt f t1 o (noFsal sc) mo s').yn := by
    refine y1.trans (Eq.trans ?_ y2.symm)
    rw [combine_congr (sc := sc) hK, h.y, hd]
    rfl
  obtain ⟨L1, e1, -⟩ := attempt_sol f o sc mo s (clipDt s.t t1 s.dt) s.sol.bump
  obtain ⟨L2, e2, -⟩ := attempt_sol f o (noFsal sc) mo s' (clipDt s'.t t1 s'.dt) s'.sol.bump
  rw [← attemptAt] at e1 e2
  -- error control
  have hE : (attemptAt f t1 o sc mo s).errTot = (attemptAt f t1 o (noFsal sc) mo s').errTot ∧
      (attemptAt f t1 o sc mo s).err = (attemptAt f t1 o (noFsal sc) mo s').err ∧
      (attemptAt f t1 o sc mo s).errEst = (attemptAt f t1 o (noFsal sc) mo s').errEst ∧
      (attemptAt f t1 o sc mo s).newDt = (attemptAt f t1 o (noFsal sc) mo s').newDt ∧
      (attemptAt f t1 o sc mo s).reject = (attemptAt f t1 o (noFsal sc) mo s').reject := by
    cases had : o.adaptive with
    | false =>
      obtain ⟨a1, a2, a3, a4⟩ := attempt_fixed (f := f) (t1 := t1) (sc := sc) (mo := mo) had s
      obtain ⟨b1, b2, b3, b4⟩ :=
        attempt_fixed (f := f) (t1 := t1) (sc := noFsal sc) (mo := mo) had s'
      refine ⟨?_, by rw [a1, b1, h.err], by rw [a4, b4, h.errEst], by rw [a2, b2, hd],
        by rw [a3, b3]⟩
      simp [attemptAt, attempt, had]
    | true =>
      obtain ⟨a1, a2, a3, a4, a5⟩ := attempt_adaptive (f := f) (t1 := t1) (sc := sc) (mo := mo) had s
      obtain ⟨b1, b2, b3, b4, b5⟩ :=
        attempt_adaptive (f := f) (t1 := t1) (sc := noFsal sc) (mo := mo) had s'
      have hee : (attemptAt f t1 o sc mo s).errEst = (attemptAt f t1 o (noFsal sc) mo s').errEst := by
        rw [a5, b5, combine_congr (sc := sc) hK, combine_congr (sc := sc) hK, hd]
        rfl
      have het : (attemptAt f t1 o sc mo s).errTot = (attemptAt f t1 o (noFsal sc) mo s').errTot := by
        rw [a4, b4, hee, hy, h.y]
      have her : (attemptAt f t1 o sc mo s).err = (attemptAt f t1 o (noFsal sc) mo s').err := by
        rw [a1, b1, het]
      exact ⟨het, her, hee, by rw [a2, b2, her, hd], by rw [a3, b3, her]⟩
  obtain ⟨hE1, hE2, hE3, hE4, hE5⟩ := hE
  have hsol : ∀ yn, ((attemptAt f t1 o sc mo s).sol.line oo s.t yn).strip =
      ((attemptAt f t1 o (noFsal sc) mo s').sol.line oo s'.t yn).strip := by
    intro yn
    have hs := h.sol
    simp only [ErkOutput.strip, ErkOutput.mk.injEq] at hs
    rw [e1, e2, hE5, h.t]
    cases hw : oo.writeToFile <;> simp [ErkOutput.line, hw, ErkOutput.strip, ErkOutput.bump, hs]
  have hks : ksList sc (attemptAt f t1 o sc mo s).Ks =
      ksList (noFsal sc) (attemptAt f t1 o (noFsal sc) mo s').Ks := by
    rw [ksList_congr (sc := sc) hK]; rfl
  -- next states
  have hacc : FsalInv f sc (accept sc s (attemptAt f t1 o sc mo s)
      ((attemptAt f t1 o sc mo s).sol.line oo s.t (attemptAt f t1 o sc mo s).yn)) := by
    intro hfsal
    have := attempt_fsal_last (t1 := t1) (o := o) (mo := mo) hfs hex h.inv hfsal
    simp only [accept, fsalHook, hfsal, if_true, Function.update_self]
    exact this
  have hrejI : FsalInv f sc (rejectStep s (attemptAt f t1 o sc mo s)
      ((attemptAt f t1 o sc mo s).sol.line oo s.t (attemptAt f t1 o sc mo s).yn)) := by
    intro hfsal
    obtain ⟨L, -, -, -, e, hlo, -⟩ := attempt_sol f o sc mo s (clipDt s.t t1 s.dt) s.sol.bump
    simp only [rejectStep]
    exact (hlo 0 (by simp [stageStart, hfsal])).trans (h.inv hfsal)
  unfold erkBody
  have hb2 : (noFsal sc).b2 = sc.b2 := rfl
  have hns : (noFsal sc).ns = sc.ns := rfl
  have hs := h.sol
  simp only [ErkOutput.strip, ErkOutput.mk.injEq] at hs
  rw [← h.t, ← h.step, hb2, hns]
  by_cases g1 : ltb s.t t1 = true
  swap
  · rw [if_neg g1, if_neg g1]
    refine .done ?_
    simp [stripOutcome, ErkOutput.strip, hs]
  rw [if_pos g1, if_pos g1]
  by_cases g2 : 0 ≤ o.maxSteps ∧ o.maxSteps < s.step
  · rw [if_pos g2, if_pos g2]
    refine .done ?_
    simp [stripOutcome, ErkOutput.strip, ErkOutput.bump, hs]
  rw [if_neg g2, if_neg g2]
  by_cases g3 : o.adaptive ∧ sc.b2.length ≠ sc.ns
  · rw [if_pos g3, if_pos g3]; exact .done rfl
  rw [if_neg g3, if_neg g3]
  simp only [← hE1, ← hE5]
  by_cases g4 : (o.adaptive && !nd && !leb (lit 0) (attemptAt f t1 o sc mo s).errTot) = true
  · rw [if_pos g4, if_pos g4]; exact .done rfl
  rw [if_neg g4, if_neg g4]
  by_cases g5 : (oo.writeToFile && !oo.streamSet) = true
  · rw [if_pos g5, if_pos g5]; exact .done rfl
  rw [if_neg g5, if_neg g5]
  have hl := hsol (attemptAt f t1 o sc mo s).yn
  by_cases g6 : (!o.adaptive || !(attemptAt f t1 o sc mo s).reject) = true
  · rw [if_pos g6, if_pos g6]
    refine .next ⟨hacc, ?_, hE4, hy, ?_, hE2, hE3, ?_⟩
    · simp only [accept]; rw [← hd, h.t]
    · simp [accept, h.step]
    · rw [h.t] at hl
      simp only [ErkOutput.strip, ErkOutput.mk.injEq] at hl
      simp [accept, ErkOutput.strip, hl, hd, ← hy, hks, hE2, hE3, h.t]
  · rw [if_neg g6, if_neg g6]
    refine .next ⟨hrejI, h.t, hE4, h.y, h.step, hE2, hE3, ?_⟩
    simp only [rejectStep]
    rw [← hy, hl, h.t]

/-- **C16.**  For every tableau with the first-same-as-last structure, every input and every number of loop passes:
the run with the reuse and the run without it both go on, or end with the same outcome up to the evaluation
count. -/
theorem C16_guts (hex : Explicit sc) (hfs : sc.fsal = true → FsalOK sc) (fuel : ℕ) :
    (erkGuts nd f t0 t1 y0 o dt sc oo fuel).map stripOutcome =
      (erkGuts nd f t0 t1 y0 o dt (noFsal sc) oo fuel).map stripOutcome := by
  unfold erkGuts
  simp only
  have hmo : minOrder (noFsal sc) = minOrder sc := rfl
  rw [hmo]
  split_ifs with h1
  · rfl
  · cases minOrder sc with
    | none => rfl
    | some mo =>
      have hinit : FsalSim f sc (erkInit f t0 y0 (clipDt t0 t1 dt) sc)
          (erkInit f t0 y0 (clipDt t0 t1 dt) (noFsal sc)) := by
        refine ⟨fsalInv_init, ?_, ?_, ?_, ?_, ?_, ?_, ?_⟩ <;>
          · unfold erkInit
            by_cases hf : sc.fsal = true <;>
              simp [hf, noFsal, evalFun, ErkOutput.strip, ksList, SolverCoeffs.ns]
      rcases runLoop_sim (fun s s' h => fsal_step (nd := nd) (t1 := t1) (o := o) (oo := oo)
        (mo := mo) hex hfs h) fuel hinit with ⟨a, b⟩ | ⟨r, r', a, b, c⟩
      · show Option.map _ (runLoop _ _ _) = Option.map _ (runLoop _ _ _)
        exact (congrArg (Option.map stripOutcome) a).trans
          (congrArg (Option.map stripOutcome) b).symm
      · show Option.map _ (runLoop _ _ _) = Option.map _ (runLoop _ _ _)
        refine (congrArg (Option.map stripOutcome) a).trans
          (Eq.trans ?_ (congrArg (Option.map stripOutcome) b).symm)
        simp [c]

/-- Bogacki–Shampine, `y' = y` with tight tolerances, any number of passes -/
example (fuel : ℕ) :
    (erkGuts (F := ℝ) (n := 1) false (fun _ y => y) 0 1 (fun _ => 1)
      { adaptive := true, relTol := 0, absTol := 1 / 10 ^ 6, maxDt := 0, maxSteps := 7 } 1 bogackiShampine32 OutOpts.dflt
      fuel).map stripOutcome =
    (erkGuts (F := ℝ) (n := 1) false (fun _ y => y) 0 1 (fun _ => 1)
      { adaptive := true, relTol := 0, absTol := 1 / 10 ^ 6, maxDt := 0, maxSteps := 7 } 1 (noFsal bogackiShampine32)
      OutOpts.dflt fuel).map stripOutcome := by
  obtain ⟨hex, hfs, -⟩ := shipped_facts (m := 120) (by decide)
  exact C16_guts hex hfs fuel

/-- **C16 (shipped methods).** -/
theorem C16_fsal_transparent {m : ℤ} (hm : m ∈ erkImplemented) (fuel : ℕ) :
    (erkGuts nd f t0 t1 y0 o dt (erkCoeffs m) oo fuel).map stripOutcome =
      (erkGuts nd f t0 t1 y0 o dt (noFsal (erkCoeffs m)) oo fuel).map stripOutcome := by
  obtain ⟨hex, hfs, -⟩ := shipped_facts hm
  exact C16_guts hex hfs fuel

/-- the two shipped methods concerned -/
example : (erkCoeffs 120 : SolverCoeffs ℝ).fsal = true ∧ (erkCoeffs 131 : SolverCoeffs ℝ).fsal = true := by
  simp [erkCoeffs, bogackiShampine32, dormandPrince54]

/-- a run of Dormand–Prince on `y' = 1` that returns, with and without the reuse -/
example : ∃ fuel out out', erkGuts (n := 1) false (fun _ _ _ => (1 : ℝ)) 0 1 (fun _ => 0)
      { adaptive := true, relTol := 1, absTol := 1, maxDt := 0, maxSteps := -1 } 1 (erkCoeffs 131)
      OutOpts.dflt fuel = some (.ret out) ∧
    erkGuts (n := 1) false (fun _ _ _ => (1 : ℝ)) 0 1 (fun _ => 0)
      { adaptive := true, relTol := 1, absTol := 1, maxDt := 0, maxSteps := -1 } 1
      (noFsal (erkCoeffs 131)) OutOpts.dflt fuel = some (.ret out') ∧ out.strip = out'.strip := by
  obtain ⟨fuel, out, h1, -⟩ := C20_adaptive_terminates (n := 1) (nd := false)
    (f := fun _ _ _ => (1 : ℝ)) (t0 := 0) (t1 := 1) (y0 := fun _ => 0)
    (o := { adaptive := true, relTol := 1, absTol := 1, maxDt := 0, maxSteps := -1 })
    (oo := OutOpts.dflt) (dt := 1) (m := 131) (M := 1) (by decide)
    (fun h => by revert h; decide) rfl
    (by simp [erkCoeffs, dormandPrince54]) one_pos zero_le_one
    (by simp) one_pos one_pos
  obtain ⟨hm, h'⟩ := erkOdeint_ret h1
  have ho : effOpts (F := ℝ) { adaptive := true, relTol := 1, absTol := 1, maxDt := 0, maxSteps := -1 }
      (erkCoeffs 131 : SolverCoeffs ℝ) =
      { adaptive := true, relTol := 1, absTol := 1, maxDt := 0, maxSteps := -1 } := by
    simp [effOpts, erkCoeffs, dormandPrince54]
  rw [ho] at h'
  have hsim := C16_fsal_transparent (nd := false) (f := fun _ _ _ => (1 : ℝ)) (t0 := 0) (t1 := 1)
    (y0 := fun _ : Fin 1 => 0)
    (o := { adaptive := true, relTol := 1, absTol := 1, maxDt := 0, maxSteps := -1 }) (dt := 1)
    (oo := OutOpts.dflt) hm fuel
  rw [h'] at hsim
  cases hg : erkGuts (n := 1) false (fun _ _ _ => (1 : ℝ)) 0 1 (fun _ => 0)
      { adaptive := true, relTol := 1, absTol := 1, maxDt := 0, maxSteps := -1 } 1
      (noFsal (erkCoeffs 131)) OutOpts.dflt fuel with
  | none => rw [hg] at hsim; simp at hsim
  | some r =>
    rw [hg] at hsim
    simp only [Option.map_some, Option.some.injEq] at hsim
    cases r with
    | ret out' => exact ⟨fuel, out, out', h', hg, by simpa [stripOutcome] using hsim⟩
    | assertFail => simp [stripOutcome] at hsim
    | throws => simp [stripOutcome] at hsim
    | ub => simp [stripOutcome] at hsim

end Verif
