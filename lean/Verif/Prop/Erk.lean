import Verif.ErkReturns

/-!
# Properties C10, C14, C17, C21, C26 of the explicit integrator, for every scalar arithmetic

`F` is any type with the operations of `Scalar`; nothing is assumed about them, so these theorems hold in
particular for IEEE doubles (NaN, infinities, rounding).
-/

namespace Verif

section generic
variable {F : Type} [Add F] [Sub F] [Mul F] [Div F] [Neg F] [Scalar F] {n : ℕ}
  {nd : Bool} {f : F → Vec F n → Vec F n} {t0 t1 : F} {y0 : Vec F n} {o : ErkOpts F} {dt : F}
  {sc : SolverCoeffs F} {oo : OutOpts} {fuel : ℕ} {out : ErkOutput F n}

/-- everything known about a returned output: records, counters -/
theorem erk_out_facts (h : erkGuts nd f t0 t1 y0 o dt sc oo fuel = some (.ret out)) :
    ∃ recs : List (Sample F n), IsColumns out recs ∧ recs.head? = some (initSample t0 y0 sc) ∧
      out.funEvals = out.calls.length ∧
      out.funEvals = (if sc.fsal then 1 else 0) +
        (sc.ns - (if sc.fsal then 1 else 0)) * ((recs.length - 1) + out.rejectErr) ∧
      ((out.status = 0 ∧ out.attempt = (recs.length - 1) + out.rejectErr ∧
          out.acceptFrac = some (lit ((recs.length - 1 : ℕ) : ℚ) / lit (out.attempt : ℚ))) ∨
       (out.status = 128 ∧ out.attempt = (recs.length - 1) + out.rejectErr + 1 ∧
          out.acceptFrac = none)) := by
  obtain ⟨mo, s, hmo, hdt, hr, hout⟩ := erkGuts_ret h
  obtain ⟨⟨hc, hac⟩, recs, hrec⟩ := reach_recs (Rel := fun _ _ _ => True)
    (J := fun s => CountInv sc s ∧ s.sol.acceptFrac = none)
    ⟨countInv_init f t0 y0 (clipDt t0 t1 dt) sc, by
      unfold erkInit; by_cases hf : sc.fsal = true <;> simp [hf, evalFun]⟩
    (fun a b ha hb => ⟨countInv_next ha.1 hb, by
      have hcase := bodyCase nd f t1 o oo sc mo a
      rw [hb] at hcase
      obtain ⟨L, e, -⟩ := attempt_sol f o sc mo a (clipDt a.t t1 a.dt) a.sol.bump
      cases hcase with
      | accepted h hm hb2 at' hA hE hr =>
        rw [← attemptAt, ← hA] at e
        cases hw : oo.writeToFile <;> simp [accept, ErkOutput.line, hw, e, ErkOutput.bump, ha.2]
      | rejected h hm hb2 at' hA hE had hr =>
        rw [← attemptAt, ← hA] at e
        cases hw : oo.writeToFile <;>
          simp [rejectStep, ErkOutput.line, hw, e, ErkOutput.bump, ha.2]⟩)
    (fun _ _ _ _ _ _ => trivial) hr
  obtain ⟨h1, h2, h3⟩ := hc
  have hlen := hrec.len
  have hst : recs.length - 1 = s.step := by omega
  rcases hout with ⟨hlt, rfl⟩ | ⟨hlt, hm0, hm1, rfl⟩
  · refine ⟨recs, ⟨hrec.cols.t, hrec.cols.y, hrec.cols.ks, hrec.cols.errEst, hrec.cols.err⟩,
      hrec.head, h2, ?_, Or.inl ⟨hrec.status, ?_, ?_⟩⟩
    · rw [hst]; simp only; rw [h3, h1]
    · rw [hst]; exact h1
    · rw [hst]
  · refine ⟨recs, ⟨hrec.cols.t, hrec.cols.y, hrec.cols.ks, hrec.cols.errEst, hrec.cols.err⟩,
      hrec.head, h2, ?_, Or.inr ⟨rfl, ?_, hac⟩⟩
    · rw [hst]; simp only [ErkOutput.bump]; rw [h3, h1]
    · rw [hst]; simp only [ErkOutput.bump]; rw [h1]

/-- **C10.**  Whenever `erk_guts` returns, the five record vectors have equal length ≥ 1 and the first sample is
`(t0, y0)`; any arithmetic, any coefficients, with or without assertions. -/
theorem C10_parallel_records (h : erkGuts nd f t0 t1 y0 o dt sc oo fuel = some (.ret out)) :
    out.yVals.length = out.tVals.length ∧ out.stages.length = out.tVals.length ∧
    out.errEst.length = out.tVals.length ∧ out.err.length = out.tVals.length ∧
    out.tVals.head? = some t0 ∧ out.yVals.head? = some y0 := by
  obtain ⟨recs, hc, hh, -⟩ := erk_out_facts h
  refine ⟨by simp [hc.t, hc.y], by simp [hc.t, hc.ks], by simp [hc.t, hc.errEst],
    by simp [hc.t, hc.err], ?_, ?_⟩
  · rw [hc.t, List.head?_map, hh]; rfl
  · rw [hc.y, List.head?_map, hh]; rfl

/-- two RK4 steps for a system of two equations -/
example : ∃ fuel out, erkOdeint (F := ℝ) (n := 2) false (fun _ y => ![y 1 - y 0, y 0 - y 1]) 0 1 ![1, 3]
    { adaptive := false, relTol := 1, absTol := 1, maxDt := 0, maxSteps := -1 } OutOpts.dflt 110 (1 / 2) fuel
      = some (.ret out) ∧ out.stages.length = 3 ∧ out.yVals.head? = some ![1, 3] := by
  obtain ⟨fuel, out, h, -, ht⟩ := system_demo (m := 110) (by decide)
  have := C10_parallel_records (erkOdeint_ret h).2
  exact ⟨fuel, out, h, by rw [this.2.1, ht]; rfl, this.2.2.2.2.2⟩

/-- **C10 (odeint).** -/
theorem C10_odeint {m : ℤ} (h : erkOdeint nd f t0 t1 y0 o oo m dt fuel = some (.ret out)) :
    out.yVals.length = out.tVals.length ∧ out.stages.length = out.tVals.length ∧
    out.errEst.length = out.tVals.length ∧ out.err.length = out.tVals.length ∧
    out.tVals.head? = some t0 ∧ out.yVals.head? = some y0 :=
  C10_parallel_records (erkOdeint_ret h).2

/-- `y' = 1`, one Euler step: a run that meets the hypothesis -/
example : ∃ fuel out, erkOdeint (F := ℝ) (n := 1) false (fun _ _ _ => 1) 0 1 (fun _ => 0)
    { adaptive := false, relTol := 1, absTol := 1, maxDt := 0, maxSteps := -1 } OutOpts.dflt 100 1 fuel
      = some (.ret out) ∧ out.yVals.length = 2 := by
  obtain ⟨fuel, out, h, -, ht⟩ := euler_one_step (-1) (Or.inl (by norm_num)) OutOpts.dflt
    (fun h => by revert h; decide)
  exact ⟨fuel, out, h, by rw [(C10_odeint h).1, ht]; rfl⟩

/-- **C14.**  Counters.  `out.tVals.length - 1` is the number of accepted steps.  The ghost log `out.calls` lists
the calls of the user's function. -/
theorem C14_counters (h : erkGuts nd f t0 t1 y0 o dt sc oo fuel = some (.ret out)) :
    out.funEvals = out.calls.length ∧
    out.funEvals = (if sc.fsal then 1 else 0) +
      (sc.ns - (if sc.fsal then 1 else 0)) * ((out.tVals.length - 1) + out.rejectErr) ∧
    ((out.status = 0 ∧ out.attempt = (out.tVals.length - 1) + out.rejectErr ∧
        out.acceptFrac = some (lit ((out.tVals.length - 1 : ℕ) : ℚ) / lit (out.attempt : ℚ))) ∨
     (out.status = 128 ∧ out.attempt = (out.tVals.length - 1) + out.rejectErr + 1)) := by
  obtain ⟨recs, hc, -, h1, h2, h3⟩ := erk_out_facts h
  have hl : out.tVals.length = recs.length := by simp [hc.t]
  rw [hl]
  exact ⟨h1, h2, h3.imp id (fun h => ⟨h.1, h.2.1⟩)⟩

/-- one Euler step: one evaluation, one attempt -/
example : ∃ fuel out, erkOdeint (F := ℝ) (n := 1) false (fun _ _ _ => 1) 0 1 (fun _ => 0)
    { adaptive := false, relTol := 1, absTol := 1, maxDt := 0, maxSteps := -1 } OutOpts.dflt 100 1 fuel
      = some (.ret out) ∧ out.attempt = 1 + out.rejectErr := by
  obtain ⟨fuel, out, h, h0, ht⟩ := euler_one_step (-1) (Or.inl (by norm_num)) OutOpts.dflt
    (fun h => by revert h; decide)
  have := (C14_counters (erkOdeint_ret h).2).2.2
  rw [h0, ht] at this
  simp at this
  exact ⟨fuel, out, h, this.1⟩

/-- **C17, sharp bound.**  At most `max_steps + 1` steps are accepted; status 128 is reported exactly when
`max_steps + 1` steps were taken without reaching the end. -/
theorem C17_max_steps_partial (hms : 0 ≤ o.maxSteps)
    (h : erkGuts nd f t0 t1 y0 o dt sc oo fuel = some (.ret out)) :
    ((out.tVals.length - 1 : ℕ) : ℤ) ≤ o.maxSteps + 1 ∧
    (out.status = 128 → ((out.tVals.length - 1 : ℕ) : ℤ) = o.maxSteps + 1) := by
  obtain ⟨mo, s, hmo, hdt, hr, hout⟩ := erkGuts_ret h
  obtain ⟨hJ, recs, hrec⟩ := reach_recs (Rel := fun _ _ _ => True)
    (J := fun s => (s.step : ℤ) ≤ o.maxSteps + 1)
    (by unfold erkInit; by_cases hf : sc.fsal = true <;> simp [hf] <;> omega)
    (fun a b ha hb => by
      have hcase := bodyCase nd f t1 o oo sc mo a
      rw [hb] at hcase
      cases hcase with
      | accepted h hm hb2 at' hA hE hr => simp only [accept]; push_cast; omega
      | rejected h hm hb2 at' hA hE had hr => simpa [rejectStep] using ha)
    (fun _ _ _ _ _ _ => trivial) hr
  have hlen : s.sol.tVals.length = s.step + 1 := by rw [hrec.cols.t, List.length_map, hrec.len]
  rcases hout with ⟨hlt, rfl⟩ | ⟨hlt, hm0, hm1, rfl⟩
  · simp only [hlen, Nat.add_sub_cancel]
    refine ⟨hJ, fun hs => ?_⟩
    rw [hrec.status] at hs; norm_num at hs
  · simp only [ErkOutput.bump, hlen, Nat.add_sub_cancel]
    exact ⟨hJ, fun _ => by omega⟩

/-- the theorem applied to a run with `max_steps = 3` -/
example : ∃ fuel out, erkOdeint (F := ℝ) (n := 1) false (fun _ _ _ => 1) 0 1 (fun _ => 0)
    { adaptive := false, relTol := 1, absTol := 1, maxDt := 0, maxSteps := 3 } OutOpts.dflt 100 1 fuel
      = some (.ret out) ∧ ((out.tVals.length - 1 : ℕ) : ℤ) ≤ 3 + 1 := by
  obtain ⟨fuel, out, h, h0, ht⟩ := euler_one_step 3 (Or.inr (by norm_num)) OutOpts.dflt
    (fun h => by revert h; decide)
  have ho := (effOpts_fields { adaptive := false, relTol := (1 : ℝ), absTol := 1, maxDt := 0, maxSteps := 3 }
    (erkCoeffs 100)).2.2.2
  have := (C17_max_steps_partial (by rw [ho]; norm_num) (erkOdeint_ret h).2).1
  rw [ho] at this
  exact ⟨fuel, out, h, this⟩

/-- the bound is attained with `max_steps = 0` -/
example : ∃ fuel out, erkOdeint (F := ℝ) (n := 1) false (fun _ _ _ => 1) 0 1 (fun _ => 0)
    { adaptive := false, relTol := 1, absTol := 1, maxDt := 0, maxSteps := 0 } OutOpts.dflt 100 1 fuel
      = some (.ret out) ∧ ((out.tVals.length - 1 : ℕ) : ℤ) = 0 + 1 := by
  obtain ⟨fuel, out, h, h0, ht⟩ := euler_one_step 0 (Or.inr (le_refl _)) OutOpts.dflt
    (fun h => by revert h; decide)
  exact ⟨fuel, out, h, by rw [ht]; rfl⟩

/-- **C21.**  If the reject counter changes in a pass of the loop then time, value, step count and all five record
vectors are unchanged. -/
theorem C21_reject_keeps_state {mo : ℕ} {s s' : ErkState F n}
    (hb : erkBody nd f t1 o oo sc mo s = .next s') (hr : s'.sol.rejectErr ≠ s.sol.rejectErr) :
    s'.t = s.t ∧ s'.y = s.y ∧ s'.step = s.step ∧ s'.sol.tVals = s.sol.tVals ∧
    s'.sol.yVals = s.sol.yVals ∧ s'.sol.stages = s.sol.stages ∧ s'.sol.errEst = s.sol.errEst ∧
    s'.sol.err = s.sol.err ∧ s'.sol.rejectErr = s.sol.rejectErr + 1 := by
  have hcase := bodyCase nd f t1 o oo sc mo s
  rw [hb] at hcase
  obtain ⟨L, e, -⟩ := attempt_sol f o sc mo s (clipDt s.t t1 s.dt) s.sol.bump
  cases hcase with
  | accepted h hm hb2 a hA hE hr' =>
    exfalso
    rw [← attemptAt, ← hA] at e
    have hrej : a.reject = false := by
      rcases hr' with hr' | hr'
      · rw [hA]; simp [attemptAt, attempt, hr']
      · exact hr'
    apply hr
    cases hw : oo.writeToFile <;> simp [accept, ErkOutput.line, hw, e, ErkOutput.bump, hrej]
  | rejected h hm hb2 a hA hE had hr' =>
    rw [← attemptAt, ← hA] at e
    refine ⟨rfl, rfl, rfl, ?_⟩
    cases hw : oo.writeToFile <;> simp [rejectStep, ErkOutput.line, hw, e, ErkOutput.bump, hr']

/-- **C26, what holds.**  A line is written for every attempt (accepted or not), and in fixed-step mode line `k`
contains the *old* time `t_k` with the *new* value `y_{k+1}`.  Missing from the claim: lines should be the
accepted samples `(t_{k+1}, y_{k+1})`; see `C26_refuted`. -/
theorem C26_stream_partial (hw : oo.writeToFile = true)
    (h : erkGuts nd f t0 t1 y0 o dt sc oo fuel = some (.ret out)) :
    out.file.length = (out.tVals.length - 1) + out.rejectErr ∧
    (o.adaptive = false → out.file = out.tVals.dropLast.zip out.yVals.tail) := by
  obtain ⟨mo, s, hmo, hdt, hr, hout⟩ := erkGuts_ret h
  obtain ⟨⟨hC, hF, hZ⟩, recs, hrec⟩ := reach_recs (Rel := fun _ _ _ => True)
    (J := fun s => CountInv sc s ∧ s.sol.file.length = s.sol.attempt ∧
      (o.adaptive = false → s.sol.tVals ≠ [] ∧ s.sol.tVals.length = s.sol.yVals.length ∧
        s.sol.tVals.getLast? = some s.t ∧
        s.sol.file = s.sol.tVals.dropLast.zip s.sol.yVals.tail))
    ⟨countInv_init f t0 y0 (clipDt t0 t1 dt) sc, by
      unfold erkInit; by_cases hf : sc.fsal = true <;> simp [hf, evalFun], by
      unfold erkInit; by_cases hf : sc.fsal = true <;> simp [hf, evalFun]⟩
    (fun a b ha hb => ⟨countInv_next ha.1 hb, by
      have hcase := bodyCase nd f t1 o oo sc mo a
      rw [hb] at hcase
      obtain ⟨L, e, -⟩ := attempt_sol f o sc mo a (clipDt a.t t1 a.dt) a.sol.bump
      cases hcase with
      | accepted h hm hb2 at' hA hE hr =>
        rw [← attemptAt, ← hA] at e
        refine ⟨by simp [accept, ErkOutput.line, hw, e, ErkOutput.bump, ha.2.1], ?_⟩
        intro had
        obtain ⟨z1, z2, z3, z4⟩ := ha.2.2 had
        have hdl : a.sol.tVals = a.sol.tVals.dropLast ++ [a.t] := by
          rw [List.getLast?_eq_some_iff] at z3
          obtain ⟨ys, hys⟩ := z3
          rw [hys]; simp
        have hyne : a.sol.yVals ≠ [] := by
          intro hc; rw [hc] at z2; simp at z2; exact z1 z2
        refine ⟨by simp [accept], ?_, by simp [accept], ?_⟩
        · simp [accept, ErkOutput.line, hw, e, ErkOutput.bump, z2]
        · simp only [accept, ErkOutput.line, hw, e, ErkOutput.bump, if_true]
          rw [List.dropLast_concat, List.tail_append_of_ne_nil hyne]
          rw [z4]
          conv_rhs => rw [hdl]
          rw [List.zip_append]
          · simp
          · simp [z2]
      | rejected h hm hb2 at' hA hE had hr =>
        rw [← attemptAt, ← hA] at e
        refine ⟨by simp [rejectStep, ErkOutput.line, hw, e, ErkOutput.bump, ha.2.1], ?_⟩
        intro had'
        rw [had] at had'; cases had'⟩)
    (fun _ _ _ _ _ _ => trivial) hr
  have hlen : s.sol.tVals.length = s.step + 1 := by rw [hrec.cols.t, List.length_map, hrec.len]
  rcases hout with ⟨hlt, rfl⟩ | ⟨hlt, hm0, hm1, rfl⟩
  · exact ⟨by simp only [hlen, Nat.add_sub_cancel]; rw [hF]; exact hC.att,
      fun had => (hZ had).2.2.2⟩
  · exact ⟨by simp only [ErkOutput.bump, hlen, Nat.add_sub_cancel]; rw [hF]; exact hC.att,
      fun had => (hZ had).2.2.2⟩

/-- a one-step run with a stream: one line is written -/
example : ∃ fuel out, erkOdeint (F := ℝ) (n := 1) false (fun _ _ _ => 1) 0 1 (fun _ => 0)
    { adaptive := false, relTol := 1, absTol := 1, maxDt := 0, maxSteps := -1 }
    (OutOpts.dflt.after [.setStream]) 100 1 fuel = some (.ret out) ∧
      out.file = [0].zip out.yVals.tail := by
  obtain ⟨fuel, out, h, h0, ht⟩ := euler_one_step (-1) (Or.inl (by norm_num))
    (OutOpts.dflt.after [.setStream]) (fun _ => by decide)
  have := (C26_stream_partial (by decide) (erkOdeint_ret h).2).2 (by simp [effOpts])
  exact ⟨fuel, out, h, by rw [this, ht]; rfl⟩

/-- **C63, what holds** in any arithmetic: with `max_steps = N ≥ 0` only rejected attempts can keep the loop
running; after `k` passes without an end at least `k - (N+1)` attempts have been rejected.  Missing from the
claim: rejections are not limited, see `C63_refuted`. -/
theorem C63_only_rejections_partial (hms : 0 ≤ o.maxSteps) {k : ℕ}
    (h : erkGuts nd f t0 t1 y0 o dt sc oo k = none) :
    ∃ mo s, minOrder sc = some mo ∧
      Reach (erkBody nd f t1 o oo sc mo) (erkInit f t0 y0 (clipDt t0 t1 dt) sc) s ∧
      (k : ℤ) ≤ o.maxSteps + 1 + s.sol.rejectErr := by
  unfold erkGuts at h
  simp only at h
  split_ifs at h with h1
  cases hmo : minOrder sc with
  | none => rw [hmo] at h; simp at h
  | some mo =>
    rw [hmo] at h
    refine ⟨mo, ?_⟩
    obtain ⟨s, hr, hk⟩ := runLoop_none_reach (fun s => s.sol.attempt) (fun a b hb => by
      have hcase := bodyCase nd f t1 o oo sc mo a
      rw [hb] at hcase
      obtain ⟨L, e, -⟩ := attempt_sol f o sc mo a (clipDt a.t t1 a.dt) a.sol.bump
      cases hcase with
      | accepted h hm hb2 at' hA hE hr =>
        rw [← attemptAt, ← hA] at e
        cases hw : oo.writeToFile <;> simp [accept, ErkOutput.line, hw, e, ErkOutput.bump]
      | rejected h hm hb2 at' hA hE had hr =>
        rw [← attemptAt, ← hA] at e
        cases hw : oo.writeToFile <;> simp [rejectStep, ErkOutput.line, hw, e, ErkOutput.bump]) h
    refine ⟨s, rfl, hr, ?_⟩
    have hcount : CountInv sc s := hr.inv (countInv_init f t0 y0 (clipDt t0 t1 dt) sc)
      (fun a b ha hb => countInv_next ha hb)
    have hstep : (s.step : ℤ) ≤ o.maxSteps + 1 := hr.inv (Inv := fun s => (s.step : ℤ) ≤ o.maxSteps + 1)
      (by unfold erkInit; by_cases hf : sc.fsal = true <;> simp [hf] <;> omega)
      (fun a b ha hb => by
        have hcase := bodyCase nd f t1 o oo sc mo a
        rw [hb] at hcase
        cases hcase with
        | accepted h hm hb2 at' hA hE hr => simp only [accept]; push_cast; omega
        | rejected h hm hb2 at' hA hE had hr => simpa [rejectStep] using ha)
    have h0 : (erkInit f t0 y0 (clipDt t0 t1 dt) sc).sol.attempt = 0 := by
      unfold erkInit; by_cases hf : sc.fsal = true <;> simp [hf, evalFun]
    have := hcount.att
    rw [h0] at hk
    omega

/-- **C63, fixed step sizes** in any arithmetic (IEEE included): with `max_steps = N ≥ 0` a fixed-step run ends
within `N + 2` passes, however the times round. -/
theorem C63_fixed_terminates (hms : 0 ≤ o.maxSteps) (had : o.adaptive = false) :
    ∃ r, erkGuts nd f t0 t1 y0 o dt sc oo (o.maxSteps.toNat + 2) = some r := by
  cases hg : erkGuts nd f t0 t1 y0 o dt sc oo (o.maxSteps.toNat + 2) with
  | some r => exact ⟨r, rfl⟩
  | none =>
    exfalso
    obtain ⟨mo, s, hmo, hr, hk⟩ := C63_only_rejections_partial hms hg
    have : s.sol.rejectErr = 0 := hr.inv (Inv := fun s => s.sol.rejectErr = 0)
      (by unfold erkInit; by_cases hf : sc.fsal = true <;> simp [hf, evalFun])
      (fun a b ha hb => by
        by_contra hc
        have hcase := bodyCase nd f t1 o oo sc mo a
        rw [hb] at hcase
        obtain ⟨L, e, -, -, -, -, -, -, hrej⟩ :=
          attempt_sol f o sc mo a (clipDt a.t t1 a.dt) a.sol.bump
        cases hcase with
        | accepted h hm hb2 at' hA hE hr =>
          rw [← attemptAt, ← hA] at e hrej
          have : at'.reject = false := by
            by_contra hx
            rw [hrej (by simpa using hx)] at had; cases had
          apply hc
          cases hw : oo.writeToFile <;> simp [accept, ErkOutput.line, hw, e, ErkOutput.bump, ha, this]
        | rejected h hm hb2 at' hA hE had' hr => rw [had] at had'; cases had')
    rw [this] at hk
    push_cast at hk
    omega

/-- IEEE-like arithmetic is not needed: Euler with at most 7 steps, whatever the arithmetic -/
example (y0 : Vec F n) (t0 t1 dt : F) : ∃ r, erkGuts nd (fun _ y => y) t0 t1 y0
    { adaptive := false, relTol := dt, absTol := dt, maxDt := dt, maxSteps := 7 } dt (erkCoeffs 100) OutOpts.dflt 9 =
      some r := C63_fixed_terminates (o := { adaptive := false, relTol := dt, absTol := dt, maxDt := dt, maxSteps := 7 })
  (by norm_num) rfl

end generic
end Verif
