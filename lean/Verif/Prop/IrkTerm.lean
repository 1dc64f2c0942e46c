import Verif.Prop.IrkMethods

/-!
# Properties C25 (invalid error estimates) and C63 (termination) for the implicit integrator
-/

set_option linter.unusedSectionVars false

namespace Verif
open Spec

section generic
variable {F : Type} [Add F] [Sub F] [Mul F] [Div F] [Neg F] [Scalar F] {n : ℕ} {nd : Bool} {la : LinAlg F}
  {fn : OdeFun F n} {t0 t1 : F} {y0 : Vec F n} {o : IrkOpts F} {dt : F} {sc : SolverCoeffs F} {oo : OutOpts} {fuel : ℕ}

/-- **C63 (implicit), what holds** in any arithmetic: with `max_steps = N ≥ 0` only rejected attempts and failed stage
solves keep the loop running; after `k` passes without an end at least `k - (N+1)` of them occurred.  Missing from the
claim: they are not limited, see `C63_irk_refuted`. -/
theorem C63_irk_only_rejections_partial (hms : 0 ≤ o.maxSteps) {k : ℕ}
    (h : irkGuts nd la fn t0 t1 y0 o dt sc oo k = none) :
    ∃ no mo Ai s, o.newtonOpts = some no ∧ minOrder sc = some mo ∧ la.inv sc.mat = some Ai ∧
      Reach (irkBody nd la fn t1 o no oo sc mo (dWeights Ai fun i => sc.bw i) (dWeights Ai fun i => sc.bw2 i))
        (irkInit (sc.ns * n) t0 y0 (clipDt t0 t1 dt) no.maxit) s ∧
      (k : ℤ) ≤ o.maxSteps + 1 + s.sol.count.rejectErr + s.sol.count.rejectNewton := by
  unfold irkGuts at h
  simp only at h
  cases hno : o.newtonOpts with
  | none => rw [hno] at h; cases nd <;> simp at h
  | some no =>
    rw [hno] at h
    simp only at h
    by_cases hA : (!nd && !ltb (lit 0) (clipDt t0 t1 dt)) = true
    · rw [if_pos hA] at h; simp at h
    rw [if_neg hA] at h
    cases hmo : minOrder sc with
    | none => rw [hmo] at h; simp at h
    | some mo =>
      rw [hmo] at h
      simp only at h
      by_cases hB : sc.nRows ≠ sc.ns ∨ sc.nCols ≠ sc.ns
      · rw [if_pos hB] at h; simp at h
      rw [if_neg hB] at h
      cases hAi : la.inv sc.mat with
      | none => rw [hAi] at h; simp at h
      | some Ai =>
        rw [hAi] at h
        simp only at h
        by_cases hC : sc.b2.length ≠ sc.ns
        · rw [if_pos hC] at h; simp at h
        rw [if_neg hC] at h
        refine ⟨no, mo, Ai, ?_⟩
        obtain ⟨s, hr, hk⟩ := runLoop_none_reach (fun s : IrkState F (sc.ns * n) n => s.sol.count.attempt) (fun a b hb => by
          have hc := bodyCaseI nd la fn t1 o no oo sc mo (dWeights Ai fun i => sc.bw i) (dWeights Ai fun i => sc.bw2 i) a
          rw [hb] at hc
          cases hc with
          | newton h hm r hr hs had =>
            obtain ⟨hst, L, K, hl, hcn⟩ := solve_count hr
            simp [newtonReject, hcn, IrkOutput.bump]
          | rejected h hm r hr hs had a ha hE hrj =>
            obtain ⟨-, L, K, hl, hcn⟩ := solve_count hr
            obtain ⟨L', hl', hcn', -⟩ := attemptI_count ha
            simp [rejectI, hcn', hrj, StageResult.success, hcn, IrkOutput.bump]
          | accepted h hm r hr hs had b ha hE hrj hi hw =>
            obtain ⟨-, L, K, hl, hcn⟩ := solve_count hr
            obtain ⟨L', hl', hcn', -⟩ := attemptI_count ha
            by_cases e1 : (a.step + 1) % oo.interval.toNat = 0 <;> cases e2 : oo.storeInVectors <;>
              cases e3 : oo.writeToFile <;>
              simp [acceptI, e1, e2, e3, hcn', hrj, StageResult.success, hcn, IrkOutput.bump]) h
        refine ⟨s, rfl, rfl, rfl, hr, ?_⟩
        have hcount : CountInvI s := hr.inv (countInvI_init _ _ _ _) (fun a b ha hb => countInvI_next ha hb)
        have hstep : (s.step : ℤ) ≤ o.maxSteps + 1 := hr.inv (Inv := fun s => (s.step : ℤ) ≤ o.maxSteps + 1)
          (by simp only [irkInit]; omega)
          (fun a b ha hb => by
            have hc := bodyCaseI nd la fn t1 o no oo sc mo (dWeights Ai fun i => sc.bw i) (dWeights Ai fun i => sc.bw2 i) a
            rw [hb] at hc
            cases hc with
            | newton _ _ _ _ _ _ => exact ha
            | rejected _ _ _ _ _ _ _ _ _ _ => exact ha
            | accepted _ hm _ _ _ _ _ _ _ _ _ _ => simp only [acceptI]; push_cast; omega)
        have h0 : (irkInit (sc.ns * n) t0 y0 (clipDt t0 t1 dt) no.maxit).sol.count.attempt = 0 := rfl
        have := hcount.att
        rw [h0] at hk
        omega

/-- **C25 (implicit, invalid error estimate).**  With assertions enabled a pass whose error total fails `err_tot >= 0.0`
(in particular NaN) ends the run at the assertion. -/
theorem C25_irk_nan_asserts {no : NewtonOpts F} {mo : ℕ} {d d2 : Vec F sc.ns} {s : IrkState F (sc.ns * n) n}
    {r : StageResult F (sc.ns * n) n} {a : AttemptI F n} (hlt : ltb s.t t1 = true)
    (hm : ¬ (0 ≤ o.maxSteps ∧ o.maxSteps < s.step)) (had : o.adaptive = true)
    (hr : newtonSolveStages false la fn sc s.t (clipDt s.t t1 s.dt) s.y s.newtonMaxit no.refreshJac no.dxDelta no.tol
      s.sol.bump.count s.sol.log = .ret r) (hs : r.status = 0)
    (ha : attemptI la fn o sc mo d d2 s (clipDt s.t t1 s.dt) r.success = some a)
    (hE : leb (lit 0) a.errTot = false) :
    irkBody false la fn t1 o no oo sc mo d d2 s = .done .assertFail := by
  unfold irkBody
  rw [if_pos hlt]
  simp only
  rw [if_neg hm, hr]
  simp only
  rw [if_neg (by simp [hs])]
  simp only [had, Bool.not_true, Bool.false_eq_true, if_false]
  rw [ha]
  simp [hE]

/-- **C25 (implicit, failed factorisation).**  With assertions enabled a pass in which the first `arma::lu` of the stage
Jacobian fails ends the run at the assertion, whatever the options are. -/
theorem C25_irk_lu_asserts {no : NewtonOpts F} {mo : ℕ} {d d2 : Vec F sc.ns} {s : IrkState F (sc.ns * n) n}
    (hlt : ltb s.t t1 = true) (hm : ¬ (0 ≤ o.maxSteps ∧ o.maxSteps < s.step))
    (hlu : la.lu (stageJac sc (clipDt s.t t1 s.dt) (fn.jac s.t s.y)) = none) :
    irkBody false la fn t1 o no oo sc mo d d2 s = .done .assertFail := by
  unfold irkBody
  rw [if_pos hlt]
  simp only
  rw [if_neg hm]
  simp [newtonSolveStages, refreshJac, hlu, Outcome.bind]

/-- **C25 (implicit).**  With assertions enabled every accepted or rejected attempt had a non-negative error total, so
no NaN estimate takes part in a decision. -/
theorem C25_irk_decided {no : NewtonOpts F} {mo : ℕ} {d d2 : Vec F sc.ns} {s s' : IrkState F (sc.ns * n) n}
    (hb : irkBody false la fn t1 o no oo sc mo d d2 s = .next s') :
    (∃ st c l, s' = newtonReject s (clipDt s.t t1 s.dt) no.maxit st c l) ∨
    ∃ a, leb (lit 0) a.errTot = true ∧ (s' = rejectI s a ∧ ltb (lit 1) a.err = true ∨
      s' = acceptI oo s a ∧ ltb (lit 1) a.err = false) := by
  have hc := bodyCaseI false la fn t1 o no oo sc mo d d2 s
  rw [hb] at hc
  cases hc with
  | newton h hm r hr hs had => exact Or.inl ⟨_, _, _, rfl⟩
  | rejected h hm r hr hs had a ha hE hj =>
    exact Or.inr ⟨a, hE rfl, Or.inl ⟨rfl, by rw [← (attemptI_spec ha).2.2.2.2.1]; exact hj⟩⟩
  | accepted h hm r hr hs had a ha hE hj hi hw =>
    exact Or.inr ⟨a, hE rfl, Or.inr ⟨rfl, by rw [← (attemptI_spec ha).2.2.2.2.1]; exact hj⟩⟩

end generic

/-! ### C63: divergence -/

section real
variable {n : ℕ} {fn : OdeFun ℝ n} {t0 t1 : ℝ} {y0 : Vec ℝ n} {o : IrkOpts ℝ} {no : NewtonOpts ℝ} {dt : ℝ}
  {sc : SolverCoeffs ℝ} {oo : OutOpts}

/-- If the stage equations cannot be solved from the initial point at any step size, an adaptive run never ends,
whatever `max_steps` is. -/
theorem irk_stuck (hsc : Usable sc) (hno : o.newtonOpts = some no) (had : o.adaptive = true) (ht : t0 < t1)
    (hdt : 0 < dt)
    (hfail : ∀ h, 0 < h → ∀ count log, ∃ r, newtonSolveStages false laReal fn sc t0 h y0 no.maxit no.refreshJac no.dxDelta
      no.tol count log = .ret r ∧ r.status ≠ 0) (fuel : ℕ) :
    irkGuts false laReal fn t0 t1 y0 o dt sc oo fuel = none := by
  have hc : 0 < clipDt t0 t1 dt := by rw [clipDt_real]; exact lt_min hdt (by linarith)
  obtain ⟨mo, he⟩ := irkGuts_loop (fn := fn) (y0 := y0) (oo := oo) (fuel := fuel) hsc hno hc
  rw [he]
  refine diverges_of_inv (Inv := fun s => s.t = t0 ∧ s.y = y0 ∧ s.step = 0 ∧ s.lastRelax = 0 ∧
    s.newtonMaxit = no.maxit ∧ 0 < s.dt) ?_ ⟨rfl, rfl, rfl, rfl, rfl, hc⟩ fuel
  rintro s ⟨h1, h2, h3, h4, h5, h6⟩
  have hp : 0 < clipDt s.t t1 s.dt := by rw [clipDt_real, h1]; exact lt_min h6 (by linarith)
  obtain ⟨r, hr, hs⟩ := hfail (clipDt s.t t1 s.dt) hp s.sol.bump.count s.sol.log
  refine ⟨newtonReject s (clipDt s.t t1 s.dt) no.maxit r.status r.count r.log, ?_, ?_⟩
  · unfold irkBody
    rw [if_pos (by simpa [h1] using ht)]
    simp only
    rw [if_neg (by rw [h3]; push_cast; omega), h1, h2, h5]
    rw [h1] at hr
    rw [hr]
    simp only
    rw [if_pos hs]
    simp [had]
  · refine ⟨h1, h2, h3, ?_, ?_, ?_⟩
    · simp [newtonReject, h3, h4]
    · simp [newtonReject, h3, h4, h5]
    · simp only [newtonReject, lit_real]
      have : (0 : ℝ) < ((7 / 10 : ℚ) : ℝ) := by norm_num
      positivity

/-- **C63 (implicit), divergence.**  With an iteration limit `≤ 1`, or with both Newton tolerances zero, no stage solve
can succeed; an adaptive run then shrinks its step size forever, whatever `max_steps` is. -/
theorem C63_irk_diverges (hsc : Usable sc) (hno : o.newtonOpts = some no) (had : o.adaptive = true) (hn : 0 < n)
    (ht : t0 < t1) (hdt : 0 < dt) (hr : no.refreshJac ≠ 0) (hreg : ∀ h, 0 < h → RegularAt fn sc t0 y0 h)
    (hbad : no.maxit ≤ 1 ∨ no.tol = 0 ∧ no.dxDelta = 0) (fuel : ℕ) :
    irkGuts false laReal fn t0 t1 y0 o dt sc oo fuel = none := by
  refine irk_stuck hsc hno had ht hdt (fun h hh count log => ?_) fuel
  obtain ⟨r, hr'⟩ := newtonSolve_total (maxit := no.maxit) (xtol := no.dxDelta) (Rtol := no.tol)
      (count := count) (log := log) hn hsc.c hr (hreg h hh).1
  refine ⟨r, hr', fun h0 => ?_⟩
  obtain ⟨g1, g2⟩ := success_iters hr' h0
  rcases hbad with hb | ⟨h1, h2⟩
  · omega
  · obtain ⟨-, m, Ys, dYs, H⟩ := stage_run hr'
    rcases H.stop with ⟨-, -, -, hc, -⟩ | ⟨h3, -⟩
    · have e1 : 0 ≤ dot (constructR fn.fn sc t0 h y0 (Ys m)) (constructR fn.fn sc t0 h y0 (Ys m)) := by
        rw [dot_stage]
        exact Finset.sum_nonneg fun i _ => Finset.sum_nonneg fun k _ => sq_nonneg _
      have e2 : 0 ≤ dot (dYs (m - 1)) (dYs (m - 1)) := by
        rw [dot_stage]
        exact Finset.sum_nonneg fun i _ => Finset.sum_nonneg fun k _ => sq_nonneg _
      simp only [Converged, h1, h2, ltb_real, mul_zero] at hc
      rcases hc with hc | hc <;> linarith
    · rw [h0] at h3; cases h3

/-- **C63, the claim for the implicit integrator**: a run with a step limit on a valid interval ends. -/
def C63_irk_claim : Prop :=
  ∀ (n : ℕ) (fn : OdeFun ℝ n) (t0 t1 : ℝ) (y0 : Vec ℝ n) (o : IrkOpts ℝ) (no : NewtonOpts ℝ) (dt : ℝ) (m : ℤ),
    0 < n → 0 ≤ o.maxSteps → t0 < t1 → 0 < dt → o.newtonOpts = some no → 0 < no.maxit →
    ∃ fuel r, irkOdeint false laReal fn t0 t1 y0 o OutOpts.dflt m dt fuel = some r

/-- **C63 is false of the implicit integrator**: `y' = 1` with RADAU_IIA_32 and an iteration limit of 1. -/
theorem C63_irk_refuted : ¬ C63_irk_claim := by
  intro h
  obtain ⟨fuel, r, hr⟩ := h 1 (constFun fun _ => 1) 0 1 (fun _ => 0)
    { demoOpts 10 with newtonOpts := some { NewtonOpts.dflt with maxit := 1 } } { NewtonOpts.dflt with maxit := 1 } 1 210
    (by norm_num) (by simp [demoOpts]) (by norm_num) (by norm_num) rfl (by norm_num)
  have := C63_irk_diverges (fn := constFun (n := 1) fun _ => 1) (y0 := fun _ => 0) (t0 := 0) (t1 := 1) (dt := 1)
    (o := { demoOpts 10 with newtonOpts := some { NewtonOpts.dflt with maxit := 1 } })
    (oo := OutOpts.dflt) (sc := irkCoeffs 210)
    (usable_shipped (by decide)) rfl rfl (by norm_num) (by norm_num) (by norm_num) (by simp [NewtonOpts.dflt])
    (fun h _ => constFun_regular _ _ _ _) (Or.inl (by simp)) fuel
  have e : irkOdeint false laReal (constFun (n := 1) fun _ => 1) 0 1 (fun _ => 0)
      { demoOpts 10 with newtonOpts := some { NewtonOpts.dflt with maxit := 1 } } OutOpts.dflt 210 1 fuel =
    irkGuts false laReal (constFun (n := 1) fun _ => 1) 0 1 (fun _ => 0)
      { demoOpts 10 with newtonOpts := some { NewtonOpts.dflt with maxit := 1 } } 1 (irkCoeffs 210) OutOpts.dflt fuel := by
    rfl
  rw [e, this] at hr
  cases hr

end real
end Verif
