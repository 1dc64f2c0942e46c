import Verif.IrkComplete

/-!
# Property C82: the adaptive implicit integrators complete nonlinear problems when the steps are limited, and converge whatever the
Newton tolerances
-/

set_option linter.unusedSectionVars false

namespace Verif
open Spec Set TestEq

/-! ### helper lemmas -/

section helpers
variable {n : ℕ} {nd : Bool} {la : LinAlg ℝ} {fn : OdeFun ℝ n} {sc : SolverCoeffs ℝ} {t0 t1 : ℝ} {u : ℝ → Vec ℝ n} {o : IrkOpts ℝ}
  {no : NewtonOpts ℝ} {oo : OutOpts} {mo : ℕ} {d d2 : Vec ℝ sc.ns}

/-- what `near_step` provides -/
def StepBound (fn : OdeFun ℝ n) (sc : SolverCoeffs ℝ) (u : ℝ → Vec ℝ n) (t0 t1 Λ C h0 : ℝ) (r : ℕ) : Prop :=
  ∀ (nd : Bool) (la : LinAlg ℝ) (Ai : Mat ℝ sc.ns) (t h : ℝ) (y : Vec ℝ n)
    (maxit refresh : ℤ) (xtol Rtol : ℝ) (count : IrkCounters) (log : CallLog ℝ n) (res : StageResult ℝ (sc.ns * n) n),
    la.Exact → la.Sound → la.inv sc.mat = some Ai →
    newtonSolveStages nd la fn sc t h y maxit refresh xtol Rtol count log = .ret res → res.status = 0 →
    t0 ≤ t → 0 ≤ h → h ≤ h0 → t + h ≤ t1 → ‖y - u t‖ ≤ 1 →
    ‖(fun k => y k + combineI sc res.Y (dWeights Ai fun i => sc.bw i) k) - u (t + h)‖ ≤
      (1 + Λ * h) * ‖y - u t‖ + C * h ^ (r + 1)

/-- states that follow the solution -/
structure NearI (u : ℝ → Vec ℝ n) (t0 t1 Λ E h : ℝ) (s : IrkState ℝ (sc.ns * n) n) : Prop where
  time : TimeInvI t0 t1 s
  dt : s.dt ≤ h
  err : ‖s.y - u s.t‖ ≤ Real.exp (Λ * (s.t - t0)) * ((s.t - t0) * E)

theorem near_mono {Λ E a b : ℝ} (hΛ : 0 ≤ Λ) (hE : 0 ≤ E) (ha : 0 ≤ a) (hab : a ≤ b) :
    Real.exp (Λ * a) * (a * E) ≤ Real.exp (Λ * b) * (b * E) :=
  mul_le_mul (Real.exp_le_exp.mpr (mul_le_mul_of_nonneg_left hab hΛ)) (mul_le_mul_of_nonneg_right hab hE) (by positivity)
    (Real.exp_pos _).le

theorem near_accept {Λ C h0 h : ℝ} {r : ℕ} (H : StepBound fn sc u t0 t1 Λ C h0 r) (hΛ : 0 ≤ Λ) (hC : 0 ≤ C) (hla : la.Exact)
    (hs : la.Sound) {Ai : Mat ℝ sc.ns} (hAi : la.inv sc.mat = some Ai) (hle : h ≤ h0)
    (hone : Real.exp (Λ * (t1 - t0)) * ((t1 - t0) * (C * h ^ r)) ≤ 1) {s : IrkState ℝ (sc.ns * n) n}
    (hN : NearI u t0 t1 Λ (C * h ^ r) h s) (hlt : s.t < t1) {res : StageResult ℝ (sc.ns * n) n}
    (hr : solveAt nd la fn t1 no sc s = .ret res) (hst : res.status = 0) {a : AttemptI ℝ n}
    (ha : attemptI la fn o sc mo (dWeights Ai fun i => sc.bw i) d2 s (clipDt s.t t1 s.dt) res.success = some a) :
    ‖a.yn - u (s.t + a.dt)‖ ≤ Real.exp (Λ * (s.t + a.dt - t0)) * ((s.t + a.dt - t0) * (C * h ^ r)) := by
  obtain ⟨q1, q2, -⟩ := attemptI_spec ha
  obtain ⟨c1, c2, c3⟩ := clip_factsI hN.time hlt
  rw [q1]
  set δ := clipDt s.t t1 s.dt with hδ
  have hδh : δ ≤ h := c3.trans hN.dt
  have hh : 0 ≤ h := c1.le.trans hδh
  have hy : a.yn = fun k => s.y k + combineI sc res.Y (dWeights Ai fun i => sc.bw i) k := by
    rw [q2]; rfl
  have hE : 0 ≤ C * h ^ r := by positivity
  have hτ : 0 ≤ s.t - t0 := by linarith [hN.time.lo]
  have h1 : ‖s.y - u s.t‖ ≤ 1 := hN.err.trans ((near_mono hΛ hE hτ (by linarith)).trans hone)
  have hr' : newtonSolveStages nd la fn sc s.t δ s.y s.newtonMaxit no.refreshJac no.dxDelta
      no.tol s.sol.bump.count s.sol.log = .ret res := hr
  have key := H nd la Ai s.t δ s.y _ _ _ _ _ _ res hla hs hAi hr' hst hN.time.lo c1.le (hδh.trans hle) c2 h1
  rw [hy]
  refine key.trans ?_
  have e1 : C * δ ^ (r + 1) ≤ δ * (C * h ^ r) := by
    have := pow_step (p := r) hC c1.le hδh
    linarith
  have e2 : 1 + Λ * δ ≤ Real.exp (Λ * δ) := by have := Real.add_one_le_exp (Λ * δ); linarith
  have e3 : Real.exp (Λ * (s.t + δ - t0)) = Real.exp (Λ * δ) * Real.exp (Λ * (s.t - t0)) := by
    rw [← Real.exp_add]; congr 1; ring
  have e4 : 1 ≤ Real.exp (Λ * (s.t + δ - t0)) := Real.one_le_exp (mul_nonneg hΛ (by linarith))
  calc (1 + Λ * δ) * ‖s.y - u s.t‖ + C * δ ^ (r + 1)
      ≤ Real.exp (Λ * δ) * (Real.exp (Λ * (s.t - t0)) * ((s.t - t0) * (C * h ^ r))) + δ * (C * h ^ r) :=
        add_le_add (mul_le_mul e2 hN.err (norm_nonneg _) (Real.exp_pos _).le) e1
    _ ≤ Real.exp (Λ * (s.t + δ - t0)) * ((s.t - t0) * (C * h ^ r)) + Real.exp (Λ * (s.t + δ - t0)) * (δ * (C * h ^ r)) := by
        rw [e3, mul_assoc]
        refine add_le_add le_rfl ?_
        rw [← e3]
        exact le_mul_of_one_le_left (by positivity) e4
    _ = _ := by ring

theorem near_next {Λ C h0 h : ℝ} {r : ℕ} (H : StepBound fn sc u t0 t1 Λ C h0 r) (hΛ : 0 ≤ Λ) (hC : 0 ≤ C) (hla : la.Exact)
    (hs : la.Sound) {Ai : Mat ℝ sc.ns} (hAi : la.inv sc.mat = some Ai) (hle : h ≤ h0)
    (hone : Real.exp (Λ * (t1 - t0)) * ((t1 - t0) * (C * h ^ r)) ≤ 1) (hmx : 0 < o.maxDt) (hmxh : o.maxDt ≤ h)
    {s s' : IrkState ℝ (sc.ns * n) n}
    (hN : NearI u t0 t1 Λ (C * h ^ r) h s) (hb : irkBody nd la fn t1 o no oo sc mo (dWeights Ai fun i => sc.bw i) d2 s = .next s') :
    NearI u t0 t1 Λ (C * h ^ r) h s' := by
  refine ⟨timeInvI_next hN.time hb, dt_le_next hmx hmxh hN.time hN.dt hb, ?_⟩
  have hc := bodyCaseI nd la fn t1 o no oo sc mo (dWeights Ai fun i => sc.bw i) d2 s
  rw [hb] at hc
  cases hc with
  | newton hl hm r hr hst had => exact hN.err
  | rejected hl hm r hr hst had a ha hE hj => exact hN.err
  | accepted hl hm r hr hst had a ha hE hj hi hw =>
    exact near_accept H hΛ hC hla hs hAi hle hone hN (by simpa using hl) hr hst ha

theorem near_init {Λ E h dt : ℝ} (h01 : t0 ≤ t1) (hdt : 0 < dt) (hle : dt ≤ h) (mx : ℤ) :
    NearI (sc := sc) u t0 t1 Λ E h (irkInit (sc.ns * n) t0 (u t0) dt mx) :=
  ⟨timeInvI_init h01 hdt mx, hle, by simp [irkInit]⟩

/-- every recorded and every streamed sample of a run with limited steps is near the solution -/
theorem guts_near {Λ C h0 h dt : ℝ} {r fuel : ℕ} (H : StepBound fn sc u t0 t1 Λ C h0 r) (hΛ : 0 ≤ Λ) (hC : 0 ≤ C) (hla : la.Exact)
    (hs : la.Sound) (hle : h ≤ h0) (hone : Real.exp (Λ * (t1 - t0)) * ((t1 - t0) * (C * h ^ r)) ≤ 1) (hmx : 0 < o.maxDt)
    (hmxh : o.maxDt ≤ h) (hdt : dt ≤ h) {out : IrkOutput ℝ (sc.ns * n) n}
    (hrun : irkGuts nd la fn t0 t1 (u t0) o dt sc oo fuel = some (.ret out)) (hpos : nd = false ∨ (0 < dt ∧ t0 < t1)) :
    (∀ (i : ℕ) (t : ℝ) (y : Vec ℝ n), out.tVals[i]? = some t → out.yVals[i]? = some y →
      ‖y - u t‖ ≤ Real.exp (Λ * (t1 - t0)) * ((t1 - t0) * (C * h ^ r))) ∧
    ∀ l ∈ out.file, ‖l.2 - u l.1‖ ≤ Real.exp (Λ * (t1 - t0)) * ((t1 - t0) * (C * h ^ r)) := by
  obtain ⟨hc, h01⟩ := validI_of_ret hrun hpos
  have hclip : clipDt t0 t1 dt ≤ h := by rw [clipDt_real]; exact (min_le_left _ _).trans hdt
  have hE : 0 ≤ C * h ^ r := by
    have : 0 ≤ h := hmx.le.trans hmxh
    positivity
  obtain ⟨acc, -, hv, hch, hhead⟩ := irk_accs_count (sc := sc) (fn := fn) (J := NearI u t0 t1 Λ (C * h ^ r) h)
    (Rel := fun _ b => ‖b.y - u b.t‖ ≤ Real.exp (Λ * (t1 - t0)) * ((t1 - t0) * (C * h ^ r))) hrun hpos
    (fun mx => near_init h01.le hc hclip mx)
    (fun no mo Ai s s' _ hJ hA hb => near_next H hΛ hC hla hs hA hle hone hmx hmxh hJ hb)
    (fun no mo Ai s res a l _ hA hT hJ hlt hr hst ha _ _ => by
      obtain ⟨c1, c2, -⟩ := clip_factsI hT hlt
      refine (near_accept H hΛ hC hla hs hA hle hone hJ hlt hr hst ha).trans (near_mono hΛ hE ?_ ?_) <;>
        · rw [(attemptI_spec ha).1]; linarith [hT.lo])
  have hall : ∀ b ∈ acc, ‖b.y - u b.t‖ ≤ Real.exp (Λ * (t1 - t0)) * ((t1 - t0) * (C * h ^ r)) := by
    intro b hb
    cases acc with
    | nil => cases hb
    | cons x l =>
      rcases List.mem_cons.mp hb with rfl | hb
      · simp only [List.head?_cons, Option.some.injEq] at hhead
        rw [hhead]
        simp only [firstI, sub_self, norm_zero]
        have : 0 ≤ t1 - t0 := by linarith
        positivity
      · obtain ⟨a', h'⟩ := chain_pred hch hb
        exact h'
  exact ⟨recorded_of_all (P := fun t y => ‖y - u t‖ ≤ _) hv hall, streamed_of_all (P := fun t y => ‖y - u t‖ ≤ _) hv hall⟩

end helpers

section
variable {n : ℕ} {fn : OdeFun ℝ n} {t0 t1 : ℝ} {u : ℝ → Vec ℝ n} {m : ℤ} {r : ℕ}

theorem implicit_order_two {m : ℤ} (hm : m ∈ ([210, 211, 230, 231, 232] : List ℤ)) :
    HasOrder (fun i j : Fin (irkCoeffs m : SolverCoeffs ℝ).ns => (irkCoeffs m : SolverCoeffs ℝ).a i j)
        (fun i => (irkCoeffs m : SolverCoeffs ℝ).bw i) 2 ∧
      ∀ i : Fin (irkCoeffs m : SolverCoeffs ℝ).ns, ∑ j : Fin (irkCoeffs m : SolverCoeffs ℝ).ns, (irkCoeffs m : SolverCoeffs ℝ).a i j =
        (irkCoeffs m : SolverCoeffs ℝ).cn i := by
  have key : ∃ p : ℕ, (irkCoeffs m : SolverCoeffs ℝ).order = some (p : ℤ) ∧ 2 ≤ p := by
    simp only [List.mem_cons, List.not_mem_nil, or_false] at hm
    rcases hm with rfl | rfl | rfl | rfl | rfl
    · exact ⟨3, by simp [irkCoeffs, radauIIA32], by norm_num⟩
    · exact ⟨5, by simp [irkCoeffs, radauIIA53], by norm_num⟩
    · exact ⟨4, by simp [irkCoeffs, lobattoIIIC43], by norm_num⟩
    · exact ⟨6, by simp [irkCoeffs, lobattoIIIC64], by norm_num⟩
    · exact ⟨8, by simp [irkCoeffs, lobattoIIIC85], by norm_num⟩
  obtain ⟨p, hp, h2⟩ := key
  obtain ⟨-, ho, hc⟩ := implicit_order hm hp
  exact ⟨fun t ht => ho t (ht.trans h2), hc⟩

theorem JacobianOrder.le_two (h : JacobianOrder fn r) : r ≤ 2 := by
  rcases h with ⟨rfl, -⟩ | ⟨rfl, -⟩ <;> norm_num

/-- a bound below one for small steps, and the constant of the theorem -/
theorem near_constants {Λ C h0 : ℝ} (hC : 0 ≤ C) (hh0 : 0 < h0) (h01 : t0 ≤ t1) (hr : 1 ≤ r) :
    ∃ B h1 : ℝ, 0 ≤ B ∧ 0 < h1 ∧ h1 ≤ h0 ∧ ∀ h, 0 ≤ h → h ≤ h1 →
      Real.exp (Λ * (t1 - t0)) * ((t1 - t0) * (C * h ^ r)) = B * h ^ r ∧
      Real.exp (Λ * (t1 - t0)) * ((t1 - t0) * (C * h ^ r)) ≤ 1 := by
  have hT : 0 ≤ t1 - t0 := by linarith
  set B := Real.exp (Λ * (t1 - t0)) * ((t1 - t0) * C) with hB
  have hB0 : 0 ≤ B := by positivity
  refine ⟨B, min h0 (min 1 (1 / (B + 1))), hB0, by positivity, min_le_left _ _, fun h hh hle => ?_⟩
  have e : Real.exp (Λ * (t1 - t0)) * ((t1 - t0) * (C * h ^ r)) = B * h ^ r := by rw [hB]; ring
  exact ⟨e, by rw [e]; exact small_pow hr hB0 hh (hle.trans (min_le_right _ _))⟩

/-- **C82, convergence whatever the Newton tolerances.**  Let `u` solve `u' = f(t,u)` on `[t0,t1]`.  With a continuously differentiable
`f` and any continuous matrix in place of the Jacobi matrix (`r = 1`), or a twice continuously differentiable `f` and its true Jacobi
matrix (`r = 2`), there are constants `C` and `h₀ > 0` that depend on the problem and the method only: every run that returns, with
`max_dt` and the initial step at most `h ≤ h₀`, has all its recorded and streamed samples within `C h^r` of the solution.  There is no
condition on the tolerances and the iteration limit of the Newton iteration, on the tolerances of the error control, or on the number
of steps. -/
theorem C82_convergence (hm : m ∈ ([210, 211, 230, 231, 232] : List ℤ)) (hf : ContDiff ℝ r fun q : ℝ × Vec ℝ n => fn.fn q.1 q.2)
    (hjac : (r = 1 ∧ Continuous fun q : ℝ × Vec ℝ n => fn.jac q.1 q.2) ∨ (r = 2 ∧ ∀ t y, IsJacobianAt (fn.fn t) (fn.jac t y) y))
    (h01 : t0 ≤ t1) (hu : ∀ t ∈ Icc t0 t1, HasDerivWithinAt u (fn.fn t (u t)) (Icc t0 t1) t) :
    ∃ C h0 : ℝ, 0 ≤ C ∧ 0 < h0 ∧ ∀ (nd : Bool) (la : LinAlg ℝ) (o : IrkOpts ℝ) (oo : OutOpts) (dt : ℝ) (fuel : ℕ)
      (out : IrkOutput ℝ ((irkCoeffs m : SolverCoeffs ℝ).ns * n) n) (h : ℝ), la.Exact → la.Sound →
      irkOdeint nd la fn t0 t1 (u t0) o oo m dt fuel = some (.ret out) → (nd = false ∨ (0 < dt ∧ t0 < t1)) →
      h ≤ h0 → 0 < o.maxDt → o.maxDt ≤ h → dt ≤ h →
      (∀ (i : ℕ) (t : ℝ) (y : Vec ℝ n), out.tVals[i]? = some t → out.yVals[i]? = some y → ‖y - u t‖ ≤ C * h ^ r) ∧
      ∀ l ∈ out.file, ‖l.2 - u l.1‖ ≤ C * h ^ r := by
  have hj : JacobianOrder fn r := hjac
  obtain ⟨ho, hc⟩ := implicit_order_two hm
  obtain ⟨Λ, C, h0, hΛ, hC, hh0, H⟩ := near_step hj.le_two hf hj hu ho hc
  obtain ⟨B, h1, hB, hh1, hle1, hcon⟩ := near_constants (Λ := Λ) (t0 := t0) (t1 := t1) hC hh0 h01 hj.pos
  refine ⟨B, h1, hB, hh1, ?_⟩
  intro nd la o oo dt fuel out h hla hs hrun hpos hle hmx hmxh hdt
  obtain ⟨e, hone⟩ := hcon h (hmx.le.trans hmxh) hle
  obtain ⟨o', -, e2, hg⟩ := irkOdeint_ret hrun
  have := guts_near (o := o') H hΛ hC hla hs (hle.trans hle1) hone (by rw [e2]; exact hmx) (by rw [e2]; exact hmxh) hdt hg hpos
  rwa [e] at this

/-- `odeint` is `irk_guts` for the methods with an embedded pair -/
theorem odeint_guts {m : ℤ} (hm : m ∈ ([210, 211, 230, 231, 232] : List ℤ)) {y0 : Vec ℝ n} {o : IrkOpts ℝ} {oo : OutOpts} {dt : ℝ}
    {fuel : ℕ} : irkOdeint false laReal fn t0 t1 y0 o oo m dt fuel =
      irkGuts false laReal fn t0 t1 y0 o dt (irkCoeffs m) oo fuel := by
  have hU : m ∈ ([210, 211, 212, 213, 230, 231, 232] : List ℤ) := by
    have : ∀ m ∈ ([210, 211, 230, 231, 232] : List ℤ), m ∈ ([210, 211, 212, 213, 230, 231, 232] : List ℤ) := by decide
    exact this m hm
  have hv : irkVerify (irkCoeffs m : SolverCoeffs ℝ) = true :=
    (C08_irk m).mpr (by
      have : ∀ m ∈ ([210, 211, 212, 213, 230, 231, 232] : List ℤ),
        m ∈ ([200, 210, 211, 212, 213, 220, 222, 230, 231, 232, 240, 243] : List ℤ) := by decide
      exact this m hU)
  have hb : 0 < (irkCoeffs m : SolverCoeffs ℝ).b2.length := by
    have hI : m ∈ irkImplemented := by
      have : ∀ m ∈ irkUsable, m ∈ irkImplemented := by decide
      exact this m hU
    rw [(usable_shipped (m := m) hU).b2]
    exact ((img_shipped hI).shape (baseOK_shipped m hI)).2.2.2.1
  unfold irkOdeint
  have : ((if (o.adaptive && (irkCoeffs m : SolverCoeffs ℝ).b2.length == 0) = true then
      { o with adaptive := false } else o) : IrkOpts ℝ) = o := by
    rw [if_neg]; simp; intro _ h; rw [h] at hb; simp at hb
  simp only [hv, Bool.not_true, Bool.and_false, Bool.false_eq_true, if_false, this]

/-- **C82, completion.**  Under the same conditions the adaptive integrator completes: for every choice of the Newton options (iteration
limit at least two, non-zero tolerance, non-zero refresh interval) and of the tolerances of the error control, and for every `max_dt`
at most an `h₀ > 0` that depends on the problem and the method only, `irk::odeint` returns with status SUCCESS, and the value recorded
for `t1` is within `C max_dt^r` of the solution. -/
theorem C82_completes (hm : m ∈ ([210, 211, 230, 231, 232] : List ℤ)) (hf : ContDiff ℝ r fun q : ℝ × Vec ℝ n => fn.fn q.1 q.2)
    (hjac : (r = 1 ∧ Continuous fun q : ℝ × Vec ℝ n => fn.jac q.1 q.2) ∨ (r = 2 ∧ ∀ t y, IsJacobianAt (fn.fn t) (fn.jac t y) y))
    (hn : 0 < n) (h01 : t0 < t1) (hu : ∀ t ∈ Icc t0 t1, HasDerivWithinAt u (fn.fn t (u t)) (Icc t0 t1) t) :
    ∃ C h0 : ℝ, 0 ≤ C ∧ 0 < h0 ∧ ∀ (o : IrkOpts ℝ) (no : NewtonOpts ℝ) (oo : OutOpts) (dt : ℝ),
      o.adaptive = true → o.maxSteps < 0 → o.newtonOpts = some no → 2 ≤ no.maxit → no.tol ≠ 0 → no.refreshJac ≠ 0 →
      0 < o.absTol → 0 ≤ o.relTol → oo.storeInVectors = true → oo.interval.toNat = 1 →
      (oo.writeToFile = true → oo.streamSet = true) → 0 < o.maxDt → o.maxDt ≤ h0 → 0 < dt → dt ≤ o.maxDt →
      ∃ fuel out yEnd, irkOdeint false laReal fn t0 t1 (u t0) o oo m dt fuel = some (.ret out) ∧ out.status = 0 ∧
        out.tVals.getLast? = some t1 ∧ out.yVals.getLast? = some yEnd ∧ ‖yEnd - u t1‖ ≤ C * o.maxDt ^ r ∧
        ∀ (i : ℕ) (t : ℝ) (y : Vec ℝ n), out.tVals[i]? = some t → out.yVals[i]? = some y → ‖y - u t‖ ≤ C * o.maxDt ^ r := by
  have hj : JacobianOrder fn r := hjac
  obtain ⟨ho, hc⟩ := implicit_order_two hm
  set sc : SolverCoeffs ℝ := irkCoeffs m with hsc
  obtain ⟨Λ, C, hs, hΛ, hC, hhs, H⟩ := near_step hj.le_two hf hj hu ho hc
  have hf1 : ContDiff ℝ 1 fun q : ℝ × Vec ℝ n => fn.fn q.1 q.2 := hf.of_le (by exact_mod_cast hj.pos)
  obtain ⟨Jb, M, L, hb, Q, hJb, hM, hL, hhb, -, HB⟩ := near_bounds hf1 (hj.continuous hf) hu sc
  obtain ⟨B, h1, hB, hh1, hle1, hcon⟩ := near_constants (Λ := Λ) (t0 := t0) (t1 := t1) hC (lt_min hhs hhb) h01.le hj.pos
  refine ⟨B, h1, hB, hh1, ?_⟩
  intro o no oo dt had hms hno hmax htol hrj hat hrt hst hint hw hmx hle hdt hdtle
  obtain ⟨e, hone⟩ := hcon o.maxDt hmx.le hle
  have hU : m ∈ ([210, 211, 212, 213, 230, 231, 232] : List ℤ) := by
    have : ∀ m ∈ ([210, 211, 230, 231, 232] : List ℤ), m ∈ ([210, 211, 212, 213, 230, 231, 232] : List ℤ) := by decide
    exact this m hm
  have hUs : Usable sc := usable_shipped (m := m) hU
  have hclip : 0 < clipDt t0 t1 dt := by rw [clipDt_real]; exact lt_min hdt (by linarith)
  have hclip' : clipDt t0 t1 dt ≤ o.maxDt := by rw [clipDt_real]; exact (min_le_left _ _).trans hdtle
  have hles : o.maxDt ≤ hs := hle.trans (hle1.trans (min_le_left _ _))
  have hleb : o.maxDt ≤ hb := hle.trans (hle1.trans (min_le_right _ _))
  have hE : 0 ≤ C * o.maxDt ^ r := by positivity
  have hinv : laReal.inv sc.mat = some fun i j => (Matrix.of sc.mat)⁻¹ i j := laReal_exact.inv _ hUs.inv
  have hnear : ∀ s : IrkState ℝ (sc.ns * n) n, NearI u t0 t1 Λ (C * o.maxDt ^ r) o.maxDt s → s.t ∈ Icc t0 t1 ∧ ‖s.y - u s.t‖ ≤ 1 :=
    fun s hN => ⟨⟨hN.time.lo, hN.time.hi⟩, hN.err.trans ((near_mono hΛ hE (by linarith [hN.time.lo]) (by linarith [hN.time.hi])).trans hone)⟩
  -- the run ends
  obtain ⟨fuel, res, hres⟩ : ∃ fuel res, irkGuts false laReal fn t0 t1 (u t0) o dt sc oo fuel = some res := by
    refine guts_ends (Or.inl rfl) fun no' mo Ai hno' hmo hAi hcl _ => ?_
    rw [hno] at hno'
    cases hno'
    refine loop_ends_inv (t0 := t0) (minOrder_stiff hm hmo) one_pos (I := fun s => GoodI t0 t1 s ∧ NearI u t0 t1 Λ (C * o.maxDt ^ r) o.maxDt s)
      (fun s h => h.1)
      (fun s s' h hb => ⟨goodI_next (by omega) h.1 hb, near_next H hΛ hC laReal_exact laReal_sound hAi hles hone hmx le_rfl h.2 hb⟩)
      (fun s hI => ⟨fun _ => True, trivial, fun _ _ _ _ _ _ => trivial, ?_⟩) _
      ⟨goodI_init h01.le hcl hmax, near_init h01.le hcl hclip' _⟩
    obtain ⟨h0, hh0, C', hC', -, HT⟩ := tame_of_bounded (t0 := t0) (t1 := t1) (nd := false) (fn := fn) (sc := sc) laReal_exact
      laReal_sound hat hrt htol (dWeights Ai fun i => sc.bw i) (dWeights Ai fun i => sc.bw2 i) mo hJb hM one_pos
    refine ⟨h0, hh0, C', hC', fun s hI hlt _ hcl => ?_⟩
    obtain ⟨n1, n2⟩ := hnear s hI.2
    obtain ⟨b1, -, -, b4, -⟩ := HB s.t s.y n1 n2
    exact HT s hI.1 hlt b1 (fun t' y' g1 g2 => b4 t' y' (g1.trans (min_le_left _ _)) g2) hcl
  -- it never ends badly
  have hret : ∃ out, res = .ret out := by
    obtain ⟨mo, he⟩ := irkGuts_loop (fn := fn) (y0 := u t0) (oo := oo) (fuel := fuel) hUs hno hclip
    rw [he] at hres
    have := runLoop_fine (Inv := NearI u t0 t1 Λ (C * o.maxDt ^ r) o.maxDt)
      (fun s hN => irkBody_fine (mo := mo) (d := dWeights (fun i j => (Matrix.of sc.mat)⁻¹ i j) fun i => sc.bw i)
        (d2 := dWeights (fun i j => (Matrix.of sc.mat)⁻¹ i j) fun i => sc.bw2 i) had hn hUs.c hrj (by rw [hint]; decide) hw (s := s) fun hlt => by
          obtain ⟨n1, n2⟩ := hnear s hN
          obtain ⟨b1, -, -, -, b5⟩ := HB s.t s.y n1 n2
          obtain ⟨c1, -, c3⟩ := clip_factsI hN.time hlt
          obtain ⟨-, k2, -, -, -, k6⟩ := b5 _ c1.le ((c3.trans hN.dt).trans hleb)
          exact regular_small c1.le b1 k2 k6)
      (fun s s' hN hb => near_next H hΛ hC laReal_exact laReal_sound hinv hles hone hmx le_rfl hN hb) fuel _
      (near_init h01.le hclip hclip' no.maxit)
    rw [hres] at this
    rcases this with h | ⟨out, h⟩
    · cases h
    · exact ⟨out, Option.some.inj h⟩
  obtain ⟨out, rfl⟩ := hret
  have h0 := adaptive_status had hms hres
  obtain ⟨-, -, -, hlast⟩ := C38_times hres (Or.inl rfl)
  have hlast := hlast h0 hst hint
  obtain ⟨hall, -⟩ := guts_near H hΛ hC laReal_exact laReal_sound hles hone hmx le_rfl hdtle hres (Or.inl rfl)
  rw [e] at hall
  have hlen : out.tVals.length = out.yVals.length := by
    obtain ⟨acc, -, hv, -, -⟩ := irk_accs_count (J := fun _ => True) (Rel := fun _ _ => True) hres (Or.inl rfl)
      (fun _ => trivial) (fun _ _ _ _ _ _ _ _ _ => trivial) (fun _ _ _ _ _ _ _ _ _ _ _ _ _ _ _ _ _ => trivial)
    rw [hv.cols.t, hv.cols.y, List.length_map, List.length_map]
  have hne : out.yVals ≠ [] := by
    intro h
    rw [h, List.length_nil, List.length_eq_zero_iff] at hlen
    rw [hlen] at hlast
    cases hlast
  refine ⟨fuel, out, out.yVals.getLast hne, by rw [odeint_guts hm]; exact hres, h0, hlast, List.getLast?_eq_getLast_of_ne_nil hne, ?_, hall⟩
  refine hall (out.tVals.length - 1) t1 _ ?_ ?_
  · rw [← List.getLast?_eq_getElem?]; exact hlast
  · rw [hlen, ← List.getLast?_eq_getElem?]; exact List.getLast?_eq_getLast_of_ne_nil hne

end

end Verif
