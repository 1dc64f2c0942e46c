import Verif.Local
import Verif.Prop.Defaults
import Verif.Prop.BdfStable
import Verif.Prop.EqExamples
import Verif.Prop.MsLinear
import Verif.Prop.MsConverge

/-!
# Property C103: every adaptive integrator, every default call and the bootstrap of the multistep methods complete on short intervals
-/

set_option linter.unusedSectionVars false

namespace Verif
open Spec Set TestEq

section explicit
variable {n : ℕ} {f : ℝ → (Fin n → ℝ) → Fin n → ℝ} {m : ℤ}

/-- **C103 (explicit).**  Let `f` be continuous.  For every `R` there are a length `δ > 0` and a speed `B` that depend on `f`, `R` and the
method only: from every initial time and value of size at most `R` the adaptive integrator completes on every interval of length at most
`δ`, whatever the tolerances (`abs_tol > 0`, `rel_tol ≥ 0`), the initial step, `max_dt` and the output, and no sample is farther than
`B (t - t0)` from the initial value. -/
theorem C103_erk (hm : m ∈ erkImplemented) (hb2 : (erkCoeffs m : SolverCoeffs ℝ).b2 ≠ [])
    (hf : Continuous fun q : ℝ × (Fin n → ℝ) => f q.1 q.2) (R : ℝ) :
    ∃ δ B : ℝ, 0 < δ ∧ 0 ≤ B ∧ ∀ (nd : Bool) (o : ErkOpts ℝ) (oo : OutOpts) (t0 t1 dt : ℝ) (y0 : Vec ℝ n), |t0| ≤ R → ‖y0‖ ≤ R →
      t0 < t1 → t1 ≤ t0 + δ → StreamOK oo → o.adaptive = true → 0 < o.absTol → 0 ≤ o.relTol → o.maxSteps < 0 → 0 < dt →
      ∃ fuel out, erkOdeint nd f t0 t1 y0 o oo m dt fuel = some (.ret out) ∧ out.status = 0 ∧ out.tVals.getLast? = some t1 ∧
        ∀ (i : ℕ) (t : ℝ) (y : Vec ℝ n), out.tVals[i]? = some t → out.yVals[i]? = some y → ‖y - y0‖ ≤ B * (t - t0) := by
  obtain ⟨hex, hfs, -, hcn, -⟩ := shipped_facts hm
  obtain ⟨δ, B, M, hδ, hδ1, hB, hM, H⟩ := erk_ball hex hcn hf R
  refine ⟨δ, B, hδ, hB, ?_⟩
  intro nd o oo t0 t1 dt y0 ht0 hy0 h01 ht1 hs had ha hr hms hdt
  have hat : ∀ (mo : ℕ) (s : ErkState ℝ n), TimeInv t0 t1 s → FsalInv f (erkCoeffs m) s → ‖s.y - y0‖ ≤ B * (s.t - t0) → s.t < t1 →
      let a := attemptAt f t1 (effOpts o (erkCoeffs m)) (erkCoeffs m) mo s
      (∀ i : Fin (erkCoeffs m : SolverCoeffs ℝ).ns, ‖a.Ks i‖ ≤ M) ∧ ‖a.yn - y0‖ ≤ B * (s.t + a.dt - t0) := by
    intro mo s hT hF hq hlt a
    have hd := attempt_dt (f := f) (t1 := t1) (o := effOpts o (erkCoeffs m)) (sc := erkCoeffs m) (mo := mo) s
    obtain ⟨c1, c2, c3⟩ := clip_facts hT hlt
    rw [← hd] at c1 c2 c3
    have hst := attempt_isRKStep (t1 := t1) (o := effOpts o (erkCoeffs m)) (mo := mo) hfs hex hF
    exact H t0 s.t a.dt y0 s.y a.yn (fun i => a.Ks i) ht0 hy0 hT.lo c1.le (c2.trans ht1) hq hst
  obtain ⟨fuel, out, hrun⟩ := adaptive_run_of (nd := nd) (M := M) (fun s => ‖s.y - y0‖ ≤ B * (s.t - t0)) hm hs had hb2 ha hr hdt h01
    (by
      obtain ⟨i1, i2, -⟩ := erkInit_fields (f := f) (t0 := t0) (y0 := y0) (sc := erkCoeffs m) (clipDt t0 t1 dt)
      have i3 : (erkInit f t0 y0 (clipDt t0 t1 dt) (erkCoeffs m)).y = y0 := by
        unfold erkInit
        by_cases hf : (erkCoeffs m : SolverCoeffs ℝ).fsal = true <;> simp [hf, evalFun]
      rw [i1, i3]; simp)
    (fun mo s s' hT hF hq hb => by
      have hc := bodyCase nd f t1 (effOpts o (erkCoeffs m)) oo (erkCoeffs m) mo s
      rw [hb] at hc
      cases hc with
      | accepted h hm' hb2' a hA hE hr' =>
        have := (hat mo s hT hF hq (by simpa using h)).2
        rw [← hA] at this
        exact this
      | rejected h hm' hb2' a hA hE had' hr' => exact hq)
    (fun mo s hT hF hq hlt j k hj => (norm_le_pi_norm _ k).trans ((hat mo s hT hF hq hlt).1 ⟨j, hj⟩))
  have hpos : nd = false ∨ (0 < dt ∧ t0 < t1) := Or.inr ⟨hdt, h01⟩
  have hst : out.status = 0 := by
    have hG := (erkOdeint_ret hrun).2
    obtain ⟨-, -, -, f4⟩ := effOpts_fields o (erkCoeffs m : SolverCoeffs ℝ)
    obtain ⟨mo', s, -, -, hreach, hout⟩ := erkGuts_ret hG
    rcases hout with ⟨-, rfl⟩ | ⟨-, h0, -⟩
    · obtain ⟨recs, -, -, -, -, h3⟩ := erk_out_facts hG
      rcases h3 with h3 | h3
      · exact h3.1
      · simp at h3
    · rw [f4] at h0; omega
  obtain ⟨-, hin, hhd, tl, htl, hend⟩ := C11_odeint hrun hpos
  refine ⟨fuel, out, hrun, hst, ?_, ?_⟩
  · rcases hend with h | h
    · rw [← h.2]; exact htl
    · rw [hst] at h; exact absurd h.1 (by decide)
  · have hhy := (C10_odeint hrun).2.2.2.2.2
    intro i
    induction i with
    | zero =>
      intro t y ht hy
      rw [List.head?_eq_getElem?, ht] at hhd
      rw [List.head?_eq_getElem?, hy] at hhy
      cases hhd; cases hhy
      simp
    | succ i ih =>
      intro t' y' ht' hy'
      have hlt' : i + 1 < out.tVals.length := (List.getElem?_eq_some_iff.mp ht').1
      have ht : out.tVals[i]? = some out.tVals[i] := List.getElem?_eq_getElem (by omega)
      obtain ⟨y, z, k, h1, h2, -, h4⟩ := C12_odeint hrun hpos ht ht'
      rw [hy'] at h2
      cases h2
      have hlt := consecutive_lt (C11_odeint hrun hpos).1 ht ht'
      have hi := hin _ (List.mem_of_getElem? ht)
      have hi' := hin _ (List.mem_of_getElem? ht')
      have := (H t0 _ _ y0 y y' k ht0 hy0 hi.1 (by linarith) (by linarith) (ih _ _ ht h1) h4).2
      rwa [show out.tVals[i] + (t' - out.tVals[i]) = t' by ring] at this

end explicit

section implicit
variable {n : ℕ} {fn : OdeFun ℝ n} {m : ℤ}

/-- **C103 (implicit).**  Let `f` be continuously differentiable, with any continuous matrix in place of its Jacobi matrix.  For every `R`
there are a length `δ > 0` and a speed `B` that depend on the problem, `R` and the method only: from every initial time and value of size
at most `R` the adaptive integrator completes on every interval of length at most `δ`, whatever the tolerances, the Newton options
(iteration limit at least two, non-zero tolerance and refresh interval), the initial step and `max_dt`, and no sample is farther than
`B (t - t0)` from the initial value. -/
theorem C103_irk (hm : m ∈ ([210, 211, 230, 231, 232] : List ℤ)) (hf : ContDiff ℝ 1 fun q : ℝ × Vec ℝ n => fn.fn q.1 q.2)
    (hjac : Continuous fun q : ℝ × Vec ℝ n => fn.jac q.1 q.2) (hn : 0 < n) (R : ℝ) :
    ∃ δ B : ℝ, 0 < δ ∧ 0 ≤ B ∧ ∀ (o : IrkOpts ℝ) (no : NewtonOpts ℝ) (oo : OutOpts) (t0 t1 dt : ℝ) (y0 : Vec ℝ n), |t0| ≤ R → ‖y0‖ ≤ R →
      t0 < t1 → t1 ≤ t0 + δ → o.adaptive = true → o.maxSteps < 0 → o.newtonOpts = some no → 2 ≤ no.maxit → no.tol ≠ 0 →
      no.refreshJac ≠ 0 → 0 < o.absTol → 0 ≤ o.relTol → oo.interval.toNat = 1 → (oo.writeToFile = true → oo.streamSet = true) → 0 < dt →
      ∃ fuel out, irkOdeint false laReal fn t0 t1 y0 o oo m dt fuel = some (.ret out) ∧ out.status = 0 ∧
        (oo.storeInVectors = true → out.tVals.getLast? = some t1) ∧
        ∀ (i : ℕ) (t : ℝ) (y : Vec ℝ n), out.tVals[i]? = some t → out.yVals[i]? = some y → ‖y - y0‖ ≤ B * (t - t0) := by
  have hU : m ∈ ([210, 211, 212, 213, 230, 231, 232] : List ℤ) := by
    have : ∀ m ∈ ([210, 211, 230, 231, 232] : List ℤ), m ∈ ([210, 211, 212, 213, 230, 231, 232] : List ℤ) := by decide
    exact this m hm
  set sc : SolverCoeffs ℝ := irkCoeffs m with hsc
  have hUs : Usable sc := usable_shipped (m := m) hU
  have hinv : laReal.inv sc.mat = some fun i j => (Matrix.of sc.mat)⁻¹ i j := laReal_exact.inv _ hUs.inv
  obtain ⟨δ, B, Jb, M, hδ, hδ1, hB, hJb, hM, H⟩ :=
    irk_ball hf hjac sc (dWeights (fun i j => (Matrix.of sc.mat)⁻¹ i j) fun i => sc.bw i) R
  refine ⟨δ, B, hδ, hB, ?_⟩
  intro o no oo t0 t1 dt y0 ht0 hy0 h01 ht1 had hms hno hmax htol hrj hat hrt hint hw hdt
  have hclip : 0 < clipDt t0 t1 dt := by rw [clipDt_real]; exact lt_min hdt (by linarith)
  have hacc : ∀ (no : NewtonOpts ℝ) (mo : ℕ) (d2 : Vec ℝ sc.ns) (s : IrkState ℝ (sc.ns * n) n) (res : StageResult ℝ (sc.ns * n) n) (a : AttemptI ℝ n),
      TimeInvI t0 t1 s → ‖s.y - y0‖ ≤ B * (s.t - t0) → s.t < t1 → solveAt false laReal fn t1 no sc s = .ret res →
      attemptI laReal fn o sc mo (dWeights (fun i j => (Matrix.of sc.mat)⁻¹ i j) fun i => sc.bw i) d2 s (clipDt s.t t1 s.dt) res.success = some a →
      ‖a.yn - y0‖ ≤ B * (s.t + a.dt - t0) := by
    intro no mo d2 s res a hT hq hlt hr ha
    obtain ⟨q1, q2, -⟩ := attemptI_spec ha
    obtain ⟨c1, c2, c3⟩ := clip_factsI hT hlt
    have hr' : newtonSolveStages false laReal fn sc s.t (clipDt s.t t1 s.dt) s.y s.newtonMaxit no.refreshJac no.dxDelta
      no.tol s.sol.bump.count s.sol.log = .ret res := hr
    have := ((H t0 s.t y0 s.y ht0 hy0 hT.lo (hT.hi.trans ht1) hq).2.2 _ c1.le (c2.trans ht1)).2 _ _ _ _ _ _ _ _ res laReal_exact laReal_sound hr'
    rw [q1]
    have hy : a.yn = fun k => s.y k + combineI sc res.Y (dWeights (fun i j => (Matrix.of sc.mat)⁻¹ i j) fun i => sc.bw i) k := by
      rw [q2]; rfl
    rw [hy]
    exact this
  have hnext : ∀ (no : NewtonOpts ℝ) (mo : ℕ) (d2 : Vec ℝ sc.ns) (s s' : IrkState ℝ (sc.ns * n) n), TimeInvI t0 t1 s ∧ ‖s.y - y0‖ ≤ B * (s.t - t0) →
      irkBody false laReal fn t1 o no oo sc mo (dWeights (fun i j => (Matrix.of sc.mat)⁻¹ i j) fun i => sc.bw i) d2 s = .next s' →
      TimeInvI t0 t1 s' ∧ ‖s'.y - y0‖ ≤ B * (s'.t - t0) := by
    rintro no mo d2 s s' ⟨hT, hq⟩ hb
    refine ⟨timeInvI_next hT hb, ?_⟩
    have hc := bodyCaseI false laReal fn t1 o no oo sc mo (dWeights (fun i j => (Matrix.of sc.mat)⁻¹ i j) fun i => sc.bw i) d2 s
    rw [hb] at hc
    cases hc with
    | newton hl hm r hr hst had => exact hq
    | rejected hl hm r hr hst had a ha hE hj => exact hq
    | accepted hl hm r hr hst had a ha hE hj hi hw => exact hacc no mo d2 s r a hT hq (by simpa using hl) hr ha
  have hini : ∀ mx : ℤ, TimeInvI t0 t1 (irkInit (sc.ns * n) t0 y0 (clipDt t0 t1 dt) mx) ∧
      ‖(irkInit (sc.ns * n) t0 y0 (clipDt t0 t1 dt) mx).y - y0‖ ≤ B * ((irkInit (sc.ns * n) t0 y0 (clipDt t0 t1 dt) mx).t - t0) :=
    fun mx => ⟨timeInvI_init h01.le hclip mx, by simp [irkInit]⟩
  -- the run ends
  obtain ⟨fuel, res, hres⟩ : ∃ fuel res, irkGuts false laReal fn t0 t1 y0 o dt sc oo fuel = some res := by
    refine guts_ends (Or.inl rfl) fun no' mo Ai hno' hmo hAi hcl _ => ?_
    rw [hno] at hno'
    cases hno'
    rw [hinv] at hAi
    cases hAi
    refine loop_ends_inv (t0 := t0) (minOrder_stiff hm hmo) one_pos
      (I := fun s => GoodI t0 t1 s ∧ (TimeInvI t0 t1 s ∧ ‖s.y - y0‖ ≤ B * (s.t - t0)))
      (fun s h => h.1) (fun s s' h hb => ⟨goodI_next (by omega) h.1 hb, hnext _ _ _ s s' h.2 hb⟩)
      (fun s hI => ⟨fun _ => True, trivial, fun _ _ _ _ _ _ => trivial, ?_⟩) _
      ⟨goodI_init h01.le hcl hmax, hini _⟩
    obtain ⟨h0, hh0, C', hC', -, HT⟩ := tame_of_bounded (t0 := t0) (t1 := t1) (nd := false) (fn := fn) (sc := sc) laReal_exact
      laReal_sound hat hrt htol (dWeights (fun i j => (Matrix.of sc.mat)⁻¹ i j) fun i => sc.bw i)
      (dWeights (fun i j => (Matrix.of sc.mat)⁻¹ i j) fun i => sc.bw2 i) mo hJb hM one_pos
    refine ⟨h0, hh0, C', hC', fun s hI hlt _ hcl => ?_⟩
    obtain ⟨b1, b4, -⟩ := H t0 s.t y0 s.y ht0 hy0 hI.1.time.lo (hI.1.time.hi.trans ht1) hI.2.2
    exact HT s hI.1 hlt b1 (fun t' y' g1 g2 => b4 t' y' (g1.trans (min_le_left _ _)) g2) hcl
  -- it never ends badly
  have hret : ∃ out, res = .ret out := by
    obtain ⟨mo, he⟩ := irkGuts_loop (fn := fn) (y0 := y0) (oo := oo) (fuel := fuel) hUs hno hclip
    rw [he] at hres
    have := runLoop_fine (Inv := fun s => TimeInvI t0 t1 s ∧ ‖s.y - y0‖ ≤ B * (s.t - t0))
      (fun s hN => irkBody_fine (mo := mo) (d := dWeights (fun i j => (Matrix.of sc.mat)⁻¹ i j) fun i => sc.bw i)
        (d2 := dWeights (fun i j => (Matrix.of sc.mat)⁻¹ i j) fun i => sc.bw2 i) had hn hUs.c hrj (by rw [hint]; decide) hw (s := s) fun hlt => by
          obtain ⟨c1, c2, c3⟩ := clip_factsI hN.1 hlt
          exact ((H t0 s.t y0 s.y ht0 hy0 hN.1.lo (hN.1.hi.trans ht1) hN.2).2.2 _ c1.le (c2.trans ht1)).1)
      (fun s s' hN hb => hnext _ _ _ s s' hN hb) fuel _ (hini no.maxit)
    rw [hres] at this
    rcases this with h | ⟨out, h⟩
    · cases h
    · exact ⟨out, Option.some.inj h⟩
  obtain ⟨out, rfl⟩ := hret
  have h0 := adaptive_status had hms hres
  obtain ⟨-, -, -, hlast⟩ := C38_times hres (Or.inl rfl)
  refine ⟨fuel, out, by rw [odeint_guts hm]; exact hres, h0, fun hst => hlast h0 hst hint, ?_⟩
  obtain ⟨acc, -, hv, hch, hhead⟩ := irk_accs_count (sc := sc) (fn := fn) (J := fun s => TimeInvI t0 t1 s ∧ ‖s.y - y0‖ ≤ B * (s.t - t0))
    (Rel := fun _ b => ‖b.y - y0‖ ≤ B * (b.t - t0)) hres (Or.inl rfl) hini
    (fun no' mo Ai s s' hno' hJ hA hb => by
      rw [hinv] at hA; cases hA
      exact hnext _ _ _ s s' hJ hb)
    (fun no' mo Ai s res a l hno' hA hT hJ hlt hr hst ha _ _ => by
      rw [hinv] at hA; cases hA
      exact hacc _ _ _ s res a hT hJ.2 hlt hr ha)
  have hall : ∀ b ∈ acc, ‖b.y - y0‖ ≤ B * (b.t - t0) := by
    intro b hb
    cases acc with
    | nil => cases hb
    | cons x l =>
      rcases List.mem_cons.mp hb with rfl | hb
      · simp only [List.head?_cons, Option.some.injEq] at hhead
        rw [hhead]
        simp [firstI]
      · obtain ⟨a', h'⟩ := chain_pred hch hb
        exact h'
  exact recorded_of_all (P := fun t y => ‖y - y0‖ ≤ B * (t - t0)) hv hall

end implicit

/-! ### the default calls -/

section default
variable {n : ℕ}

/-- **C103 (default calls).**  `erk::odeint( func, t0, t1, y0 )` with a continuous and `irk::odeint( func, t0, t1, y0 )` with a continuously
differentiable right-hand side return SUCCESS on short intervals, however fast the right-hand side grows. -/
theorem C103_default_erk {f : ℝ → Vec ℝ n → Vec ℝ n} (hf : Continuous fun q : ℝ × Vec ℝ n => f q.1 q.2) (t0 : ℝ) (y0 : Vec ℝ n) :
    ∃ δ > 0, ∀ nd t1, t0 < t1 → t1 ≤ t0 + δ → ∃ fuel out, erkOdeintDefault nd f t0 t1 y0 fuel = some (.ret out) ∧ out.status = 0 ∧
      out.tVals.getLast? = some t1 := by
  obtain ⟨δ, B, hδ, -, key⟩ := C103_erk (m := 131) (by decide) (by simp [erkCoeffs, dormandPrince54]) hf (max |t0| ‖y0‖)
  refine ⟨δ, hδ, fun nd t1 h01 h1 => ?_⟩
  obtain ⟨fuel, out, h, h2, h3, -⟩ := key nd { adaptive := true, relTol := 1 / 10 ^ 4, absTol := 1 / 10 ^ 3, maxDt := 0, maxSteps := -1 }
    OutOpts.dflt t0 t1 (1 / 10 ^ 6) y0 (le_max_left _ _) (le_max_right _ _) h01 h1 (fun h => absurd h (by decide)) rfl (by norm_num)
    (by norm_num) (by norm_num) (by norm_num)
  exact ⟨fuel, out, by rw [erkDefault_settings]; exact h, h2, h3⟩

theorem C103_default_irk {fn : OdeFun ℝ n} (hf : ContDiff ℝ 1 fun q : ℝ × Vec ℝ n => fn.fn q.1 q.2)
    (hjac : Continuous fun q : ℝ × Vec ℝ n => fn.jac q.1 q.2) (hn : 0 < n) (t0 : ℝ) (y0 : Vec ℝ n) :
    ∃ δ > 0, ∀ t1, t0 < t1 → t1 ≤ t0 + δ → ∃ fuel out, irkOdeintDefault false laReal fn t0 t1 y0 fuel = some (.ret out) ∧ out.status = 0 ∧
      out.tVals.getLast? = some t1 := by
  obtain ⟨δ, B, hδ, -, key⟩ := C103_irk (m := 211) (by decide) hf hjac hn (max |t0| ‖y0‖)
  refine ⟨δ, hδ, fun t1 h01 h1 => ?_⟩
  obtain ⟨fuel, out, h, h2, h3, -⟩ := key defaultIrk defaultNewton OutOpts.dflt t0 t1 (1 / 10 ^ 6) y0 (le_max_left _ _) (le_max_right _ _) h01 h1
    rfl (by norm_num [defaultIrk]) rfl (by norm_num [defaultNewton]) (by norm_num [defaultNewton]) (by norm_num [defaultNewton])
    (by norm_num [defaultIrk]) (by norm_num [defaultIrk]) (by decide) (fun h => absurd h (by decide)) (by norm_num)
  exact ⟨fuel, out, by rw [irkDefault_settings]; exact h, h2, h3 (by decide)⟩

end default

/-! ### the multistep methods -/

section multistep
variable {n : ℕ} {fn : OdeFun ℝ n} {t0 t1 T : ℝ} {u : ℝ → Vec ℝ n} {order : ℤ}

/-- the bootstrap returns when the runs it consists of do -/
theorem bootstrap_of_runs_on {nd : Bool} {la : LinAlg ℝ} {dt : ℝ} {y : Vec ℝ n} {t0 t1 : ℝ} (hdt : 0 ≤ dt)
    (H : ∀ t, t0 ≤ t → t ≤ t1 → ∃ fuel out, bootRun nd la fn fuel bootOut t dt y = some (.ret out)) (order : ℤ)
    (h1 : t0 + (order - 1).toNat * dt ≤ t1) : ∃ fuel l, bootstrap nd la fn fuel order y t0 dt = some (.ret l) := by
  have hmono : ∀ (k : ℕ) t fuel r, bootRun nd la fn fuel bootOut t dt y = some r → bootRun nd la fn (fuel + k) bootOut t dt y = some r :=
    fun k t fuel r h => irkOdeint_mono k h
  have key : ∀ (k : ℕ) t, t0 ≤ t → t + k * dt ≤ t1 → ∃ fuel, ∀ m, ∃ l, bootIter nd la fn (fuel + m) dt k t y = some (.ret l) := by
    intro k
    induction k with
    | zero => intro t _ _; exact ⟨0, fun m => ⟨[], rfl⟩⟩
    | succ k ih =>
      intro t ht htk
      push_cast at htk
      have hkd : 0 ≤ (k : ℝ) * dt := by positivity
      obtain ⟨f1, out, g1⟩ := H t ht (by linarith)
      obtain ⟨f2, g2⟩ := ih (t + dt) (by linarith) (by linarith)
      refine ⟨f1 + f2, fun m => ?_⟩
      obtain ⟨l, hl⟩ := g2 (f1 + m)
      have e1 := hmono (f2 + m) _ _ _ g1
      rw [← add_assoc] at e1
      have e2 : f2 + (f1 + m) = f1 + f2 + m := by omega
      rw [e2] at hl
      obtain ⟨q1, q2⟩ := bootRun_first e1
      refine ⟨(t + dt, y) :: l, ?_⟩
      rw [bootIter, e1]
      simp only [q1, q2]
      simp [hl]
  obtain ⟨fuel, h⟩ := key (order - 1).toNat t0 le_rfl h1
  obtain ⟨l, hl⟩ := h 0
  exact ⟨fuel, (t0, y) :: l, by unfold bootstrap; rw [add_zero] at hl; rw [hl]⟩

/-- **C103 (bootstrap).**  For small steps the bootstrap of the multistep methods returns, uniformly for initial data of size at most `R`. -/
theorem C103_bootstrap (hf : ContDiff ℝ 1 fun q : ℝ × Vec ℝ n => fn.fn q.1 q.2)
    (hjac : Continuous fun q : ℝ × Vec ℝ n => fn.jac q.1 q.2) (hn : 0 < n) (R : ℝ) : ∃ η > 0, ∀ (order : ℤ) (t0 dt : ℝ) (y0 : Vec ℝ n),
      order ≤ 7 → |t0| ≤ R → ‖y0‖ ≤ R → 0 < dt → dt ≤ η →
      ∃ fuel l, bootstrap false laReal fn fuel order y0 t0 dt = some (.ret l) := by
  obtain ⟨δ, B, hδ, -, key⟩ := C103_irk (m := 232) (by decide) hf hjac hn (R + 6)
  refine ⟨min δ 1, lt_min hδ one_pos, fun order t0 dt y0 ho ht0 hy0 hdt hle => ?_⟩
  refine bootstrap_of_runs_on (t1 := t0 + 6) hdt.le (fun t g1 g2 => ?_) order ?_
  · obtain ⟨fuel, out, h1, -⟩ := key bootOpts NewtonOpts.dflt bootOut t (t + dt) (lit (1 / 10 ^ 6)) y0
      (by rw [abs_le] at ht0 ⊢; constructor <;> linarith) (by linarith) (by linarith) (by linarith [hle.trans (min_le_left _ _)]) rfl
      (by norm_num [bootOpts, IrkOpts.dflt]) rfl (by norm_num [NewtonOpts.dflt]) (by norm_num [NewtonOpts.dflt])
      (by norm_num [NewtonOpts.dflt]) (by norm_num [bootOpts]) (by norm_num [bootOpts]) (by decide) (fun h => absurd h (by decide)) (by norm_num)
    exact ⟨fuel, out, h1⟩
  · have h1 : ((order - 1).toNat : ℝ) ≤ 6 := by exact_mod_cast (by omega : (order - 1).toNat ≤ 6)
    have h2 : dt ≤ 1 := hle.trans (min_le_right _ _)
    nlinarith

/-- **C103 (`bdf`).**  If `u' = f(t,u)` has a solution on `[t0, T]` with `t1 < T`, `bdf` of every order with small enough steps returns
with SUCCESS, its last sample is at or after `t1`, and all samples up to `T` are within `C dt` of the solution. -/
theorem C103_bdf (h0 : 0 < order) (h6 : order ≤ 6) (h01 : t0 < t1) (hT : t1 < T)
    (hf : ContDiff ℝ 1 fun q : ℝ × Vec ℝ n => fn.fn q.1 q.2) (hjac : Continuous fun q : ℝ × Vec ℝ n => fn.jac q.1 q.2) (hn : 0 < n)
    (hu : ∀ t ∈ Icc t0 T, HasDerivWithinAt u (fn.fn t (u t)) (Icc t0 T) t) :
    ∃ C η : ℝ, 0 ≤ C ∧ 0 < η ∧ ∀ dt st0, 0 < dt → dt ≤ η → ∃ fuelB fuel out,
      bdf false laReal fn t0 t1 (u t0) order dt st0 fuelB fuel = some (.ret out) ∧ out.status = 0 ∧
      (∃ tl, out.tVals.getLast? = some tl ∧ t1 ≤ tl) ∧
      ∀ (i : ℕ) t y, out.tVals[i]? = some t → out.yVals[i]? = some y → t ≤ T → ‖y - u t‖ ≤ C * dt := by
  obtain ⟨η1, hη1, k1⟩ := C103_bootstrap hf hjac hn (max |t0| ‖u t0‖)
  obtain ⟨η2, hη2, k2⟩ := C79_completes (la := laReal) h0 h6 h01 hT hf hjac hu laReal_exact
  obtain ⟨C, η3, hC, hη3, k3⟩ := C79_first_order_partial (la := laReal) h0 h6 (h01.trans hT).le hf hjac hu laReal_exact
  refine ⟨C, min η1 (min η2 η3), hC, lt_min hη1 (lt_min hη2 hη3), fun dt st0 hdt hle => ?_⟩
  have e1 : dt ≤ η1 := hle.trans (min_le_left _ _)
  have e2 : dt ≤ η2 := hle.trans ((min_le_right _ _).trans (min_le_left _ _))
  have e3 : dt ≤ η3 := hle.trans ((min_le_right _ _).trans (min_le_right _ _))
  obtain ⟨fuelB, l, hl⟩ := k1 (order + 1) t0 (min dt (t1 - t0)) (u t0) (by omega) (le_max_left _ _) (le_max_right _ _)
    (lt_min hdt (by linarith)) ((min_le_left _ _).trans e1)
  obtain ⟨fuel, out, h⟩ := C53_bdf_returns (st0 := st0) h0 h6 hdt h01 hl
  have hst := k2 false dt st0 fuelB fuel out hdt e2 h
  refine ⟨fuelB, fuel, out, h, hst, ?_, fun i t y ht hy htT => (k3 false t1 dt st0 fuelB fuel out hdt e3 h01 h i t y ht hy htT).trans
    (mul_le_mul_of_nonneg_left (min_le_left _ _) hC)⟩
  obtain ⟨N, n1, -, n3, n4, n5, -⟩ := C53_bdf h0 h6 h
  refine ⟨_, ?_, n5.1 hst⟩
  rw [List.getLast?_eq_getElem?, n1]
  exact n4 _ (by omega)

/-- **C103 (`adams_bashforth`).**  Likewise, also without a solution beyond `t1`. -/
theorem C103_adams_bashforth (h0 : 0 < order) (h5 : order ≤ 5) (h01 : t0 < t1)
    (hf : ContDiff ℝ 1 fun q : ℝ × Vec ℝ n => fn.fn q.1 q.2) (hjac : Continuous fun q : ℝ × Vec ℝ n => fn.jac q.1 q.2) (hn : 0 < n)
    (hu : ∀ t ∈ Icc t0 t1, HasDerivWithinAt u (fn.fn t (u t)) (Icc t0 t1) t) :
    ∃ C η : ℝ, 0 ≤ C ∧ 0 < η ∧ ∀ dt st0, 0 < dt → dt ≤ η → ∃ fuelB fuel out,
      adamsBashforth false laReal fn t0 t1 (u t0) order dt st0 fuelB fuel = some (.ret out) ∧ out.status = 0 ∧
      (∃ tl, out.tVals.getLast? = some tl ∧ t1 ≤ tl) ∧
      ∀ (i : ℕ) t y, out.tVals[i]? = some t → out.yVals[i]? = some y → t ≤ t1 → ‖y - u t‖ ≤ C * dt := by
  obtain ⟨η1, hη1, k1⟩ := C103_bootstrap hf hjac hn (max |t0| ‖u t0‖)
  obtain ⟨C, η3, hC, hη3, k3⟩ := C78_first_order_partial h0 h5 h01.le hf hu
  refine ⟨C, min η1 η3, hC, lt_min hη1 hη3, fun dt st0 hdt hle => ?_⟩
  have e1 : dt ≤ η1 := hle.trans (min_le_left _ _)
  have e3 : dt ≤ η3 := hle.trans (min_le_right _ _)
  obtain ⟨fuelB, l, hl⟩ := k1 order t0 (min dt (t1 - t0)) (u t0) (by omega) (le_max_left _ _) (le_max_right _ _)
    (lt_min hdt (by linarith)) ((min_le_left _ _).trans e1)
  obtain ⟨fuel, out, h⟩ := C53_ab_returns (st0 := st0) h0 h5 hdt h01 hl
  obtain ⟨N, hst, n1, -, n3, n4, n5, -⟩ := C53_adams_bashforth h
  refine ⟨fuelB, fuel, out, h, hst, ⟨_, ?_, n5⟩, fun i t y ht hy htT =>
    (k3 false laReal t1 dt st0 fuelB fuel out hdt e3 h01 h i t y ht hy htT).trans (mul_le_mul_of_nonneg_left (min_le_left _ _) hC)⟩
  rw [List.getLast?_eq_getElem?, n1]
  exact n4 _ (by omega)

end multistep

/-! ### examples -/

-- The dimer equation: runs of BDF4 and Adams–Bashforth 3 on [0, 10], and their mass (C57).
example : ∃ η : ℝ, 0 < η ∧ ∀ dt st0, 0 < dt → dt ≤ η → ∃ fuelB fuel out,
    bdf false laReal (dimer (1 : ℝ)) 0 10 (dimerSol 0) 4 dt st0 fuelB fuel = some (.ret out) ∧ out.status = 0 ∧
    ∀ y ∈ out.yVals, y 0 + 2 * y 1 = 1 := by
  obtain ⟨C, η, -, hη, key⟩ := C103_bdf (order := 4) (fn := dimer 1) (u := dimerSol) (t0 := 0) (t1 := 10) (T := 11) (by norm_num) (by norm_num)
    (by norm_num) (by norm_num) (dimer_smooth 1)
    (jacobian_continuous (dimer_smooth 2) fun t y => C55_jacobian_partial (.dimer 1) t y) (by norm_num)
    fun t ht => (dimerSol_deriv ht.1).hasDerivWithinAt
  refine ⟨η, hη, fun dt st0 hdt hle => ?_⟩
  obtain ⟨fuelB, fuel, out, h, hst, -⟩ := key dt st0 hdt hle
  refine ⟨fuelB, fuel, out, h, hst, fun y hy => ?_⟩
  have := C57_bdf (.dimer 1) (solves_laReal _ _) h y hy
  simp only [Fin.sum_univ_two, Matrix.cons_val_zero, Matrix.cons_val_one, dimerSol] at this
  norm_num at this
  linarith

example : ∃ η : ℝ, 0 < η ∧ ∀ dt st0, 0 < dt → dt ≤ η → ∃ fuelB fuel out,
    adamsBashforth false laReal (dimer (1 : ℝ)) 0 10 (dimerSol 0) 3 dt st0 fuelB fuel = some (.ret out) ∧
    ∀ y ∈ out.yVals, y 0 + 2 * y 1 = 1 := by
  obtain ⟨C, η, -, hη, key⟩ := C103_adams_bashforth (order := 3) (fn := dimer 1) (u := dimerSol) (t0 := 0) (t1 := 10) (by norm_num) (by norm_num)
    (by norm_num) (dimer_smooth 1)
    (jacobian_continuous (dimer_smooth 2) fun t y => C55_jacobian_partial (.dimer 1) t y) (by norm_num)
    fun t ht => (dimerSol_deriv ht.1).hasDerivWithinAt
  refine ⟨η, hη, fun dt st0 hdt hle => ?_⟩
  obtain ⟨fuelB, fuel, out, h, hst, -⟩ := key dt st0 hdt hle
  refine ⟨fuelB, fuel, out, h, fun y hy => ?_⟩
  have := C57_adams_bashforth (.dimer 1) h y hy
  simp only [Fin.sum_univ_two, Matrix.cons_val_zero, Matrix.cons_val_one, dimerSol] at this
  norm_num at this
  linarith

-- A right-hand side without growth bound whose solutions blow up: y' = y².
example (y0 : Vec ℝ 1) : ∃ δ > 0, ∀ t1, (0 : ℝ) < t1 → t1 ≤ 0 + δ → ∃ fuel out,
    irkOdeintDefault false laReal squareFun 0 t1 y0 fuel = some (.ret out) ∧ out.status = 0 ∧ out.tVals.getLast? = some t1 :=
  C103_default_irk (contDiff_pi.mpr fun i => ((contDiff_apply ℝ ℝ i).comp contDiff_snd).pow 2)
    (continuous_pi fun _ => continuous_pi fun _ => continuous_const.mul ((continuous_apply 0).comp continuous_snd)) one_pos 0 y0

example (y0 : Vec ℝ 1) : ∃ δ > 0, ∀ nd t1, (0 : ℝ) < t1 → t1 ≤ 0 + δ → ∃ fuel out,
    erkOdeintDefault nd squareFun.fn 0 t1 y0 fuel = some (.ret out) ∧ out.status = 0 ∧ out.tVals.getLast? = some t1 :=
  C103_default_erk (continuous_pi fun i => ((continuous_apply i).comp continuous_snd).pow 2) 0 y0

end Verif
