import Verif.Prop.IrkConverge
import Verif.Prop.IrkStiff

/-!
# C83: the error estimate of the implicit integrator

The estimate of `irk_guts` (irk.hpp 699-731) follows formulas (8.19) and (8.20) of Hairer and Wanner (Solving Ordinary
Differential Equations II, section IV.8): `err = (I - hγJ)⁻¹ (γ h f(t, y) + Σ (b̂ - b) h k)`, and, on the first pass and
after a rejected step, the same with `f(t, y + err)`.  The code multiplies both by `dt` once more.
-/

set_option linter.unusedSectionVars false

namespace Verif
open Spec

variable {n : ℕ} {nd : Bool} {la : LinAlg ℝ} {fn : OdeFun ℝ n} {t0 t1 : ℝ} {y0 : Vec ℝ n} {o : IrkOpts ℝ}
  {dt : ℝ} {sc : SolverCoeffs ℝ} {oo : OutOpts} {fuel : ℕ} {out : IrkOutput ℝ (sc.ns * n) n}

/-- how a pass through the loop ended -/
inductive Pass | newton | error | accepted
  deriving DecidableEq

/-- formula (8.20) is due after the passes `hist`: no error test has been made, or the last one failed -/
def altDue (hist : List Pass) : Bool := (hist.filter (· ≠ .newton)).getLast? ≠ some .accepted

/-- `e` solves `(I - γhJ(t, y)) e = γh f(t, v) + h Σ (b̂ - b)_j k_j + ρ` -/
def SolvesEstimate (fn : OdeFun ℝ n) (sc : SolverCoeffs ℝ) (t h : ℝ) (y : Vec ℝ n) (k : Fin sc.ns → Vec ℝ n)
    (ρ v e : Vec ℝ n) : Prop :=
  (1 - (sc.gamma * h) • Matrix.of (fn.jac t y)).mulVec e =
    (sc.gamma * h) • fn.fn t v + (h • ∑ j : Fin sc.ns, (sc.bw2 j - sc.bw j) • k j + ρ)

/-- Estimate of formula (8.19), or (8.20) if `alt`, scaled with `κ`; `k` are the slopes at the stages.  The formulas
are those with `κ = 1` and `ρ = 0`. -/
def IsEstimate (κ : ℝ) (alt : Bool) (fn : OdeFun ℝ n) (sc : SolverCoeffs ℝ) (t h : ℝ) (y : Vec ℝ n) (k : Fin sc.ns → Vec ℝ n)
    (ρ est : Vec ℝ n) : Prop :=
  ∃ e, SolvesEstimate fn sc t h y k ρ y e ∧
    if alt then ∃ e', SolvesEstimate fn sc t h y k ρ (y + κ • e) e' ∧ est = κ • e' else est = κ • e

/-- an accepted step and its error estimate -/
def EstimateStep (alt : Bool) (fn : OdeFun ℝ n) (no : NewtonOpts ℝ) (sc : SolverCoeffs ℝ) (a b : SampleI ℝ n) : Prop :=
  ∃ (d w : Fin sc.ns → ℝ) (Y : Fin sc.ns → Vec ℝ n), ResidualStepAt fn no sc a b d Y ∧
    (IsAffine fn → ∀ i, stageResidual fn.fn sc a.t (b.t - a.t) a.y Y i = 0) ∧
    (∀ j : Fin sc.ns, ∑ i, w i * sc.a i j = sc.bw2 j - sc.bw j) ∧
    (IsUnit (1 - (sc.gamma * (b.t - a.t)) • Matrix.of (fn.jac a.t a.y)).det →
      IsEstimate (b.t - a.t) alt fn sc a.t (b.t - a.t) a.y
        (fun j => fn.fn (a.t + sc.cn j * (b.t - a.t)) (a.y + Y j))
        (∑ i, w i • stageResidual fn.fn sc a.t (b.t - a.t) a.y Y i) b.errEst)

theorem solve_estimate (hla : la.Exact) {Ai : Mat ℝ sc.ns} (hA : la.inv sc.mat = some Ai) {t h : ℝ} {y v e : Vec ℝ n}
    {Y : Vec ℝ (sc.ns * n)} {J : Mat ℝ n} (hJ : J = fn.jac t y)
    (hu : IsUnit (1 - (sc.gamma * h) • Matrix.of (fn.jac t y)).det)
    (he : la.solve (fun i j => eye n i j - sc.gamma * h * J i j) (fun k => sc.gamma * h * fn.fn t v k +
      combineI sc Y (dWeights Ai fun i => sc.bw2 i) k - combineI sc Y (dWeights Ai fun i => sc.bw i) k) = some e) :
    SolvesEstimate fn sc t h y (fun j => fn.fn (t + sc.cn j * h) (y + fun l => Y (finProdFinEquiv (j, l))))
      (∑ i, (dWeights Ai (fun i => sc.bw2 i) i - dWeights Ai (fun i => sc.bw i) i) •
        stageResidual fn.fn sc t h y (fun j l => Y (finProdFinEquiv (j, l))) i) v e := by
  have hM : Matrix.of (fun i j => eye n i j - sc.gamma * h * J i j) = 1 - (sc.gamma * h) • Matrix.of (fn.jac t y) := by
    ext i j
    simp [eye_real, hJ]
  rw [hla.solve _ _ (by rw [hM]; exact hu), Option.some.injEq] at he
  unfold SolvesEstimate
  rw [← he, ← hM, Matrix.mulVec_mulVec, Matrix.mul_nonsing_inv _ (by rw [hM]; exact hu), Matrix.one_mulVec]
  funext k
  rw [combine_update hla hA _ fn.fn t h y Y k, combine_update hla hA _ fn.fn t h y Y k]
  simp only [constructR_eq, Pi.add_apply, Pi.smul_apply, Finset.sum_apply, smul_eq_mul, sub_mul, Finset.sum_sub_distrib,
    mul_sub]
  ring

theorem estimateStep_of (hla : la.Exact) (hs : la.Sound) {Ai : Mat ℝ sc.ns} (hA : la.inv sc.mat = some Ai)
    {no : NewtonOpts ℝ} {mo : ℕ} {s : IrkState ℝ (sc.ns * n) n} {r : StageResult ℝ (sc.ns * n) n} {a : AttemptI ℝ n}
    {l : SampleI ℝ n} (hr : solveAt nd la fn t1 no sc s = .ret r) (hst : r.status = 0)
    (ha : attemptI la fn o sc mo (dWeights Ai fun i => sc.bw i) (dWeights Ai fun i => sc.bw2 i) s (clipDt s.t t1 s.dt)
      r.success = some a) (h1 : l.t = s.t) (h2 : l.y = s.y) : EstimateStep s.alt fn no sc l (newSampleI s a) := by
  obtain ⟨q1, q2, -⟩ := attemptI_spec ha
  have hr' : newtonSolveStages nd la fn sc l.t (clipDt s.t t1 s.dt) l.y s.newtonMaxit no.refreshJac no.dxDelta no.tol
      s.sol.bump.count s.sol.log = .ret r := by rw [h1, h2]; exact hr
  have e3 : (newSampleI s a).t = l.t + clipDt s.t t1 s.dt := by simp only [newSampleI, q1, h1]
  have hsub : (newSampleI s a).t - l.t = clipDt s.t t1 s.dt := by rw [e3]; ring
  obtain ⟨d, hd⟩ := residualStepAt_of hla hs hA (b := newSampleI s a) hr' hst e3
    (by simp only [newSampleI, q2, h2]; rfl)
  refine ⟨d, fun i => dWeights Ai (fun i => sc.bw2 i) i - dWeights Ai (fun i => sc.bw i) i, _, hd, fun hf i => ?_,
    fun j => ?_, fun hu => ?_⟩
  · rw [hsub]; exact stage_affine hla hs hf hr' hst i
  · simp only [sub_mul, Finset.sum_sub_distrib]
    rw [dWeights_A hla hA _ j, dWeights_A hla hA _ j]
  · rw [hsub] at hu ⊢
    rw [h1, h2] at hu
    rw [h1, h2]
    obtain ⟨-, m, Ys, dYs, S⟩ := stage_run hr
    have hJ : r.success.J = fn.jac s.t s.y := S.jac
    unfold attemptI at ha
    simp only at ha
    split at ha
    · cases ha
    · rename_i e he
      have he' := solve_estimate hla hA hJ hu he
      refine ⟨e, he', ?_⟩
      by_cases halt : s.alt = true
      · rw [if_pos halt] at ha ⊢
        split at ha
        · cases ha
        · rename_i e2 he2
          simp only [Option.some.injEq] at ha
          subst ha
          exact ⟨e2, solve_estimate hla hA hJ hu he2, rfl⟩
      · rw [if_neg halt] at ha ⊢
        simp only [Option.some.injEq] at ha
        subst ha
        rfl

/-- `hist` describes the passes made so far, `acc` the accepted samples -/
structure HistInv (fn : OdeFun ℝ n) (no : NewtonOpts ℝ) (sc : SolverCoeffs ℝ) (s : IrkState ℝ (sc.ns * n) n)
    (acc : List (SampleI ℝ n)) (hist : List Pass) : Prop where
  alt : s.alt = altDue hist
  newton : hist.count .newton = s.sol.count.rejectNewton
  error : hist.count .error = s.sol.count.rejectErr
  accepted : hist.count .accepted + 1 = acc.length
  step : ∀ pre post, hist = pre ++ .accepted :: post → ∃ a b, acc[pre.count .accepted]? = some a ∧
    acc[pre.count .accepted + 1]? = some b ∧ EstimateStep (altDue pre) fn no sc a b

theorem altDue_newton (hist : List Pass) : altDue (hist ++ [.newton]) = altDue hist := by
  simp [altDue]

theorem altDue_error (hist : List Pass) : altDue (hist ++ [.error]) = true := by
  simp [altDue]

theorem altDue_accepted (hist : List Pass) : altDue (hist ++ [.accepted]) = false := by
  simp [altDue]

theorem histInv_other {no : NewtonOpts ℝ} {s s' : IrkState ℝ (sc.ns * n) n} {acc : List (SampleI ℝ n)} {hist : List Pass}
    (h : HistInv fn no sc s acc hist) {p : Pass} (hp : p ≠ .accepted) (halt : s'.alt = altDue (hist ++ [p]))
    (h1 : s'.sol.count.rejectNewton = s.sol.count.rejectNewton + if p = .newton then 1 else 0)
    (h2 : s'.sol.count.rejectErr = s.sol.count.rejectErr + if p = .error then 1 else 0) :
    HistInv fn no sc s' acc (hist ++ [p]) := by
  refine ⟨halt, ?_, ?_, ?_, ?_⟩
  · rw [h1, ← h.newton, List.count_append]
    cases p <;> simp
  · rw [h2, ← h.error, List.count_append]
    cases p <;> simp
  · rw [← h.accepted, List.count_append]
    cases p <;> simp_all
  · intro pre post e
    rcases List.eq_nil_or_concat post with rfl | ⟨post', x, rfl⟩
    · have := (List.append_inj' e rfl).2
      simp only [List.cons.injEq, and_true] at this
      exact absurd this hp
    · rw [List.concat_eq_append, ← List.cons_append, ← List.append_assoc] at e
      exact h.step pre post' (List.append_inj' e rfl).1

theorem histInv_accept {no : NewtonOpts ℝ} {s s' : IrkState ℝ (sc.ns * n) n} {acc : List (SampleI ℝ n)} {hist : List Pass}
    (h : HistInv fn no sc s acc hist) {l b : SampleI ℝ n} (hl : acc.getLast? = some l)
    (hb : EstimateStep s.alt fn no sc l b) (halt : s'.alt = false)
    (h1 : s'.sol.count.rejectNewton = s.sol.count.rejectNewton) (h2 : s'.sol.count.rejectErr = s.sol.count.rejectErr) :
    HistInv fn no sc s' (acc ++ [b]) (hist ++ [.accepted]) := by
  refine ⟨by rw [halt, altDue_accepted], ?_, ?_, ?_, ?_⟩
  · rw [h1, ← h.newton, List.count_append]; simp
  · rw [h2, ← h.error, List.count_append]; simp
  · rw [List.length_append, ← h.accepted, List.count_append]; simp
  · intro pre post e
    have hacc := h.accepted
    rcases List.eq_nil_or_concat post with rfl | ⟨post', x, rfl⟩
    · have := (List.append_inj' e rfl).1
      subst this
      refine ⟨l, b, ?_, ?_, by rw [← h.alt]; exact hb⟩
      · rw [List.getElem?_append_left (by omega), ← hl, List.getLast?_eq_getElem?]
        congr 1; omega
      · rw [List.getElem?_append_right (by omega)]
        simp [hacc]
    · rw [List.concat_eq_append, ← List.cons_append, ← List.append_assoc] at e
      obtain ⟨a, b', h3, h4, h5⟩ := h.step pre post' (List.append_inj' e rfl).1
      refine ⟨a, b', ?_, ?_, h5⟩
      · rw [List.getElem?_append_left (List.getElem?_eq_some_iff.mp h3).1]; exact h3
      · rw [List.getElem?_append_left (List.getElem?_eq_some_iff.mp h4).1]; exact h4

/-- **C83, what holds.**  A returned run is described by the list `hist` of its passes (their kinds are counted by `reject_newton`,
`reject_err` and the accepted samples `acc`) such that the `i`-th accepted pass leads from `acc[i]` to `acc[i+1]` with stage
values `Y` fit for the step (`ResidualStepAt`) and for the estimate: the recorded vector is `h` times the solution of
formula (8.19), or of formula (8.20) exactly if the pass is the first with an error test or follows one that failed. -/
theorem C83_run_partial (hla : la.Exact) (hs : la.Sound) (h : irkGuts nd la fn t0 t1 y0 o dt sc oo fuel = some (.ret out)) :
    ∃ no, o.newtonOpts = some no ∧
    ∃ (acc : List (SampleI ℝ n)) (hist : List Pass), acc.head? = some ⟨t0, y0, 0, 0⟩ ∧
      (∃ rec, rec = (if oo.storeInVectors then everyNth oo.interval.toNat acc else acc.take 1) ∧
        out.tVals = rec.map (·.t) ∧ out.yVals = rec.map (·.y) ∧ out.errEst = rec.map (·.errEst) ∧ out.err = rec.map (·.err)) ∧
      hist.count .newton = out.count.rejectNewton ∧ hist.count .error = out.count.rejectErr ∧
      hist.count .accepted + 1 = acc.length ∧
      ∀ pre post, hist = pre ++ .accepted :: post → ∃ a b, acc[pre.count .accepted]? = some a ∧
        acc[pre.count .accepted + 1]? = some b ∧ EstimateStep (altDue pre) fn no sc a b := by
  obtain ⟨no, mo, Ai, s, h1, h2, h3, h4, h5, h6, h7⟩ := irkGuts_ret h
  obtain ⟨acc, hist, hinv, hh⟩ := h6.inv (Inv := fun s => ∃ acc hist, AccInv (fun _ _ => True) t0 y0 oo s acc ∧
    HistInv fn no sc s acc hist) ⟨_, [], accInv_init _ _ t0 y0 _ _ oo, ⟨rfl, rfl, rfl, rfl, by simp⟩⟩ (by
      rintro s s' ⟨acc, hist, hinv, hh⟩ hb
      have hc := bodyCaseI nd la fn t1 o no oo sc mo (dWeights Ai fun i => sc.bw i) (dWeights Ai fun i => sc.bw2 i) s
      rw [hb] at hc
      cases hc with
      | newton h hm r hr hst had =>
        obtain ⟨-, L, K, -, hcn⟩ := solve_count hr
        refine ⟨_, hist ++ [.newton], accInv_newton hinv _ _ _ _ _, histInv_other hh (by simp) ?_ ?_ ?_⟩
        · rw [altDue_newton, ← hh.alt]; rfl
        · simp [newtonReject, hcn, IrkOutput.bump]
        · simp [newtonReject, hcn, IrkOutput.bump]
      | rejected h hm r hr hst had a ha hE hrj =>
        obtain ⟨-, L, K, -, hcn⟩ := solve_count hr
        obtain ⟨L', -, hca, -⟩ := attemptI_count ha
        refine ⟨_, hist ++ [.error], accInv_reject hinv a, histInv_other hh (by simp) ?_ ?_ ?_⟩
        · rw [altDue_error]; rfl
        · simp [rejectI, hca, hcn, StageResult.success, IrkOutput.bump]
        · simp [rejectI, hca, hcn, StageResult.success, IrkOutput.bump, hrj]
      | accepted h hm r hr hst had a ha hE hrj hi hw =>
        obtain ⟨-, L, K, -, hcn⟩ := solve_count hr
        obtain ⟨L', -, hca, -⟩ := attemptI_count ha
        obtain ⟨l, hl, e1, e2⟩ := hinv.last
        refine ⟨_, hist ++ [.accepted], accInv_accept hinv fun _ _ _ => trivial,
          histInv_accept hh hl (estimateStep_of hla hs h3 hr hst ha e1 e2) rfl ?_ ?_⟩
        · simp only [acceptI]
          split_ifs <;> simp [hca, hcn, StageResult.success, IrkOutput.bump]
        · simp only [acceptI]
          split_ifs <;> simp_all [StageResult.success, IrkOutput.bump])
  have hc := bodyCaseI nd la fn t1 o no oo sc mo (dWeights Ai fun i => sc.bw i) (dWeights Ai fun i => sc.bw2 i) s
  rw [h7] at hc
  have hcol := hinv.cols
  refine ⟨no, h1, acc, hist, ?_, ⟨_, rfl, ?_⟩, ?_, ?_, hh.accepted, hh.step⟩
  · rw [hinv.head]
    simp only [firstI, lit_real, Rat.cast_zero]
    rfl
  · cases hc with
    | finished hf => exact ⟨hcol.t, hcol.y, hcol.ee, hcol.e⟩
    | limit hl hm => exact ⟨hcol.t, hcol.y, hcol.ee, hcol.e⟩
    | general hl hm r hr hst had => exact ⟨hcol.t, hcol.y, hcol.ee, hcol.e⟩
    | stop r hr => exact absurd rfl (hr out)
  · rw [hh.newton]
    cases hc with
    | finished hf => rfl
    | limit hl hm => rfl
    | general hl hm r hr hst had =>
      obtain ⟨-, L, K, -, hcn⟩ := solve_count hr
      simp [hcn, IrkOutput.bump]
    | stop r hr => exact absurd rfl (hr out)
  · rw [hh.error]
    cases hc with
    | finished hf => rfl
    | limit hl hm => rfl
    | general hl hm r hr hst had =>
      obtain ⟨-, L, K, -, hcn⟩ := solve_count hr
      simp [hcn, IrkOutput.bump]
    | stop r hr => exact absurd rfl (hr out)

theorem nth_accepted (hist : List Pass) : ∀ i, i < hist.count .accepted →
    ∃ pre post, hist = pre ++ .accepted :: post ∧ pre.count .accepted = i := by
  induction hist with
  | nil => intro i h; simp at h
  | cons p hist ih =>
    intro i h
    by_cases hp : p = .accepted
    · subst hp
      cases i with
      | zero => exact ⟨[], hist, rfl, rfl⟩
      | succ i =>
        obtain ⟨pre, post, h1, h2⟩ := ih i (by simpa using h)
        exact ⟨.accepted :: pre, post, by rw [h1, List.cons_append], by simp [h2]⟩
    · obtain ⟨pre, post, h1, h2⟩ := ih i (by simpa [hp] using h)
      exact ⟨p :: pre, post, by rw [h1, List.cons_append], by rw [List.count_cons_of_ne hp, h2]⟩

theorem altDue_no_error {pre : List Pass} (h : pre.count .error = 0) : altDue pre = true ↔ pre.count .accepted = 0 := by
  unfold altDue
  rw [List.count_eq_zero] at h ⊢
  constructor
  · intro h1 h2
    have hne : pre.filter (· ≠ .newton) ≠ [] := by
      intro h3
      rw [List.filter_eq_nil_iff] at h3
      simpa using h3 _ h2
    obtain ⟨x, hx⟩ : ∃ x, (pre.filter (· ≠ .newton)).getLast? = some x := ⟨_, List.getLast?_eq_some_getLast hne⟩
    have hm := List.mem_of_getLast? hx
    rw [List.mem_filter] at hm
    rw [hx] at h1
    cases x <;> simp_all
  · intro h1
    simp only [decide_eq_true_eq]
    intro h2
    have hm := List.mem_of_getLast? h2
    rw [List.mem_filter] at hm
    exact h1 hm.1

/-- the embedded formula: one explicit stage at `(t, y)` with weight `γ`, and the stages of the method with weights `b̂` -/
noncomputable def embedded (fn : OdeFun ℝ n) (sc : SolverCoeffs ℝ) (t h : ℝ) (y : Vec ℝ n) (k : Fin sc.ns → Vec ℝ n) : Vec ℝ n :=
  y + h • (sc.gamma • fn.fn t y + ∑ j : Fin sc.ns, sc.bw2 j • k j)

/-- **C83, affine right-hand sides.**  Every accepted step is a step of the method with slopes `k`, and its estimate is `h`
times that of formula (8.19) (then `(I - γhJ) est = h (ŷ - y₁)`, `ŷ` the value of the embedded formula) or (8.20). -/
theorem C83_affine_partial (hla : la.Exact) (hs : la.Sound) (ha : IsAffine fn)
    (h : irkGuts nd la fn t0 t1 y0 o dt sc oo fuel = some (.ret out)) (hst : oo.storeInVectors = true)
    (hi : oo.interval.toNat = 1) {i : ℕ} {t t' : ℝ} (ht : out.tVals[i]? = some t) (ht' : out.tVals[i + 1]? = some t') :
    ∃ (y y' est : Vec ℝ n) (k : Fin sc.ns → Vec ℝ n) (alt : Bool), out.yVals[i]? = some y ∧ out.yVals[i + 1]? = some y' ∧
      out.errEst[i + 1]? = some est ∧ (out.count.rejectErr = 0 → (alt = true ↔ i = 0)) ∧
      IsRKStep (fun i j => sc.a i j) (fun i => sc.bw i) (fun i => sc.cn i) fn.fn t (t' - t) y y' k ∧
      (IsUnit (1 - (sc.gamma * (t' - t)) • Matrix.of (fn.jac t y)).det →
        IsEstimate (t' - t) alt fn sc t (t' - t) y k 0 est ∧
        (alt = false → (1 - (sc.gamma * (t' - t)) • Matrix.of (fn.jac t y)).mulVec est =
          (t' - t) • (embedded fn sc t (t' - t) y k - y'))) := by
  obtain ⟨no, -, acc, hist, -, ⟨rec, hrec, q1, q2, q3, -⟩, -, herr, hlen, hstep⟩ := C83_run_partial hla hs h
  rw [if_pos hst, hi, everyNth_one] at hrec
  subst hrec
  rw [q1, List.getElem?_map, Option.map_eq_some_iff] at ht ht'
  obtain ⟨a, ha', rfl⟩ := ht
  obtain ⟨b, hb', rfl⟩ := ht'
  obtain ⟨pre, post, hpre, rfl⟩ := nth_accepted hist i (by
    have := (List.getElem?_eq_some_iff.mp hb').1
    omega)
  obtain ⟨a', b', ha2, hb2, d, w, Y, hY, hzero, hw, hest⟩ := hstep pre post hpre
  rw [ha'] at ha2
  rw [hb'] at hb2
  cases ha2; cases hb2
  have hz := hzero ha
  have hstp := hY.2.2.1 hz
  refine ⟨a.y, b.y, b.errEst, fun j => fn.fn (a.t + sc.cn j * (b.t - a.t)) (a.y + Y j), altDue pre, ?_, ?_, ?_, ?_, hstp, ?_⟩
  · rw [q2, List.getElem?_map, ha']; rfl
  · rw [q2, List.getElem?_map, hb']; rfl
  · rw [q3, List.getElem?_map, hb']; rfl
  · intro h0
    rw [h0, hpre, List.count_append] at herr
    exact altDue_no_error (by omega)
  · intro hu
    have he := hest hu
    simp only [hz, smul_zero, Finset.sum_const_zero] at he
    refine ⟨he, fun hf => ?_⟩
    obtain ⟨e, he1, he2⟩ := he
    rw [hf, if_neg (by simp)] at he2
    rw [he2, Matrix.mulVec_smul, he1, hstp.2]
    congr 1
    simp only [embedded, sub_smul, Finset.sum_sub_distrib, smul_add, smul_smul, add_zero, smul_sub]
    rw [mul_comm sc.gamma]
    abel

/-- **C83, the documented claim** (irk.hpp 714, 721), for affine right-hand sides: the recorded estimate is that of formula
(8.19) or (8.20). -/
def C83_claim : Prop :=
  ∀ (m : ℤ), m ∈ ([210, 211, 230, 231, 232] : List ℤ) → ∀ (n : ℕ) (fn : OdeFun ℝ n) (t0 t1 : ℝ) (y0 : Vec ℝ n) (o : IrkOpts ℝ)
    (dt : ℝ) (fuel : ℕ) (out : IrkOutput ℝ ((irkCoeffs m : SolverCoeffs ℝ).ns * n) n), IsAffine fn →
    irkOdeint false laReal fn t0 t1 y0 o OutOpts.dflt m dt fuel = some (.ret out) →
    ∀ (i : ℕ) (t t' : ℝ) (y y' est : Vec ℝ n), out.tVals[i]? = some t → out.tVals[i + 1]? = some t' →
      out.yVals[i]? = some y → out.yVals[i + 1]? = some y' → out.errEst[i + 1]? = some est →
      ∃ (k : Fin (irkCoeffs m : SolverCoeffs ℝ).ns → Vec ℝ n) (alt : Bool),
        IsRKStep (fun i j => (irkCoeffs m : SolverCoeffs ℝ).a i j) (fun i => (irkCoeffs m : SolverCoeffs ℝ).bw i)
          (fun i => (irkCoeffs m : SolverCoeffs ℝ).cn i) fn.fn t (t' - t) y y' k ∧
        (IsUnit (1 - ((irkCoeffs m : SolverCoeffs ℝ).gamma * (t' - t)) • Matrix.of (fn.jac t y)).det →
          IsEstimate 1 alt fn (irkCoeffs m) t (t' - t) y k 0 est)

/-- the estimate for a constant right-hand side -/
theorem estimate_const {v : Vec ℝ n} {κ : ℝ} {alt : Bool} {t h : ℝ} {y y' est : Vec ℝ n} {k : Fin sc.ns → Vec ℝ n}
    (hk : IsRKStep (fun i j => sc.a i j) (fun i => sc.bw i) (fun i => sc.cn i) (constFun v).fn t h y y' k)
    (he : IsEstimate κ alt (constFun v) sc t h y k 0 est) :
    est = (κ * (h * (sc.gamma + ∑ j : Fin sc.ns, (sc.bw2 j - sc.bw j)))) • v := by
  have hkv : ∀ j, k j = v := fun j => by rw [hk.1 j]; rfl
  have key : ∀ z e, SolvesEstimate (constFun v) sc t h y k 0 z e →
      e = (h * (sc.gamma + ∑ j : Fin sc.ns, (sc.bw2 j - sc.bw j))) • v := by
    intro z e h1
    unfold SolvesEstimate at h1
    have hJ : Matrix.of ((constFun v).jac t y) = 0 := rfl
    rw [hJ, smul_zero, sub_zero, Matrix.one_mulVec] at h1
    rw [h1]
    simp only [hkv, ← Finset.sum_smul, constFun, add_zero, smul_smul, ← add_smul]
    congr 1
    ring
  obtain ⟨e, h1, h2⟩ := he
  cases alt with
  | true =>
    rw [if_pos rfl] at h2
    obtain ⟨e', h3, h4⟩ := h2
    rw [h4, key _ _ h3, smul_smul]
  | false =>
    rw [if_neg (by simp)] at h2
    rw [h2, key _ _ h1, smul_smul]

theorem constFun_affine (v : Vec ℝ n) : IsAffine (constFun v) :=
  ⟨0, fun _ => v, fun t y => by simp [constFun], fun t y i j => rfl⟩

/-- a run of RADAU_IIA_32 with a constant right-hand side on an interval of length 1/2 -/
theorem const_run_half : ∃ fuel out, irkOdeint false laReal (constFun (n := 1) fun _ => 1) 0 (1 / 2) (fun _ => 0) (demoOpts (-1))
    OutOpts.dflt 210 (1 / 2) fuel = some (.ret out) ∧ out.status = 0 ∧ out.tVals.head? = some 0 ∧
      out.tVals.getLast? = some (1 / 2) := by
  obtain ⟨fuel, out, h1, h2, h3, -, h4⟩ := C67_stiff_success (m := 210) (by decide) (fn := constFun (n := 1) fun _ => 1)
    (J := 0) (g := fun _ _ => 1) (t0 := 0) (t1 := 1 / 2) (dt := 1 / 2) (y0 := fun _ => 0) (o := demoOpts (-1))
    (no := NewtonOpts.dflt) (oo := OutOpts.dflt)
    (fun t y => by simp [constFun]) (fun _ _ _ _ => rfl) (fun T => ⟨1, by simp⟩)
    (fun l v hv hl => by
      obtain ⟨k, hk⟩ : ∃ k, v k ≠ 0 := by
        by_contra hc
        push Not at hc
        exact hv (funext hc)
      have := hl k
      simp only [Matrix.zero_apply, Complex.ofReal_zero, zero_mul, Finset.sum_const_zero] at this
      rcases mul_eq_zero.mp this.symm with h | h
      · simp [h]
      · exact absurd h hk)
    one_pos (by norm_num) (by norm_num) rfl (by decide) rfl (by decide) (by norm_num [NewtonOpts.dflt]) (by decide)
    (by norm_num [demoOpts]) (by norm_num [demoOpts]) (by decide) (fun h => absurd h (by decide))
  exact ⟨fuel, out, h1, h2, h3, h4 rfl rfl⟩

/-- **C83 is false**: the estimates are too small by a factor `h`. -/
theorem C83_refuted : ¬ C83_claim := by
  intro hcl
  obtain ⟨fuel, out, hrun, -, hhead, hlast⟩ := const_run_half
  obtain ⟨o', -, -, hg⟩ := irkOdeint_ret hrun
  obtain ⟨hpw, hbd, -, -⟩ := C38_times hg (Or.inl rfl)
  obtain ⟨a, b, l, hl⟩ : ∃ a b l, out.tVals = a :: b :: l := by
    match hq : out.tVals with
    | [] => rw [hq] at hhead; cases hhead
    | [a] => rw [hq] at hhead hlast; simp at hhead hlast; norm_num [hhead] at hlast
    | a :: b :: l => exact ⟨a, b, l, rfl⟩
  have h0 : out.tVals[0]? = some a := by rw [hl]; rfl
  have h1 : out.tVals[0 + 1]? = some b := by rw [hl]; rfl
  have hab : a < b := by
    rw [hl] at hpw
    exact List.rel_of_pairwise_cons hpw (by simp)
  have ha := hbd a (by rw [hl]; simp)
  have hb := hbd b (by rw [hl]; simp)
  obtain ⟨y, y', est, k, alt, q1, q2, q3, -, q4, q5⟩ := C83_affine_partial laReal_exact laReal_sound (constFun_affine _) hg
    rfl rfl h0 h1
  obtain ⟨k', alt', q6, q7⟩ := hcl 210 (by decide) 1 _ 0 (1 / 2) _ _ _ _ _ (constFun_affine _) hrun 0 a b y y' est h0 h1 q1 q2 q3
  have hu : IsUnit (1 - ((irkCoeffs 210 : SolverCoeffs ℝ).gamma * (b - a)) •
      Matrix.of ((constFun (n := 1) fun _ => 1).jac a y)).det := by
    have hJ : Matrix.of ((constFun (n := 1) fun _ => 1).jac a y) = 0 := rfl
    rw [hJ, smul_zero, sub_zero, Matrix.det_one]
    exact isUnit_one
  have e1 := estimate_const q4 (q5 hu).1
  have e2 := estimate_const q6 (q7 hu)
  rw [e1] at e2
  have e3 := congrFun e2 0
  simp only [Pi.smul_apply, smul_eq_mul, mul_one, one_mul] at e3
  have hc : (irkCoeffs 210 : SolverCoeffs ℝ).gamma + ∑ j : Fin (irkCoeffs 210 : SolverCoeffs ℝ).ns,
      ((irkCoeffs 210 : SolverCoeffs ℝ).bw2 j - (irkCoeffs 210 : SolverCoeffs ℝ).bw j) ≠ 0 := by
    have hsc : (irkCoeffs 210 : SolverCoeffs ℝ) = radauIIA32 := by simp [irkCoeffs]
    rw [hsc]
    change (radauIIA32 : SolverCoeffs ℝ).gamma + ∑ j : Fin 2, ((radauIIA32 : SolverCoeffs ℝ).bw2 j -
      (radauIIA32 : SolverCoeffs ℝ).bw j) ≠ 0
    rw [Fin.sum_univ_two]
    norm_num [radauIIA32, SolverCoeffs.bw2, SolverCoeffs.bw, q]
  have hne : (b - a) * ((irkCoeffs 210 : SolverCoeffs ℝ).gamma + ∑ j : Fin (irkCoeffs 210 : SolverCoeffs ℝ).ns,
      ((irkCoeffs 210 : SolverCoeffs ℝ).bw2 j - (irkCoeffs 210 : SolverCoeffs ℝ).bw j)) ≠ 0 :=
    mul_ne_zero (by linarith) hc
  have e4 : b - a = 1 := mul_right_cancel₀ hne (by rw [e3, one_mul])
  linarith [ha.1, hb.2]

/-- hypotheses of the run theorems, and the estimate of the first step of this run -/
example : ∃ fuel out t est, irkOdeint false laReal (constFun (n := 1) fun _ => 1) 0 (1 / 2) (fun _ => 0) (demoOpts (-1))
    OutOpts.dflt 210 (1 / 2) fuel = some (.ret out) ∧ out.tVals[1]? = some t ∧ out.errEst[1]? = some est ∧ 0 < t ∧
    est = (t * (t * ((irkCoeffs 210 : SolverCoeffs ℝ).gamma + ∑ j : Fin (irkCoeffs 210 : SolverCoeffs ℝ).ns,
      ((irkCoeffs 210 : SolverCoeffs ℝ).bw2 j - (irkCoeffs 210 : SolverCoeffs ℝ).bw j)))) • fun _ => 1 := by
  obtain ⟨fuel, out, hrun, -, hhead, hlast⟩ := const_run_half
  obtain ⟨o', -, -, hg⟩ := irkOdeint_ret hrun
  obtain ⟨hpw, hbd, -, -⟩ := C38_times hg (Or.inl rfl)
  obtain ⟨b, l, hl⟩ : ∃ b l, out.tVals = 0 :: b :: l := by
    match hq : out.tVals with
    | [] => rw [hq] at hhead; cases hhead
    | [a] => rw [hq] at hhead hlast; simp at hhead hlast; norm_num [hhead] at hlast
    | a :: b :: l => rw [hq] at hhead; cases hhead; exact ⟨b, l, rfl⟩
  have h0 : out.tVals[0]? = some 0 := by rw [hl]; rfl
  have h1 : out.tVals[0 + 1]? = some b := by rw [hl]; rfl
  have hb : 0 < b := by
    rw [hl] at hpw
    exact List.rel_of_pairwise_cons hpw (by simp)
  obtain ⟨y, y', est, k, alt, q1, q2, q3, -, q4, q5⟩ := C83_affine_partial laReal_exact laReal_sound (constFun_affine _) hg
    rfl rfl h0 h1
  refine ⟨fuel, out, b, est, hrun, h1, q3, hb, ?_⟩
  have := estimate_const q4 (q5 (by
    have hJ : Matrix.of ((constFun (n := 1) fun _ => 1).jac 0 y) = 0 := rfl
    rw [hJ, smul_zero, sub_zero, Matrix.det_one]
    exact isUnit_one)).1
  rw [sub_zero] at this
  exact this

end Verif
