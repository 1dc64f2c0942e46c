import Verif.Prop.IrkReal
import Mathlib.LinearAlgebra.Matrix.Block

/-!
# When a pass of `irk_guts` cannot fail, and a complete run for a constant right-hand side
-/

set_option linter.unusedSectionVars false

namespace Verif
open Spec

variable {n : ℕ} {fn : OdeFun ℝ n} {t0 t1 : ℝ} {y0 : Vec ℝ n} {o : IrkOpts ℝ}
  {no : NewtonOpts ℝ} {dt : ℝ} {sc : SolverCoeffs ℝ} {oo : OutOpts} {fuel : ℕ} {mo : ℕ} {d d2 : Vec ℝ sc.ns}

theorem stageDir_total {m : ℕ} {M : Mat ℝ m} (hM : IsUnit (Matrix.of M).det) (R : Vec ℝ m) :
    ∃ dY, stageDir laReal (laReal.lu M) R = .ret dY := by
  obtain ⟨⟨L, U, P⟩, hq⟩ := laReal_lu_some M
  obtain ⟨e1, e2, e3, e4, e5⟩ := laReal_exact.lu _ _ _ _ hq
  have hL : (Matrix.of L).det = 1 := by
    rw [Matrix.det_of_isLowerTriangular (Matrix.of L) (fun i j hij => e3 i j hij)]
    simp [e4]
  have hU : IsUnit (Matrix.of U).det := by
    rw [← e1, Matrix.det_mul] at hM
    exact isUnit_of_mul_isUnit_right hM
  have hL' : IsUnit (Matrix.of fun i j => - L i j).det := by
    have : (Matrix.of fun i j => - L i j) = - Matrix.of L := rfl
    rw [this, Matrix.det_neg, hL, mul_one]
    exact (isUnit_one.neg).pow _
  unfold stageDir
  rw [hq]
  simp only
  rw [laReal_exact.solveL _ _ (fun i j hij => by rw [e3 i j hij, neg_zero]) hL']
  simp only
  rw [laReal_exact.solveU _ _ e5 hU]
  exact ⟨_, rfl⟩

theorem refreshJac_total (t h : ℝ) (y : Vec ℝ n) (s : StageState ℝ (sc.ns * n) n) :
    ∃ s', refreshJac false laReal fn sc t h y s = .ret s' := by
  obtain ⟨q, hq⟩ := laReal_lu_some (stageJac sc h (fn.jac t y))
  unfold refreshJac
  simp only [Bool.false_eq_true, if_false, hq]
  exact ⟨_, rfl⟩

theorem stageIter_total {t h : ℝ} {y : Vec ℝ n} {refresh : ℤ} {xtol Rtol : ℝ} (hr : refresh ≠ 0)
    (hM : IsUnit (Matrix.of (stageJac sc h (fn.jac t y))).det) (k : ℕ) (s : StageState ℝ (sc.ns * n) n)
    (hl : s.lup = laReal.lu (stageJac sc h (fn.jac t y))) :
    ∃ r, stageIter false laReal fn sc t h y refresh xtol Rtol k s = .ret r := by
  induction k generalizing s with
  | zero => exact ⟨_, rfl⟩
  | succ k ih =>
    rw [stageIter, stageStep, hl]
    obtain ⟨dY, hdY⟩ := stageDir_total hM s.R
    rw [hdY]
    simp only [Outcome.bind]
    split_ifs with hc hm
    · exact ⟨_, rfl⟩
    · obtain ⟨s', hs'⟩ := refreshJac_total (fn := fn) (sc := sc) t h y
        { s with
          Y := fun p => s.Y p + lit 1 * dY p
          R := constructR fn.fn sc t h y fun p => s.Y p + lit 1 * dY p
          count := { s.count with funEvals := s.count.funEvals + sc.ns }
          log := { s.log with funs := s.log.funs ++ constructCalls sc t h y fun p => s.Y p + lit 1 * dY p } }
      rw [hl] at hs'
      rw [hs']
      simp only
      apply ih
      have := refreshJac_ret hs' (by simp)
      rw [this]
      simp [stageLup]
    · apply ih
      rfl

theorem newtonSolve_total {t h : ℝ} {y : Vec ℝ n} {maxit refresh : ℤ} {xtol Rtol : ℝ} {count : IrkCounters}
    {log : CallLog ℝ n} (hn : 0 < n) (hc : sc.ns ≤ sc.c.length) (hr : refresh ≠ 0)
    (hM : IsUnit (Matrix.of (stageJac sc h (fn.jac t y))).det) :
    ∃ r, newtonSolveStages false laReal fn sc t h y maxit refresh xtol Rtol count log = .ret r := by
  unfold newtonSolveStages
  simp only
  obtain ⟨s', hs'⟩ := refreshJac_total (fn := fn) (sc := sc) t h y
    ⟨1, fun _ => lit 0, fun _ => lit 0, none, fn.jac t y, count, log⟩
  rw [hs']
  simp only [Outcome.bind]
  rw [if_neg (by omega)]
  apply stageIter_total hr hM
  have := refreshJac_ret hs' (by simp)
  rw [this]
  simp [stageLup]

/-- the matrices met from `(t,y)` with step `h` are regular -/
def RegularAt (fn : OdeFun ℝ n) (sc : SolverCoeffs ℝ) (t : ℝ) (y : Vec ℝ n) (h : ℝ) : Prop :=
  IsUnit (Matrix.of (stageJac sc h (fn.jac t y))).det ∧
  IsUnit (Matrix.of fun i j => eye n i j - sc.gamma * h * fn.jac t y i j).det

theorem attemptI_total {s : IrkState ℝ (sc.ns * n) n} {h : ℝ} {r : StageResult ℝ (sc.ns * n) n}
    (hJ : r.J = fn.jac s.t s.y)
    (hM : IsUnit (Matrix.of fun i j => eye n i j - sc.gamma * h * fn.jac s.t s.y i j).det) :
    ∃ a, attemptI laReal fn o sc mo d d2 s h r = some a := by
  unfold attemptI
  simp only [hJ]
  rw [laReal_exact.solve _ _ hM]
  simp only
  by_cases ha : s.alt = true
  · rw [if_pos ha, laReal_exact.solve _ _ hM]
    exact ⟨_, rfl⟩
  · rw [if_neg ha]
    exact ⟨_, rfl⟩

/-- a pass that neither throws, nor fails an assertion, nor is undefined -/
def LoopStep.Fine {S R : Type} : LoopStep S R → Prop
  | .next _ => True
  | .done (.ret _) => True
  | .done _ => False

theorem irkBody_fine (had : o.adaptive = true) (hn : 0 < n) (hc : sc.ns ≤ sc.c.length) (hr : no.refreshJac ≠ 0)
    (hi : oo.interval.toNat ≠ 0) (hw : oo.writeToFile = true → oo.streamSet = true)
    {s : IrkState ℝ (sc.ns * n) n} (hreg : s.t < t1 → RegularAt fn sc s.t s.y (clipDt s.t t1 s.dt)) :
    (irkBody false laReal fn t1 o no oo sc mo d d2 s).Fine := by
  unfold irkBody
  by_cases hlt : ltb s.t t1 = true
  · rw [if_pos hlt]
    simp only
    by_cases hm : 0 ≤ o.maxSteps ∧ o.maxSteps < s.step
    · rw [if_pos hm]; trivial
    rw [if_neg hm]
    obtain ⟨g1, g2⟩ := hreg (by simpa using hlt)
    obtain ⟨r, hr'⟩ := newtonSolve_total (maxit := s.newtonMaxit) (xtol := no.dxDelta) (Rtol := no.tol)
      (count := s.sol.bump.count) (log := s.sol.log) hn hc hr g1
    rw [hr']
    simp only [had, Bool.not_true, Bool.false_eq_true, if_false]
    by_cases hs : r.status ≠ 0
    · rw [if_pos hs]; trivial
    rw [if_neg hs]
    have hJ : r.success.J = fn.jac s.t s.y := by
      obtain ⟨-, m, Ys, dYs, H⟩ := stage_run hr'
      exact H.jac
    obtain ⟨a, ha⟩ := attemptI_total (o := o) (mo := mo) (d := d) (d2 := d2) hJ g2
    rw [ha]
    simp only
    have hE : leb (lit 0) a.errTot = true := by
      obtain ⟨-, -, e3, -⟩ := attemptI_spec ha
      rw [e3, errTot_real]
      simp only [lit_real, Rat.cast_zero, leb_real]
      exact Finset.sum_nonneg fun i _ => sq_nonneg _
    simp only [hE, Bool.not_true, Bool.and_false, Bool.false_eq_true, if_false]
    split_ifs with h1 h2
    · trivial
    · exfalso
      simp only [Bool.and_eq_true, Bool.not_eq_true'] at h2
      rw [hw h2.1.2] at h2
      cases h2.2
    · trivial
  · rw [if_neg hlt]; trivial

/-- a run made of fine passes never ends badly -/
theorem runLoop_fine {S R : Type} {body : S → LoopStep S R} {Inv : S → Prop} (h0 : ∀ s, Inv s → (body s).Fine)
    (h1 : ∀ s s', Inv s → body s = .next s' → Inv s') (fuel : ℕ) (s : S) (hs : Inv s) :
    runLoop body fuel s = none ∨ ∃ r, runLoop body fuel s = some (.ret r) := by
  cases hr : runLoop body fuel s with
  | none => exact Or.inl rfl
  | some o =>
    right
    obtain ⟨s', hs', hb⟩ := runLoop_some hr
    have hI : Inv s' := hs'.inv hs h1
    have := h0 s' hI
    rw [hb] at this
    cases o with
    | ret r => exact ⟨r, rfl⟩
    | assertFail => exact absurd this id
    | throws => exact absurd this id
    | ub => exact absurd this id

/-- requirements on a tableau for `irk_guts` to get into its loop -/
structure Usable (sc : SolverCoeffs ℝ) : Prop where
  order : ∃ mo, minOrder sc = some mo
  rows : sc.nRows = sc.ns
  cols : sc.nCols = sc.ns
  c : sc.ns ≤ sc.c.length
  b2 : sc.b2.length = sc.ns
  inv : IsUnit (Matrix.of sc.mat).det

theorem irkGuts_loop (hsc : Usable sc) (hno : o.newtonOpts = some no) (hdt : 0 < clipDt t0 t1 dt) :
    ∃ mo, irkGuts false laReal fn t0 t1 y0 o dt sc oo fuel =
      runLoop (irkBody false laReal fn t1 o no oo sc mo
        (dWeights (fun i j => (Matrix.of sc.mat)⁻¹ i j) fun i => sc.bw i)
        (dWeights (fun i j => (Matrix.of sc.mat)⁻¹ i j) fun i => sc.bw2 i)) fuel
        (irkInit (sc.ns * n) t0 y0 (clipDt t0 t1 dt) no.maxit) := by
  obtain ⟨mo, hmo⟩ := hsc.order
  refine ⟨mo, ?_⟩
  unfold irkGuts
  simp only [hno, hmo]
  rw [if_neg (by simpa using hdt), if_neg (by simp [hsc.rows, hsc.cols]), laReal_exact.inv _ hsc.inv]
  simp only
  rw [if_neg (by simp [hsc.b2])]

/-- With a usable tableau, regular matrices and valid options the adaptive integrator never throws, never trips an
assertion and never runs into undefined behaviour. -/
theorem irkGuts_fine (hsc : Usable sc) (hno : o.newtonOpts = some no) (had : o.adaptive = true) (hn : 0 < n)
    (hr : no.refreshJac ≠ 0) (hi : oo.interval.toNat ≠ 0) (hw : oo.writeToFile = true → oo.streamSet = true)
    (ht : t0 < t1) (hdt : 0 < dt) (hreg : ∀ t y h, 0 < h → RegularAt fn sc t y h) (fuel : ℕ) :
    irkGuts false laReal fn t0 t1 y0 o dt sc oo fuel = none ∨
      ∃ out, irkGuts false laReal fn t0 t1 y0 o dt sc oo fuel = some (.ret out) := by
  have hc : 0 < clipDt t0 t1 dt := by rw [clipDt_real]; exact lt_min hdt (by linarith)
  obtain ⟨mo, he⟩ := irkGuts_loop (fn := fn) (y0 := y0) (oo := oo) (fuel := fuel) hsc hno hc
  rw [he]
  apply runLoop_fine (Inv := fun s => TimeInvI t0 t1 s)
  · intro s hT
    exact irkBody_fine had hn hsc.c hr hi hw fun hlt => hreg _ _ _ (clip_factsI hT hlt).1
  · intro s s' hT hb
    exact timeInvI_next hT hb
  · exact timeInvI_init ht.le hc _

/-! ### a complete run: constant right-hand side -/

/-- `y' = v`, with its Jacobi matrix -/
def constFun (v : Vec ℝ n) : OdeFun ℝ n := ⟨fun _ _ => v, fun _ _ _ _ => 0⟩

theorem constFun_regular (v : Vec ℝ n) (t : ℝ) (y : Vec ℝ n) (h : ℝ) : RegularAt (constFun v) sc t y h := by
  constructor
  · have : Matrix.of (stageJac sc h ((constFun v).jac t y)) = 1 := by
      ext a b
      simp [stageJac, eye_real, constFun, kron]
    rw [this, Matrix.det_one]
    exact isUnit_one
  · have : (Matrix.of fun i j => eye n i j - sc.gamma * h * (constFun v).jac t y i j) = 1 := by
      ext a b
      simp [eye_real, constFun]
    rw [this, Matrix.det_one]
    exact isUnit_one

/-- Newton's method solves the stage equations of a constant right-hand side in one pass -/
theorem const_solve (v : Vec ℝ n) {t h : ℝ} {y : Vec ℝ n} {maxit refresh : ℤ} {xtol Rtol : ℝ} {count : IrkCounters}
    {log : CallLog ℝ n} {r : StageResult ℝ (sc.ns * n) n} (hm : 1 < maxit) (hR : Rtol ≠ 0)
    (hr : newtonSolveStages false laReal (constFun v) sc t h y maxit refresh xtol Rtol count log = .ret r) :
    r.status = 0 ∧ ∀ i k, r.Y (finProdFinEquiv (i, k)) = h * ∑ j : Fin sc.ns, sc.a i j * v k := by
  obtain ⟨-, m, Ys, dYs, H⟩ := stage_run hr
  have hm1 : 0 < m := by
    rcases H.stop with h | h
    · exact h.2.1
    · have := h.2.1; omega
  have h1 : ∀ i k, Ys 1 (finProdFinEquiv (i, k)) = h * ∑ j : Fin sc.ns, sc.a i j * v k := by
    intro i k
    have e := C36_newton_equation laReal_exact laReal_sound H hm1 i k
    rw [constructR_real, H.start] at e
    rw [H.upd 0 hm1, H.start]
    simp only [constFun, lit_real, Rat.cast_zero, Rat.cast_one, zero_mul, Finset.sum_const_zero, mul_zero, sub_zero,
      zero_sub, neg_neg, zero_add, one_mul] at e ⊢
    exact e
  have hconv : Converged (constFun v).fn sc t h y xtol Rtol (Ys 1) (dYs 0) := by
    left
    have : dot (constructR (constFun v).fn sc t h y (Ys 1)) (constructR (constFun v).fn sc t h y (Ys 1)) = 0 := by
      rw [dot_stage]
      refine Finset.sum_eq_zero fun i _ => Finset.sum_eq_zero fun k _ => ?_
      rw [constructR_real, h1]
      simp [constFun]
    rw [ltb_real, this]
    exact mul_self_pos.2 hR
  have hmeq : m = 1 := by
    by_contra hne
    exact H.early 0 (by omega) hconv
  refine ⟨?_, ?_⟩
  · rcases H.stop with h | ⟨-, -, -, h⟩
    · exact h.1
    · exact absurd hconv (h 0 hm1)
  · intro i k
    rw [H.final, hmeq, h1]

/-- the error estimate for a constant right-hand side -/
theorem const_attempt (v : Vec ℝ n) (hsc : Usable sc) {s : IrkState ℝ (sc.ns * n) n} {h : ℝ}
    {r : StageResult ℝ (sc.ns * n) n} (hJ : r.J = (constFun v).jac s.t s.y)
    (hY : ∀ i k, r.Y (finProdFinEquiv (i, k)) = h * ∑ j : Fin sc.ns, sc.a i j * v k) {a : AttemptI ℝ n}
    (ha : attemptI laReal (constFun v) o sc mo (dWeights (fun i j => (Matrix.of sc.mat)⁻¹ i j) fun i => sc.bw i)
      (dWeights (fun i j => (Matrix.of sc.mat)⁻¹ i j) fun i => sc.bw2 i) s h r = some a) :
    (∀ k, a.yn k = s.y k + h * (∑ j : Fin sc.ns, sc.bw j) * v k) ∧
    ∀ k, a.errEst k = h ^ 2 * (sc.gamma + ∑ j : Fin sc.ns, sc.bw2 j - ∑ j : Fin sc.ns, sc.bw j) * v k := by
  have hA : laReal.inv sc.mat = some (fun i j => (Matrix.of sc.mat)⁻¹ i j) := laReal_exact.inv _ hsc.inv
  have hcomb : ∀ (w : Vec ℝ sc.ns) k, combineI sc r.Y (dWeights (fun i j => (Matrix.of sc.mat)⁻¹ i j) w) k =
      h * (∑ j, w j) * v k := by
    intro w k
    rw [combine_update laReal_exact hA w (constFun v).fn 0 h 0 r.Y k]
    simp only [constructR_real, hY]
    simp [constFun, Finset.sum_mul, mul_assoc]
  have hone : (Matrix.of fun i j => eye n i j - sc.gamma * h * r.J i j) = (1 : Matrix (Fin n) (Fin n) ℝ) := by
    ext p q
    simp [eye_real, hJ, constFun]
  have hu : IsUnit (Matrix.of fun i j => eye n i j - sc.gamma * h * r.J i j).det := by
    rw [hone, Matrix.det_one]; exact isUnit_one
  constructor
  · intro k
    rw [(attemptI_spec ha).2.1]
    simp only [hcomb]
  · intro k
    unfold attemptI at ha
    simp only at ha
    rw [laReal_exact.solve _ _ hu] at ha
    simp only at ha
    by_cases halt : s.alt = true
    · rw [if_pos halt, laReal_exact.solve _ _ hu, hone] at ha
      simp only [inv_one, Matrix.one_mulVec, Option.some.injEq] at ha
      rw [← ha]
      simp only [hcomb, constFun]
      ring
    · rw [if_neg halt, hone] at ha
      simp only [inv_one, Matrix.one_mulVec, Option.some.injEq] at ha
      rw [← ha]
      simp only [hcomb, constFun]
      ring

/-- the run for a constant right-hand side whose first step already reaches `t1` -/
theorem const_run (v : Vec ℝ n) (hsc : Usable sc) (hno : o.newtonOpts = some no) (had : o.adaptive = true) (hn : 0 < n)
    (hr : no.refreshJac ≠ 0) (hi : oo.interval.toNat = 1) (hw : oo.writeToFile = false)
    (hm : 1 < no.maxit) (hR : no.tol ≠ 0) (hrel : 0 ≤ o.relTol) (habs : 0 < o.absTol)
    (ht : t0 < t1) (hdt : t1 - t0 ≤ dt)
    (hκ : ∀ k, |(t1 - t0) ^ 2 * (sc.gamma + ∑ j : Fin sc.ns, sc.bw2 j - ∑ j : Fin sc.ns, sc.bw j) * v k| ≤ o.absTol) :
    ∃ out, irkGuts false laReal (constFun v) t0 t1 y0 o dt sc oo 2 = some (.ret out) ∧ out.status = 0 ∧
      (out.tVals = if oo.storeInVectors then [t0, t1] else [t0]) ∧
      (out.yVals = if oo.storeInVectors then [y0, fun k => y0 k + (t1 - t0) * (∑ j : Fin sc.ns, sc.bw j) * v k]
        else [y0]) ∧
      (out.stages = if oo.storeInVectors then [fun _ => 0, fun _ => 0] else [fun _ => 0]) ∧ out.count.attempt = 1 := by
  have hcl : clipDt t0 t1 dt = t1 - t0 := by rw [clipDt_real]; exact min_eq_right hdt
  have hpos : 0 < t1 - t0 := by linarith
  obtain ⟨mo, he⟩ := irkGuts_loop (fn := constFun v) (y0 := y0) (oo := oo) (fuel := 2) (t0 := t0) (t1 := t1) (dt := dt)
    hsc hno (by rw [hcl]; exact hpos)
  rw [he, hcl]
  set s := irkInit (F := ℝ) (n := n) (sc.ns * n) t0 y0 (t1 - t0) no.maxit with hs
  have hcl' : clipDt s.t t1 s.dt = t1 - t0 := by
    rw [clipDt_real]; simp [hs, irkInit]
  obtain ⟨r, hr'⟩ := newtonSolve_total (fn := constFun v) (sc := sc) (t := s.t) (h := t1 - t0) (y := s.y)
    (maxit := s.newtonMaxit) (xtol := no.dxDelta) (Rtol := no.tol)
    (count := s.sol.bump.count) (log := s.sol.log) hn hsc.c hr (constFun_regular v s.t s.y (t1 - t0)).1
  obtain ⟨hs0, hY⟩ := const_solve v (hm : 1 < s.newtonMaxit) hR hr'
  have hJ : r.success.J = (constFun v).jac s.t s.y := by
    obtain ⟨-, m, Ys, dYs, H⟩ := stage_run hr'
    exact H.jac
  obtain ⟨a, ha⟩ := attemptI_total (o := o) (mo := mo)
    (d := dWeights (fun i j => (Matrix.of sc.mat)⁻¹ i j) fun i => sc.bw i)
    (d2 := dWeights (fun i j => (Matrix.of sc.mat)⁻¹ i j) fun i => sc.bw2 i) (s := s) (h := t1 - t0) hJ
    (constFun_regular (sc := sc) v s.t s.y (t1 - t0)).2
  obtain ⟨hyn, hee⟩ := const_attempt v hsc hJ hY ha
  obtain ⟨f1, -, f3, f4, f5, -⟩ := attemptI_spec ha
  have hE0 : 0 ≤ a.errTot := by
    rw [f3, errTot_real]
    exact Finset.sum_nonneg fun i _ => sq_nonneg _
  have hE1 : a.errTot ≤ n := by
    rw [f3, errTot_real]
    calc _ ≤ ∑ _i : Fin n, (1 : ℝ) := by
          refine Finset.sum_le_sum fun k _ => ?_
          have hden : o.absTol ≤ o.absTol + o.relTol * max |s.y k| |a.yn k| :=
            le_add_of_nonneg_right (mul_nonneg hrel (le_max_of_le_left (abs_nonneg _)))
          rw [← sq_abs]
          simp only [IrkOpts.toErk]
          rw [abs_div, abs_of_pos (habs.trans_le hden), hee]
          have : |(t1 - t0) ^ 2 * (sc.gamma + ∑ j : Fin sc.ns, sc.bw2 j - ∑ j : Fin sc.ns, sc.bw j) * v k| /
            (o.absTol + o.relTol * max |s.y k| |a.yn k|) ≤ 1 := (div_le_one (habs.trans_le hden)).2 ((hκ k).trans hden)
          exact pow_le_one₀ (by positivity) this
      _ = n := by simp
  have hrej : a.reject = false := by
    rw [f5, ltb_real_false, f4]
    simp only [errNorm, lit_real, ssqrt_real, Rat.cast_one, Rat.cast_natCast]
    split_ifs
    · simp only [machinePrecision, lit_real]; norm_num
    · rw [Real.sqrt_le_one]
      exact (div_le_one (by exact_mod_cast hn)).2 hE1
  have hb : irkBody false laReal (constFun v) t1 o no oo sc mo
      (dWeights (fun i j => (Matrix.of sc.mat)⁻¹ i j) fun i => sc.bw i)
      (dWeights (fun i j => (Matrix.of sc.mat)⁻¹ i j) fun i => sc.bw2 i) s = .next (acceptI oo s a) := by
    unfold irkBody
    have hlt : ltb s.t t1 = true := by rw [ltb_real]; exact ht
    rw [if_pos hlt]
    simp only
    rw [if_neg (by simp [hs, irkInit]), hcl', hr']
    simp only [hs0, ne_eq, not_true_eq_false, if_false, had, Bool.not_true, Bool.false_eq_true]
    rw [ha]
    simp [hE0, hrej, hi, hw]
  rw [runLoop, hb]
  simp only
  rw [runLoop]
  have hlt : ¬ ltb (acceptI oo s a).t t1 = true := by
    rw [ltb_real]
    simp [acceptI, f1, hs, irkInit]
  unfold irkBody
  rw [if_neg hlt]
  refine ⟨_, rfl, ?_⟩
  have hyn' : a.yn = fun k => y0 k + (t1 - t0) * (∑ j : Fin sc.ns, sc.bw j) * v k := by
    funext k; rw [hyn]; rfl
  cases hst : oo.storeInVectors
  all_goals
    refine ⟨?_, ?_, ?_, ?_, ?_⟩
    · simp [acceptI, hi, hst, hw, IrkOutput.bump, hs, irkInit]
    · simp [acceptI, hi, hst, hw, IrkOutput.bump, hs, irkInit, f1]
    · simp [acceptI, hi, hst, hw, IrkOutput.bump, hs, irkInit, hyn']
    · simp [acceptI, hi, hst, hw, IrkOutput.bump, hs, irkInit]
    · obtain ⟨-, L, K, -, hcn⟩ := solve_count hr'
      obtain ⟨L', -, hcn', -⟩ := attemptI_count ha
      simp [acceptI, hi, hst, hw, hcn', hcn, StageResult.success, IrkOutput.bump, hs, irkInit]

end Verif
