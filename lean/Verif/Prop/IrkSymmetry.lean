import Verif.Prop.IrkEstimate
import Verif.Prop.ErkSymmetry

/-!
# Property C107: the implicit integrators and changes of variables
-/

set_option autoImplicit false

namespace Verif
open Spec

namespace Change
variable {n : ℕ} {w : Change n n}

/-- the change of the unknowns multiplies Euclidean lengths by `mu` -/
def Similar (w : Change n n) : Prop := 0 < w.mu ∧ ∀ v, dot (w.L v) (w.L v) = w.mu ^ 2 * dot v v

/-- options with `max_dt`, `abs_tol` and the two tolerances of the Newton iteration in the new units -/
noncomputable def optsI (w : Change n n) (o : IrkOpts ℝ) : IrkOpts ℝ :=
  { o with
    maxDt := w.lam * o.maxDt
    absTol := w.mu * o.absTol
    newtonOpts := o.newtonOpts.map fun no => { no with tol := w.mu * no.tol, dxDelta := w.mu * no.dxDelta } }

/-- `gn` is the problem `fn` in the new variables, its matrix included -/
def Same (w : Change n n) (fn gn : OdeFun ℝ n) : Prop :=
  (∀ t y, gn.fn (w.T t) (w.Y y) = w.K (fn.fn t y)) ∧
    ∀ t y v, (Matrix.of (gn.jac (w.T t) (w.Y y))).mulVec (w.L v) = w.K ((Matrix.of (fn.jac t y)).mulVec v)

/-- calls of the user's functions in the new variables -/
noncomputable def logI (w : Change n n) (l : CallLog ℝ n) : CallLog ℝ n where
  funs := l.funs.map fun p => (w.T p.1, w.Y p.2)
  jacs := l.jacs.map fun p => (w.T p.1, w.Y p.2)

/-- a vector of stages in the new variables -/
noncomputable def S (w : Change n n) {k : ℕ} : Vec ℝ (k * n) →ₗ[ℝ] Vec ℝ (k * n) where
  toFun V := fun p => w.L (stageOf V p.divNat) p.modNat
  map_add' := by
    intro U V
    funext p
    have : stageOf (U + V) p.divNat = stageOf U p.divNat + stageOf V p.divNat := rfl
    rw [this, map_add]
    rfl
  map_smul' := by
    intro a V
    funext p
    have : stageOf (a • V) p.divNat = a • stageOf V p.divNat := rfl
    rw [this, map_smul]
    rfl

/-- what the implicit integrator returns, in the new variables -/
noncomputable def outI (w : Change n n) {k : ℕ} (s : IrkOutput ℝ (k * n) n) : IrkOutput ℝ (k * n) n where
  status := s.status
  tVals := s.tVals.map w.T
  yVals := s.yVals.map w.Y
  stages := s.stages.map w.S
  errEst := s.errEst.map w.L
  err := s.err
  elapsed := s.elapsed
  acceptFrac := s.acceptFrac
  count := s.count
  log := w.logI s.log
  file := s.file.map fun p => (w.T p.1, w.Y p.2)

/-- outcomes in the new variables -/
noncomputable def outcomeI (w : Change n n) {k : ℕ} : Outcome (IrkOutput ℝ (k * n) n) → Outcome (IrkOutput ℝ (k * n) n)
  | .ret a => .ret (w.outI a)
  | .assertFail => .assertFail
  | .throws => .throws
  | .ub => .ub

end Change

/-- **C107, the claim.**  An affine change of the time and of the unknowns that multiplies lengths by `mu` and does not alter the error norm does not
alter the run, if `abs_tol`, `max_dt` and the tolerances of the Newton iteration are changed accordingly. -/
def C107_claim : Prop :=
  ∀ (n : ℕ) (fn gn : OdeFun ℝ n) (w : Change n n) (o : IrkOpts ℝ) (m : ℤ), 0 < w.lam → w.Similar → w.Same fn gn → w.Isometric o.toErk →
    ∀ (nd : Bool) (t0 t1 dt : ℝ) (y0 : Vec ℝ n) (oo : OutOpts) (fuel : ℕ),
      irkOdeint nd laReal gn (w.T t0) (w.T t1) (w.Y y0) (w.optsI o) oo m (w.lam * dt) fuel =
        (irkOdeint nd laReal fn t0 t1 y0 o oo m dt fuel).map w.outcomeI

/-! ### exact linear algebra in other variables -/

section
variable {k : ℕ} {A B : Mat ℝ k} {S : Vec ℝ k →ₗ[ℝ] Vec ℝ k}

theorem unit_conj (hS : Function.Bijective S) (h : ∀ v, (Matrix.of B).mulVec (S v) = S ((Matrix.of A).mulVec v)) :
    IsUnit (Matrix.of B).det ↔ IsUnit (Matrix.of A).det := by
  rw [← Matrix.isUnit_iff_isUnit_det, ← Matrix.isUnit_iff_isUnit_det, ← Matrix.mulVec_injective_iff_isUnit,
    ← Matrix.mulVec_injective_iff_isUnit]
  constructor
  · intro hB u v huv
    apply hS.1
    apply hB
    rw [h, h, huv]
  · intro hA u v huv
    obtain ⟨u, rfl⟩ := hS.2 u
    obtain ⟨v, rfl⟩ := hS.2 v
    rw [h, h] at huv
    rw [hA (hS.1 huv)]

theorem inv_conj (hS : Function.Bijective S) (h : ∀ v, (Matrix.of B).mulVec (S v) = S ((Matrix.of A).mulVec v))
    (hA : IsUnit (Matrix.of A).det) (v : Vec ℝ k) : (Matrix.of B)⁻¹.mulVec (S v) = S ((Matrix.of A)⁻¹.mulVec v) := by
  have hB := (unit_conj hS h).mpr hA
  have e : S v = (Matrix.of B).mulVec (S ((Matrix.of A)⁻¹.mulVec v)) := by
    rw [h, Matrix.mulVec_mulVec, Matrix.mul_nonsing_inv _ hA, Matrix.one_mulVec]
  rw [e, Matrix.mulVec_mulVec, Matrix.nonsing_inv_mul _ hB, Matrix.one_mulVec]

theorem solve_conj (hS : Function.Bijective S) (h : ∀ v, (Matrix.of B).mulVec (S v) = S ((Matrix.of A).mulVec v)) (v : Vec ℝ k) :
    laReal.solve B (S v) = (laReal.solve A v).map S := by
  classical
  by_cases hA : IsUnit (Matrix.of A).det
  · rw [laReal_exact.solve _ _ hA, laReal_exact.solve _ _ ((unit_conj hS h).mpr hA), inv_conj hS h hA]
    rfl
  · have hB := fun hB => hA ((unit_conj hS h).mp hB)
    have e1 : laReal.solve A v = none := if_neg hA
    have e2 : laReal.solve B (S v) = none := if_neg hB
    rw [e1, e2]
    rfl

open Classical in
theorem stageDir_laReal (M : Mat ℝ k) (R : Vec ℝ k) :
    stageDir laReal (laReal.lu M) R = if IsUnit (Matrix.of M).det then .ret (-(Matrix.of M)⁻¹.mulVec R) else .throws := by
  by_cases hM : IsUnit (Matrix.of M).det
  · rw [if_pos hM]
    obtain ⟨dY, h⟩ := stageDir_total hM R
    have e := stageDir_newton laReal_exact laReal_sound h
    rw [h]
    congr 1
    rw [← Matrix.mulVec_neg, ← e, Matrix.mulVec_mulVec, Matrix.nonsing_inv_mul _ hM, Matrix.one_mulVec]
  · rw [if_neg hM]
    obtain ⟨⟨L, U, P⟩, hq⟩ := laReal_lu_some M
    obtain ⟨e1, e2, e3, e4, e5⟩ := laReal_exact.lu _ _ _ _ hq
    have hL : (Matrix.of L).det = 1 := by
      rw [Matrix.det_of_isLowerTriangular (Matrix.of L) (fun i j hij => e3 i j hij)]
      simp [e4]
    have hP : IsUnit (Matrix.of P).transpose.det := by
      have := congrArg Matrix.det e2
      rw [Matrix.det_mul, Matrix.det_one] at this
      exact IsUnit.of_mul_eq_one _ this
    have hU : ¬ IsUnit (Matrix.of U).det := by
      intro hU
      apply hM
      rw [← e1, Matrix.det_mul, Matrix.det_mul, hL, mul_one]
      exact hP.mul hU
    have hn : ∀ v, laReal.solveU U v = none := fun v => if_neg hU
    unfold stageDir
    rw [hq]
    simp only [hn]
    split <;> rfl

theorem stageDir_conj (hS : Function.Bijective S) (h : ∀ v, (Matrix.of B).mulVec (S v) = S ((Matrix.of A).mulVec v)) (R : Vec ℝ k) :
    stageDir laReal (laReal.lu B) (S R) = (stageDir laReal (laReal.lu A) R).bind fun d => .ret (S d) := by
  rw [stageDir_laReal, stageDir_laReal]
  by_cases hA : IsUnit (Matrix.of A).det
  · rw [if_pos hA, if_pos ((unit_conj hS h).mpr hA), inv_conj hS h hA, ← map_neg]
    rfl
  · rw [if_neg hA, if_neg fun hB => hA ((unit_conj hS h).mp hB)]
    rfl

end

namespace Change
variable {n : ℕ} {w : Change n n}

/-! ### stages -/

theorem stage_ext {k : ℕ} {U V : Vec ℝ (k * n)} (h : ∀ i, stageOf U i = stageOf V i) : U = V := by
  funext p
  obtain ⟨⟨i, j⟩, rfl⟩ := finProdFinEquiv.surjective p
  exact congrFun (h i) j

theorem stageOf_S {k : ℕ} (V : Vec ℝ (k * n)) (i : Fin k) : stageOf (w.S V) i = w.L (stageOf V i) := by
  funext j
  change w.L (stageOf V (finProdFinEquiv (i, j)).divNat) (finProdFinEquiv (i, j)).modNat = _
  rw [divNat_stage, modNat_stage]

theorem L_bij (hw : w.Similar) : Function.Bijective w.L := by
  have hi : Function.Injective w.L := by
    rw [injective_iff_map_eq_zero]
    intro v hv
    have h1 := hw.2 v
    have h0 : dot (0 : Vec ℝ n) 0 = 0 := by rw [dot_real]; simp
    rw [hv, h0, dot_real] at h1
    have h2 : ∑ i, v i * v i = 0 := by
      rcases mul_eq_zero.mp h1.symm with h | h
      · exact absurd h (pow_ne_zero _ hw.1.ne')
      · exact h
    rw [Finset.sum_eq_zero_iff_of_nonneg fun i _ => mul_self_nonneg _] at h2
    funext i
    exact mul_self_eq_zero.mp (h2 i (Finset.mem_univ i))
  exact ⟨hi, LinearMap.injective_iff_surjective.mp hi⟩

theorem S_bij (hw : w.Similar) (k : ℕ) : Function.Bijective (w.S (k := k)) := by
  have hi : Function.Injective (w.S (k := k)) := by
    intro U V h
    apply stage_ext
    intro i
    apply (L_bij hw).1
    rw [← stageOf_S, ← stageOf_S, h]
  exact ⟨hi, LinearMap.injective_iff_surjective.mp hi⟩

theorem dot_S (hw : w.Similar) {k : ℕ} (V : Vec ℝ (k * n)) : dot (w.S V) (w.S V) = w.mu ^ 2 * dot V V := by
  have e : ∀ U : Vec ℝ (k * n), dot U U = ∑ i, dot (stageOf U i) (stageOf U i) := by
    intro U
    rw [dot_real, sum_stage]
    refine Finset.sum_congr rfl fun i _ => ?_
    rw [dot_real]
    rfl
  rw [e, e, Finset.mul_sum]
  refine Finset.sum_congr rfl fun i _ => ?_
  rw [stageOf_S, hw.2]

theorem K_one (h1 : w.lam = 1) (v : Vec ℝ n) : w.K v = w.L v := by simp [K, h1]

theorem T_one (h1 : w.lam = 1) (t h : ℝ) : w.T t + h = w.T (t + h) := by simp [T, h1]; ring

theorem lt_T (h1 : w.lam = 1) (t t1 : ℝ) : ltb (w.T t) (w.T t1) = ltb t t1 := by
  rw [Bool.eq_iff_iff, ltb_real, ltb_real]
  simp [T, h1]

theorem clip_one (h1 : w.lam = 1) (t t1 dt : ℝ) : clipDt (w.T t) (w.T t1) dt = clipDt t t1 dt := by
  have := clip (w := w) (by rw [h1]; exact one_pos) t t1 dt
  rw [h1, one_mul, one_mul] at this
  exact this

theorem arg_I (h1 : w.lam = 1) (sc : SolverCoeffs ℝ) (t dt : ℝ) (y : Vec ℝ n) (V : Vec ℝ (sc.ns * n)) (i : Fin sc.ns) :
    stageArgI sc (w.T t) dt (w.Y y) (w.S V) i = (w.T (stageArgI sc t dt y V i).1, w.Y (stageArgI sc t dt y V i).2) := by
  unfold stageArgI
  rw [T_one h1, stageOf_S]
  have : w.Y (fun k => y k + stageOf V i k) = w.Y y + w.L (stageOf V i) := by rw [Y_add]; rfl
  rw [this]
  rfl

theorem calls_I (h1 : w.lam = 1) (sc : SolverCoeffs ℝ) (t dt : ℝ) (y : Vec ℝ n) (V : Vec ℝ (sc.ns * n)) :
    constructCalls sc (w.T t) dt (w.Y y) (w.S V) = (constructCalls sc t dt y V).map fun p => (w.T p.1, w.Y p.2) := by
  unfold constructCalls
  rw [List.map_map]
  exact List.map_congr_left fun i _ => arg_I h1 sc t dt y V i

theorem stageOf_R (f : ℝ → Vec ℝ n → Vec ℝ n) (sc : SolverCoeffs ℝ) (t dt : ℝ) (y : Vec ℝ n) (V : Vec ℝ (sc.ns * n)) (i : Fin sc.ns) :
    stageOf (constructR f sc t dt y V) i = stageOf V i - dt • ∑ j : Fin sc.ns, sc.a i j • f (stageArgI sc t dt y V j).1 (stageArgI sc t dt y V j).2 := by
  funext k
  change constructR f sc t dt y V (finProdFinEquiv (i, k)) = _
  rw [constructR_real]
  simp only [Pi.sub_apply, Pi.smul_apply, Finset.sum_apply, smul_eq_mul]
  rfl

theorem residual_I {fn gn : OdeFun ℝ n} (h1 : w.lam = 1) (hs : w.Same fn gn) (sc : SolverCoeffs ℝ) (t dt : ℝ) (y : Vec ℝ n)
    (V : Vec ℝ (sc.ns * n)) : constructR gn.fn sc (w.T t) dt (w.Y y) (w.S V) = w.S (constructR fn.fn sc t dt y V) := by
  apply stage_ext
  intro i
  rw [stageOf_S, stageOf_R, stageOf_R, stageOf_S, map_sub, map_smul, map_sum]
  congr 2
  refine Finset.sum_congr rfl fun j _ => ?_
  rw [map_smul, arg_I h1]
  dsimp only
  rw [hs.1, K_one h1]

theorem matrix_I {fn gn : OdeFun ℝ n} (h1 : w.lam = 1) (hs : w.Same fn gn) (sc : SolverCoeffs ℝ) (t dt : ℝ) (y : Vec ℝ n)
    (V : Vec ℝ (sc.ns * n)) : (Matrix.of (stageJac sc dt (gn.jac (w.T t) (w.Y y)))).mulVec (w.S V) =
      w.S ((Matrix.of (stageJac sc dt (fn.jac t y))).mulVec V) := by
  have e : ∀ (J : Mat ℝ n) (U : Vec ℝ (sc.ns * n)) (i : Fin sc.ns), stageOf ((Matrix.of (stageJac sc dt J)).mulVec U) i =
      stageOf U i - dt • ∑ j : Fin sc.ns, sc.a i j • (Matrix.of J).mulVec (stageOf U j) := by
    intro J U i
    have hM : Matrix.of (stageJac sc dt J) = 1 - Matrix.of (fun p q => dt * kron sc.mat J p q) := by
      ext a b
      simp [stageJac, eye_real]
    funext k
    change (Matrix.of (stageJac sc dt J)).mulVec U (finProdFinEquiv (i, k)) = _
    rw [hM, Matrix.sub_mulVec, Matrix.one_mulVec, Pi.sub_apply, ← mulVec_real, kron_mulVec]
    simp only [Pi.sub_apply, Pi.smul_apply, Finset.sum_apply, smul_eq_mul, Matrix.mulVec, dotProduct, Matrix.of_apply]
    rfl
  apply stage_ext
  intro i
  rw [stageOf_S, e, e, stageOf_S, map_sub, map_smul, map_sum]
  congr 2
  refine Finset.sum_congr rfl fun j _ => ?_
  rw [map_smul, stageOf_S, hs.2, K_one h1]

theorem less_mu (hmu : 0 < w.mu) (a b : ℝ) : ltb (w.mu ^ 2 * a) (w.mu * b * (w.mu * b)) = ltb a (b * b) := by
  have h2 : 0 < w.mu ^ 2 := by positivity
  rw [Bool.eq_iff_iff, ltb_real, ltb_real, show w.mu * b * (w.mu * b) = w.mu ^ 2 * (b * b) by ring]
  exact mul_lt_mul_iff_right₀ h2

/-! ### the Newton iteration for the stages -/

variable {fn gn : OdeFun ℝ n} {sc : SolverCoeffs ℝ}

/-- local variables of `newton_solve_stages` in the new variables -/
noncomputable def stageSt (w : Change n n) (nd : Bool) (gn : OdeFun ℝ n) (sc : SolverCoeffs ℝ) (t dt : ℝ) (y : Vec ℝ n)
    (s : StageState ℝ (sc.ns * n) n) : StageState ℝ (sc.ns * n) n where
  iters := s.iters
  Y := w.S s.Y
  R := w.S s.R
  lup := stageLup nd laReal gn sc (w.T t) dt (w.Y y)
  J := gn.jac (w.T t) (w.Y y)
  count := s.count
  log := w.logI s.log

/-- what `newton_solve_stages` gives back in the new variables -/
noncomputable def stageRes (w : Change n n) (gn : OdeFun ℝ n) (t : ℝ) (y : Vec ℝ n) {k : ℕ} (r : StageResult ℝ (k * n) n) :
    StageResult ℝ (k * n) n where
  status := r.status
  Y := w.S r.Y
  J := gn.jac (w.T t) (w.Y y)
  iters := r.iters
  Rnorm2 := w.mu ^ 2 * r.Rnorm2
  xnorm2 := w.mu ^ 2 * r.xnorm2
  count := r.count
  log := w.logI r.log

/-- both at once -/
noncomputable def stageSum (w : Change n n) (nd : Bool) (gn : OdeFun ℝ n) (sc : SolverCoeffs ℝ) (t dt : ℝ) (y : Vec ℝ n) :
    StageState ℝ (sc.ns * n) n ⊕ StageResult ℝ (sc.ns * n) n → StageState ℝ (sc.ns * n) n ⊕ StageResult ℝ (sc.ns * n) n
  | .inl s => .inl (w.stageSt nd gn sc t dt y s)
  | .inr r => .inr (w.stageRes gn t y r)

theorem refresh_I (nd : Bool) (t dt : ℝ) (y : Vec ℝ n) (s s' : StageState ℝ (sc.ns * n) n) (hl : s.lup = none ∨ s.lup = stageLup nd laReal fn sc t dt y)
    (hs' : s'.iters = s.iters ∧ s'.Y = w.S s.Y ∧ s'.R = w.S s.R ∧ s'.count = s.count ∧ s'.log = w.logI s.log)
    (hl' : s'.lup = none ∨ s'.lup = stageLup nd laReal gn sc (w.T t) dt (w.Y y)) :
    ∃ q, refreshJac nd laReal fn sc t dt y s = .ret q ∧ q.lup = stageLup nd laReal fn sc t dt y ∧
      refreshJac nd laReal gn sc (w.T t) dt (w.Y y) s' = .ret (w.stageSt nd gn sc t dt y q) := by
  obtain ⟨a1, a2, a3, a4, a5⟩ := hs'
  cases nd with
  | true =>
    have h1 : s.lup = none := by rcases hl with h | h <;> simp [h, stageLup]
    have h2 : s'.lup = none := by rcases hl' with h | h <;> simp [h, stageLup]
    refine ⟨_, rfl, by simp [h1, stageLup], ?_⟩
    simp [refreshJac, stageSt, stageLup, a1, a2, a3, a4, a5, h2, logI]
  | false =>
    obtain ⟨q1, h1⟩ := laReal_lu_some (stageJac sc dt (fn.jac t y))
    obtain ⟨q2, h2⟩ := laReal_lu_some (stageJac sc dt (gn.jac (w.T t) (w.Y y)))
    refine ⟨{ s with
      J := fn.jac t y, count := { s.count with jacEvals := s.count.jacEvals + 1 }
      log := { s.log with jacs := s.log.jacs ++ [(t, y)] }, lup := some q1 }, ?_, ?_, ?_⟩
    · simp [refreshJac, h1]
    · simp [stageLup, h1]
    · simp [refreshJac, h2, stageSt, stageLup, a1, a2, a3, a4, a5, logI]

theorem step_I (h1 : w.lam = 1) (hw : w.Similar) (hs : w.Same fn gn) (nd : Bool) (t dt : ℝ) (y : Vec ℝ n) (refresh : ℤ) (xtol Rtol : ℝ)
    (s : StageState ℝ (sc.ns * n) n) (hl : s.lup = stageLup nd laReal fn sc t dt y) :
    stageStep nd laReal gn sc (w.T t) dt (w.Y y) refresh (w.mu * xtol) (w.mu * Rtol) (w.stageSt nd gn sc t dt y s) =
        (stageStep nd laReal fn sc t dt y refresh xtol Rtol s).bind (fun r => .ret (w.stageSum nd gn sc t dt y r)) ∧
      ∀ q, stageStep nd laReal fn sc t dt y refresh xtol Rtol s = .ret (.inl q) → q.lup = stageLup nd laReal fn sc t dt y := by
  have hdir : stageDir laReal (w.stageSt nd gn sc t dt y s).lup (w.stageSt nd gn sc t dt y s).R =
      (stageDir laReal s.lup s.R).bind fun d => .ret (w.S d) := by
    rw [hl]
    change stageDir laReal (stageLup nd laReal gn sc (w.T t) dt (w.Y y)) (w.S s.R) = _
    cases nd with
    | true => simp [stageLup, stageDir, Outcome.bind]
    | false =>
      simp only [stageLup, Bool.false_eq_true, if_false]
      exact stageDir_conj (S_bij hw _) (matrix_I h1 hs sc t dt y) s.R
  unfold stageStep
  rw [hdir]
  cases hd : stageDir laReal s.lup s.R with
  | assertFail => exact ⟨rfl, fun q h => nomatch h⟩
  | throws => exact ⟨rfl, fun q h => nomatch h⟩
  | ub => exact ⟨rfl, fun q h => nomatch h⟩
  | ret dY =>
    have hY : (fun p => (w.stageSt nd gn sc t dt y s).Y p + lit 1 * w.S dY p) = w.S fun p => s.Y p + lit 1 * dY p := by
      have e : (fun p => s.Y p + lit 1 * dY p) = s.Y + dY := by funext p; simp
      rw [e, map_add]
      funext p
      simp [stageSt]
    have hb : ∀ (α β : Type) (a : α) (g : α → Outcome β), (Outcome.ret a).bind g = g a := fun _ _ _ _ => rfl
    simp only [hb]
    rw [hY, residual_I h1 hs, dot_S hw, dot_S hw, less_mu hw.1, less_mu hw.1, calls_I h1]
    split
    · refine ⟨?_, fun q h => nomatch h⟩
      simp [stageSum, stageRes, stageSt, logI, Outcome.bind]
    · split
      · exact ⟨rfl, fun q h => nomatch h⟩
      · have key : ∀ X X' : Outcome (StageState ℝ (sc.ns * n) n), X' = (X.bind fun q => .ret (w.stageSt nd gn sc t dt y q)) →
            (∀ q, X = .ret q → q.lup = stageLup nd laReal fn sc t dt y) →
            (X'.bind fun s'' => .ret (.inl { s'' with iters := s.iters + 1 })) =
                ((X.bind fun s'' => .ret (Sum.inl (β := StageResult ℝ (sc.ns * n) n) { s'' with iters := s.iters + 1 })).bind
                  fun r => .ret (w.stageSum nd gn sc t dt y r)) ∧
              ∀ q, (X.bind fun s'' => .ret (Sum.inl (β := StageResult ℝ (sc.ns * n) n) { s'' with iters := s.iters + 1 })) = .ret (.inl q) →
                q.lup = stageLup nd laReal fn sc t dt y := by
          intro X X' hX hl
          subst hX
          cases X with
          | assertFail => exact ⟨rfl, fun q h => nomatch h⟩
          | throws => exact ⟨rfl, fun q h => nomatch h⟩
          | ub => exact ⟨rfl, fun q h => nomatch h⟩
          | ret q =>
            refine ⟨rfl, fun q' h => ?_⟩
            simp only [Outcome.bind, Outcome.ret.injEq, Sum.inl.injEq] at h
            rw [← h]
            exact hl q rfl
        have hit : (w.stageSt nd gn sc t dt y s).iters = s.iters := rfl
        by_cases hm : (s.iters : ℤ) % refresh = 0
        · obtain ⟨q, q1, q2, q3⟩ := refresh_I (w := w) (fn := fn) (gn := gn) (sc := sc) nd t dt y
            { s with
              Y := fun p => s.Y p + lit 1 * dY p
              R := constructR fn.fn sc t dt y fun p => s.Y p + lit 1 * dY p
              count := { s.count with funEvals := s.count.funEvals + sc.ns }
              log := { s.log with funs := s.log.funs ++ constructCalls sc t dt y fun p => s.Y p + lit 1 * dY p } }
            { w.stageSt nd gn sc t dt y s with
              Y := w.S fun p => s.Y p + lit 1 * dY p
              R := w.S (constructR fn.fn sc t dt y fun p => s.Y p + lit 1 * dY p)
              count := { (w.stageSt nd gn sc t dt y s).count with funEvals := (w.stageSt nd gn sc t dt y s).count.funEvals + sc.ns }
              log := { (w.stageSt nd gn sc t dt y s).log with
                funs := (w.stageSt nd gn sc t dt y s).log.funs ++
                  (constructCalls sc t dt y fun p => s.Y p + lit 1 * dY p).map fun p => (w.T p.1, w.Y p.2) } }
            (Or.inr hl) ⟨rfl, rfl, rfl, rfl, by simp [stageSt, logI]⟩ (Or.inr rfl)
          rw [if_pos (show ((w.stageSt nd gn sc t dt y s).iters : ℤ) % refresh = 0 from hm), if_pos hm]
          refine key _ _ ?_ ?_
          · rw [q1]
            exact q3
          · intro q' hq'
            rw [q1, Outcome.ret.injEq] at hq'
            rw [← hq']
            exact q2
        · rw [if_neg (show ¬ ((w.stageSt nd gn sc t dt y s).iters : ℤ) % refresh = 0 from hm), if_neg hm]
          refine key _ _ ?_ ?_
          · simp [stageSt, logI, Outcome.bind]
          · intro q' hq'
            rw [Outcome.ret.injEq] at hq'
            rw [← hq']
            exact hl

theorem iter_I (h1 : w.lam = 1) (hw : w.Similar) (hs : w.Same fn gn) (nd : Bool) (t dt : ℝ) (y : Vec ℝ n) (refresh : ℤ) (xtol Rtol : ℝ)
    (k : ℕ) (s : StageState ℝ (sc.ns * n) n) (hl : s.lup = stageLup nd laReal fn sc t dt y) :
    stageIter nd laReal gn sc (w.T t) dt (w.Y y) refresh (w.mu * xtol) (w.mu * Rtol) k (w.stageSt nd gn sc t dt y s) =
      (stageIter nd laReal fn sc t dt y refresh xtol Rtol k s).bind fun r => .ret (w.stageRes gn t y r) := by
  induction k generalizing s with
  | zero =>
    simp only [stageIter, Outcome.bind, stageRes]
    congr 2
    · exact dot_S hw s.R
    · simp
  | succ k ih =>
    obtain ⟨e1, e2⟩ := step_I h1 hw hs nd t dt y refresh xtol Rtol s hl
    rw [stageIter, stageIter, e1]
    cases hq : stageStep nd laReal fn sc t dt y refresh xtol Rtol s with
    | assertFail => rfl
    | throws => rfl
    | ub => rfl
    | ret r =>
      cases r with
      | inr r => rfl
      | inl q => exact ih q (e2 q hq)

theorem solve_I (h1 : w.lam = 1) (hw : w.Similar) (hs : w.Same fn gn) (nd : Bool) (t dt : ℝ) (y : Vec ℝ n) (maxit refresh : ℤ) (xtol Rtol : ℝ)
    (count : IrkCounters) (log : CallLog ℝ n) :
    newtonSolveStages nd laReal gn sc (w.T t) dt (w.Y y) maxit refresh (w.mu * xtol) (w.mu * Rtol) count (w.logI log) =
      (newtonSolveStages nd laReal fn sc t dt y maxit refresh xtol Rtol count log).bind fun r => .ret (w.stageRes gn t y r) := by
  have hz : (fun _ => lit 0 : Vec ℝ (sc.ns * n)) = 0 := by funext i; simp
  have hz' : w.S (0 : Vec ℝ (sc.ns * n)) = 0 := map_zero _
  unfold newtonSolveStages
  simp only [hz]
  obtain ⟨q, q1, q2, q3⟩ := refresh_I (w := w) (fn := fn) (gn := gn) (sc := sc) nd t dt y
    { iters := 1, Y := 0, R := 0, lup := none, J := fn.jac t y, count := count, log := log }
    { iters := 1, Y := 0, R := 0, lup := none, J := gn.jac (w.T t) (w.Y y), count := count, log := w.logI log }
    (Or.inl rfl) ⟨rfl, hz'.symm, hz'.symm, rfl, rfl⟩ (Or.inl rfl)
  rw [q1, q3]
  simp only [Outcome.bind]
  split
  · rfl
  · have := iter_I h1 hw hs nd t dt y refresh xtol Rtol (maxit - 1).toNat
      { q with
        R := constructR fn.fn sc t dt y 0
        count := { q.count with funEvals := q.count.funEvals + sc.ns }
        log := { q.log with funs := q.log.funs ++ constructCalls sc t dt y 0 } } q2
    have e : w.stageSt nd gn sc t dt y
        { q with
          R := constructR fn.fn sc t dt y 0
          count := { q.count with funEvals := q.count.funEvals + sc.ns }
          log := { q.log with funs := q.log.funs ++ constructCalls sc t dt y 0 } } =
        { w.stageSt nd gn sc t dt y q with
          R := constructR gn.fn sc (w.T t) dt (w.Y y) 0
          count := { (w.stageSt nd gn sc t dt y q).count with funEvals := (w.stageSt nd gn sc t dt y q).count.funEvals + sc.ns }
          log := { (w.stageSt nd gn sc t dt y q).log with
            funs := (w.stageSt nd gn sc t dt y q).log.funs ++ constructCalls sc (w.T t) dt (w.Y y) 0 } } := by
      have e1 := residual_I h1 hs sc t dt y 0
      have e2 := calls_I h1 sc t dt y 0
      rw [hz'] at e1 e2
      rw [e1, e2]
      simp [stageSt, logI]
    rw [e] at this
    exact this

/-! ### passes of the loop -/

/-- the local variables of `irk_guts` in the new variables -/
noncomputable def irkSt (w : Change n n) {k : ℕ} (s : IrkState ℝ (k * n) n) : IrkState ℝ (k * n) n :=
  { s with t := w.T s.t, y := w.Y s.y, errEst := w.L s.errEst, sol := w.outI s.sol }

/-- the result of an attempt in the new variables -/
noncomputable def attI (w : Change n n) (o : IrkOpts ℝ) (y : Vec ℝ n) (a : AttemptI ℝ n) : AttemptI ℝ n :=
  { a with
    yn := w.Y a.yn
    errEst := w.L a.errEst
    errTot := errTot (w.optsI o).toErk (w.Y y) (w.Y a.yn) (w.L a.errEst)
    log := w.logI a.log }

theorem comb_I {k : ℕ} (V : Vec ℝ (k * n)) (x : Vec ℝ k) : (fun j => sumFin k fun i => stageOf (w.S V) i j * x i) =
    w.L fun j => sumFin k fun i => stageOf V i j * x i := by
  have e : ∀ U : Vec ℝ (k * n), (fun j => sumFin k fun i => stageOf U i j * x i) = ∑ i, x i • stageOf U i := by
    intro U
    funext j
    rw [sumFin_real, Finset.sum_apply]
    exact Finset.sum_congr rfl fun i _ => mul_comm _ _
  rw [e, e, map_sum]
  refine Finset.sum_congr rfl fun i _ => ?_
  rw [map_smul, stageOf_S]

theorem attempt_I (h1 : w.lam = 1) (hw : w.Similar) (hs : w.Same fn gn) {o : IrkOpts ℝ} (hE : w.Isometric o.toErk) (mo : ℕ) (d d2 : Vec ℝ sc.ns)
    (s : IrkState ℝ (sc.ns * n) n) (dt : ℝ) (r : StageResult ℝ (sc.ns * n) n) (hJ : r.J = fn.jac s.t s.y) :
    attemptI laReal gn (w.optsI o) sc mo d d2 (w.irkSt s) dt (w.stageRes gn s.t s.y r) =
      (attemptI laReal fn o sc mo d d2 s dt r).map (w.attI o s.y) := by
  have hd : ∀ x, combineI sc (w.S r.Y) x = w.L (combineI sc r.Y x) := fun x => comb_I r.Y x
  have hsolve : ∀ v, laReal.solve (fun i j => eye n i j - sc.gamma * dt * gn.jac (w.T s.t) (w.Y s.y) i j) (w.L v) =
      (laReal.solve (fun i j => eye n i j - sc.gamma * dt * r.J i j) v).map w.L := by
    refine solve_conj (L_bij hw) fun v => ?_
    have e : ∀ J : Mat ℝ n, Matrix.of (fun i j => eye n i j - sc.gamma * dt * J i j) = 1 - (sc.gamma * dt) • Matrix.of J := by
      intro J
      ext i j
      simp [eye_real]
    rw [e, e, Matrix.sub_mulVec, Matrix.sub_mulVec, Matrix.one_mulVec, Matrix.one_mulVec, Matrix.smul_mulVec, Matrix.smul_mulVec, hs.2, hJ,
      K_one h1, map_sub, map_smul]
  have hrhs : ∀ z, (fun k => sc.gamma * dt * gn.fn (w.T s.t) (w.Y z) k + w.L (combineI sc r.Y d2) k - w.L (combineI sc r.Y d) k) =
      w.L fun k => sc.gamma * dt * fn.fn s.t z k + combineI sc r.Y d2 k - combineI sc r.Y d k := by
    intro z
    have e : (fun k => sc.gamma * dt * fn.fn s.t z k + combineI sc r.Y d2 k - combineI sc r.Y d k) =
        (sc.gamma * dt) • fn.fn s.t z + combineI sc r.Y d2 - combineI sc r.Y d := rfl
    rw [e, map_sub, map_add, map_smul, hs.1, K_one h1]
    rfl
  have hyn : (fun k => w.Y s.y k + w.L (combineI sc r.Y d) k) = w.Y fun k => s.y k + combineI sc r.Y d k := by
    have e : w.Y (fun k => s.y k + combineI sc r.Y d k) = w.Y s.y + w.L (combineI sc r.Y d) := by rw [Y_add]; rfl
    rw [e]
    rfl
  have hmul : ∀ e : Vec ℝ n, (fun k => dt * w.L e k) = w.L fun k => dt * e k := by
    intro e
    have : (fun k => dt * e k) = dt • e := rfl
    rw [this, map_smul]
    rfl
  have hadd : ∀ e : Vec ℝ n, (fun k => w.Y s.y k + dt * w.L e k) = w.Y fun k => s.y k + dt * e k := by
    intro e
    have q : w.Y (fun k => s.y k + dt * e k) = w.Y s.y + w.L (dt • e) := by rw [Y_add]; rfl
    rw [q, map_smul]
    rfl
  have hopt : (w.optsI o).toErk = w.opts o.toErk := rfl
  have hE' : ∀ y yn e : Vec ℝ n, errNorm n (errTot (w.opts o.toErk) (w.Y y) (w.Y yn) (w.L e)) = errNorm n (errTot o.toErk y yn e) := hE
  have hnd : ∀ dt err errs0 errs1 dts0 dts1 maxit iters, newDtI (w.optsI o) mo dt err errs0 errs1 dts0 dts1 maxit iters =
      newDtI o mo dt err errs0 errs1 dts0 dts1 maxit iters := by
    intro dt err errs0 errs1 dts0 dts1 maxit iters
    simp [newDtI, optsI, h1]
  unfold attemptI
  simp only [irkSt, stageRes, hd, hrhs, hsolve, hyn]
  cases h8 : laReal.solve (fun i j => eye n i j - sc.gamma * dt * r.J i j)
      (fun k => sc.gamma * dt * fn.fn s.t s.y k + combineI sc r.Y d2 k - combineI sc r.Y d k) with
  | none => rfl
  | some e1 =>
    simp only [Option.map_some, hmul, hadd, hrhs, hsolve]
    cases s.alt with
    | false =>
      simp only [Bool.false_eq_true, if_false, Option.map_some, attI, hopt, hE', hnd]
      simp [logI]
    | true =>
      simp only [if_true]
      cases h9 : laReal.solve (fun i j => eye n i j - sc.gamma * dt * r.J i j)
          (fun k => sc.gamma * dt * fn.fn s.t (fun k => s.y k + dt * e1 k) k + combineI sc r.Y d2 k - combineI sc r.Y d k) with
      | none => rfl
      | some e2 =>
        simp only [Option.map_some, attI, hopt, hE', hnd, hmul]
        simp [logI]

/-- results of one pass in the new variables -/
noncomputable def loopStepI (w : Change n n) {k : ℕ} : LoopStep (IrkState ℝ (k * n) n) (IrkOutput ℝ (k * n) n) →
    LoopStep (IrkState ℝ (k * n) n) (IrkOutput ℝ (k * n) n)
  | .next s => .next (w.irkSt s)
  | .done r => .done (w.outcomeI r)

theorem accept_I (oo : OutOpts) (o : IrkOpts ℝ) (h1 : w.lam = 1) {k : ℕ} (s : IrkState ℝ (k * n) n) (a : AttemptI ℝ n) :
    acceptI oo (w.irkSt s) (w.attI o s.y a) = w.irkSt (acceptI oo s a) := by
  have hz : (fun _ => lit 0 : Vec ℝ (k * n)) = 0 := by funext i; simp
  have ht : w.T s.t + a.dt = w.T (s.t + a.dt) := T_one h1 _ _
  unfold acceptI
  simp only [irkSt, attI, ht, hz]
  by_cases hm : (s.step + 1) % oo.interval.toNat = 0
  · simp only [hm, decide_true]
    cases oo.storeInVectors <;> cases oo.writeToFile <;> simp [outI, IrkOutput.bump]
  · simp only [hm, decide_false]
    cases oo.storeInVectors <;> cases oo.writeToFile <;> simp [outI, IrkOutput.bump]

theorem body_I (h1 : w.lam = 1) (hw : w.Similar) (hs : w.Same fn gn) {o : IrkOpts ℝ} (hE : w.Isometric o.toErk) (nd : Bool) (t1 : ℝ)
    (no : NewtonOpts ℝ) (oo : OutOpts) (mo : ℕ) (d d2 : Vec ℝ sc.ns) (s : IrkState ℝ (sc.ns * n) n) :
    irkBody nd laReal gn (w.T t1) (w.optsI o) { no with tol := w.mu * no.tol, dxDelta := w.mu * no.dxDelta } oo sc mo d d2 (w.irkSt s) =
      w.loopStepI (irkBody nd laReal fn t1 o no oo sc mo d d2 s) := by
  have hlt : ltb (w.irkSt s).t (w.T t1) = ltb s.t t1 := lt_T h1 _ _
  have hcl : clipDt (w.irkSt s).t (w.T t1) (w.irkSt s).dt = clipDt s.t t1 s.dt := clip_one h1 _ _ _
  have hsol := solve_I (sc := sc) h1 hw hs nd s.t (clipDt s.t t1 s.dt) s.y s.newtonMaxit no.refreshJac no.dxDelta no.tol s.sol.bump.count s.sol.log
  unfold irkBody
  rw [hlt]
  by_cases h2 : ltb s.t t1 = true
  · rw [if_pos h2, if_pos h2]
    simp only [hcl]
    change (if 0 ≤ o.maxSteps ∧ o.maxSteps < s.step then _ else _) = _
    by_cases h3 : 0 ≤ o.maxSteps ∧ o.maxSteps < s.step
    · rw [if_pos h3, if_pos h3]
      rfl
    rw [if_neg h3, if_neg h3]
    have hsol' : newtonSolveStages nd laReal gn sc (w.irkSt s).t (clipDt s.t t1 s.dt) (w.irkSt s).y (w.irkSt s).newtonMaxit no.refreshJac
        (w.mu * no.dxDelta) (w.mu * no.tol) (w.irkSt s).sol.bump.count (w.irkSt s).sol.log = _ := hsol
    rw [hsol']
    cases hr : newtonSolveStages nd laReal fn sc s.t (clipDt s.t t1 s.dt) s.y s.newtonMaxit no.refreshJac no.dxDelta no.tol s.sol.bump.count
        s.sol.log with
    | assertFail => rfl
    | throws => rfl
    | ub => rfl
    | ret r =>
      obtain ⟨-, m, Ys, dYs, hrun⟩ := stage_run hr
      have hJ : r.success.J = fn.jac s.t s.y := hrun.jac
      simp only [Outcome.bind]
      have hst : (w.stageRes gn s.t s.y r).status = r.status := rfl
      have had : (w.optsI o).adaptive = o.adaptive := rfl
      rw [hst, had]
      by_cases h4 : r.status ≠ 0
      · rw [if_pos h4, if_pos h4]
        by_cases h5 : (!o.adaptive) = true
        · rw [if_pos h5, if_pos h5]
          rfl
        · rw [if_neg h5, if_neg h5]
          rfl
      rw [if_neg h4, if_neg h4]
      by_cases h5 : (!o.adaptive) = true
      · rw [if_pos h5, if_pos h5]
        rfl
      rw [if_neg h5, if_neg h5]
      have hat := attempt_I h1 hw hs hE mo d d2 s (clipDt s.t t1 s.dt) r.success hJ
      have hsu : (w.stageRes gn s.t s.y r).success = w.stageRes gn s.t s.y r.success := rfl
      rw [hsu, hat]
      cases ha : attemptI laReal fn o sc mo d d2 s (clipDt s.t t1 s.dt) r.success with
      | none => rfl
      | some a =>
        have hp : leb (lit 0) a.errTot = true := by
          rw [leb_real, (attemptI_spec ha).2.2.1]
          simpa using errTot_nonneg o.toErk _ _ _
        have hp' : leb (lit 0) (w.attI o s.y a).errTot = true := by
          rw [leb_real, show (lit 0 : ℝ) = 0 by simp]
          exact errTot_nonneg (w.optsI o).toErk (w.Y s.y) (w.Y a.yn) (w.L a.errEst)
        simp only [Option.map_some]
        have hn : ∀ x : ℝ, leb (lit 0) x = true → ¬ (!nd && !leb (lit 0) x) = true := by
          intro x hx
          rw [hx]
          simp
        rw [if_neg (hn _ hp'), if_neg (hn _ hp)]
        have hrj : (w.attI o s.y a).reject = a.reject := rfl
        have hstp : (w.irkSt s).step = s.step := rfl
        rw [hrj, hstp]
        by_cases h6 : a.reject = true
        · rw [if_pos h6, if_pos h6]
          rfl
        rw [if_neg h6, if_neg h6]
        by_cases h7 : oo.interval.toNat = 0
        · rw [if_pos h7, if_pos h7]
          rfl
        rw [if_neg h7, if_neg h7]
        split
        · rfl
        · rw [accept_I oo o h1]
          rfl
  · rw [if_neg h2, if_neg h2]
    rfl

theorem loop_I (h1 : w.lam = 1) (hw : w.Similar) (hs : w.Same fn gn) {o : IrkOpts ℝ} (hE : w.Isometric o.toErk) (nd : Bool) (t1 : ℝ)
    (no : NewtonOpts ℝ) (oo : OutOpts) (mo : ℕ) (d d2 : Vec ℝ sc.ns) (fuel : ℕ) (s : IrkState ℝ (sc.ns * n) n) :
    runLoop (irkBody nd laReal gn (w.T t1) (w.optsI o) { no with tol := w.mu * no.tol, dxDelta := w.mu * no.dxDelta } oo sc mo d d2) fuel (w.irkSt s) =
      (runLoop (irkBody nd laReal fn t1 o no oo sc mo d d2) fuel s).map w.outcomeI := by
  induction fuel generalizing s with
  | zero => rfl
  | succ k ih =>
    unfold runLoop
    rw [body_I h1 hw hs hE]
    cases irkBody nd laReal fn t1 o no oo sc mo d d2 s with
    | next s' => exact ih s'
    | done r => rfl

theorem init_I (t0 dt : ℝ) (y0 : Vec ℝ n) (k : ℕ) (mx : ℤ) : irkInit (k * n) (w.T t0) (w.Y y0) dt mx = w.irkSt (irkInit (k * n) t0 y0 dt mx) := by
  have hz : ∀ m, (fun _ => lit 0 : Vec ℝ m) = 0 := by intro m; funext i; simp
  simp only [irkInit, irkSt, outI, logI, hz, map_zero, List.map_cons, List.map_nil]

theorem guts_I (h1 : w.lam = 1) (hw : w.Similar) (hs : w.Same fn gn) {o : IrkOpts ℝ} (hE : w.Isometric o.toErk) (nd : Bool) (t0 t1 dt : ℝ)
    (y0 : Vec ℝ n) (oo : OutOpts) (fuel : ℕ) :
    irkGuts nd laReal gn (w.T t0) (w.T t1) (w.Y y0) (w.optsI o) dt sc oo fuel = (irkGuts nd laReal fn t0 t1 y0 o dt sc oo fuel).map w.outcomeI := by
  unfold irkGuts
  simp only [clip_one h1]
  have hno : (w.optsI o).newtonOpts = o.newtonOpts.map fun no => { no with tol := w.mu * no.tol, dxDelta := w.mu * no.dxDelta } := rfl
  rw [hno]
  cases o.newtonOpts with
  | none => cases nd <;> rfl
  | some no =>
    simp only [Option.map_some]
    split
    · rfl
    cases minOrder sc with
    | none => rfl
    | some mo =>
      dsimp only
      split
      · rfl
      cases laReal.inv sc.mat with
      | none => rfl
      | some Ai =>
        dsimp only
        split
        · rfl
        · rw [init_I, loop_I h1 hw hs hE]

end Change

open Change

/-- **C107, what holds: the unit of time stays as it is.**  Let the time be counted from another instant, `t ↦ t + tau`, and the unknowns be changed to
`L y + c` with a linear map that multiplies lengths by `mu` and does not alter the error norm.  With `abs_tol` and the tolerances of the Newton iteration in the new unit
the implicit integrator does exactly what it does in the old variables: the same outcome after the same number of passes, the same counters
and the transformed records. -/
theorem C107_equivariant_partial {n : ℕ} {fn gn : OdeFun ℝ n} {w : Change n n} (h1 : w.lam = 1) (hw : w.Similar) (hs : w.Same fn gn)
    {o : IrkOpts ℝ} (hE : w.Isometric o.toErk) (m : ℤ) (nd : Bool) (t0 t1 dt : ℝ) (y0 : Vec ℝ n) (oo : OutOpts) (fuel : ℕ) :
    irkOdeint nd laReal gn (w.T t0) (w.T t1) (w.Y y0) (w.optsI o) oo m dt fuel = (irkOdeint nd laReal fn t0 t1 y0 o oo m dt fuel).map w.outcomeI := by
  unfold irkOdeint
  dsimp only
  have had : (w.optsI o).adaptive = o.adaptive := rfl
  rw [had]
  by_cases hv : (!nd && !irkVerify (irkCoeffs m : SolverCoeffs ℝ)) = true
  · rw [if_pos hv, if_pos hv]
    rfl
  rw [if_neg hv, if_neg hv]
  by_cases ha : (o.adaptive && (irkCoeffs m : SolverCoeffs ℝ).b2.length == 0) = true
  · rw [if_pos ha, if_pos ha]
    exact guts_I (o := { o with adaptive := false }) h1 hw hs hE nd t0 t1 dt y0 oo fuel
  · rw [if_neg ha, if_neg ha]
    exact guts_I h1 hw hs hE nd t0 t1 dt y0 oo fuel

/-- the same problem with the time in half seconds -/
noncomputable def halfSeconds : Change 1 1 := ⟨2, 0, 1, LinearMap.id, 0⟩

/-- **C107 is false**: the error estimate of the implicit integrator depends on the unit of time. -/
theorem C107_refuted : ¬ C107_claim := by
  intro hcl
  obtain ⟨fuel, out, hrun, -, hhead, hlast⟩ := const_run_half
  have hT : ∀ t, halfSeconds.T t = 2 * t := fun t => by simp [Change.T, halfSeconds]
  have hnew := hcl 1 (constFun fun _ => 1) (constFun fun _ => 1 / 2) halfSeconds (demoOpts (-1)) 210 (by simp [halfSeconds])
    ⟨one_pos, fun v => by simp [halfSeconds]⟩
    ⟨fun t y => by funext i; simp [constFun, Change.K, halfSeconds],
     fun t y v => by
      have hz : ∀ c : Vec ℝ 1, ∀ t y, Matrix.of ((constFun c).jac t y) = 0 := fun _ _ _ => rfl
      rw [hz, hz, Matrix.zero_mulVec, Matrix.zero_mulVec]
      simp [Change.K]⟩
    (fun y yn e => by
      have h1 : halfSeconds.Y y = y := by simp [Change.Y, halfSeconds]
      have h2 : halfSeconds.Y yn = yn := by simp [Change.Y, halfSeconds]
      have h3 : halfSeconds.L e = e := rfl
      rw [h1, h2, h3]
      simp [errTot, Change.opts, halfSeconds])
    false 0 (1 / 2) (1 / 2) (fun _ => 0) OutOpts.dflt fuel
  rw [hrun] at hnew
  change _ = some (Outcome.ret (halfSeconds.outI out)) at hnew
  obtain ⟨o', -, -, hg⟩ := irkOdeint_ret hrun
  obtain ⟨o'', -, -, hg'⟩ := irkOdeint_ret hnew
  obtain ⟨hpw, hbd, -, -⟩ := C38_times hg (Or.inl rfl)
  obtain ⟨a, b, l, hl⟩ : ∃ a b l, out.tVals = a :: b :: l := by
    match hq : out.tVals with
    | [] => rw [hq] at hhead; cases hhead
    | [a] => rw [hq] at hhead hlast; simp at hhead hlast; norm_num [hhead] at hlast
    | a :: b :: l => exact ⟨a, b, l, rfl⟩
  have h0 : out.tVals[0]? = some a := by rw [hl]; rfl
  have h1 : out.tVals[0 + 1]? = some b := by rw [hl]; rfl
  have h0' : (halfSeconds.outI out).tVals[0]? = some (2 * a) := by simp [Change.outI, hl, hT]
  have h1' : (halfSeconds.outI out).tVals[0 + 1]? = some (2 * b) := by simp [Change.outI, hl, hT]
  have hab : a < b := by
    rw [hl] at hpw
    exact List.rel_of_pairwise_cons hpw (by simp)
  obtain ⟨y, y', est, k, alt, q1, q2, q3, -, q4, q5⟩ := C83_affine_partial laReal_exact laReal_sound (constFun_affine _) hg
    rfl rfl h0 h1
  obtain ⟨z, z', est', k', alt', r1, r2, r3, -, r4, r5⟩ := C83_affine_partial laReal_exact laReal_sound (constFun_affine _) hg'
    rfl rfl h0' h1'
  have hu : ∀ (c : Vec ℝ 1) (κ t : ℝ) (y : Vec ℝ 1), IsUnit (1 - κ • Matrix.of ((constFun c).jac t y)).det := by
    intro c κ t y
    have hJ : Matrix.of ((constFun c).jac t y) = 0 := rfl
    rw [hJ, smul_zero, sub_zero, Matrix.det_one]
    exact isUnit_one
  have e1 := estimate_const q4 (q5 (hu _ _ _ _)).1
  have e2 := estimate_const r4 (r5 (hu _ _ _ _)).1
  have e3 : est' = est := by
    have : (halfSeconds.outI out).errEst[0 + 1]? = some est := by
      change (out.errEst.map halfSeconds.L)[0 + 1]? = some est
      rw [List.getElem?_map, q3]
      rfl
    rw [this, Option.some.injEq] at r3
    exact r3.symm
  have hc : (irkCoeffs 210 : SolverCoeffs ℝ).gamma + ∑ j : Fin (irkCoeffs 210 : SolverCoeffs ℝ).ns,
      ((irkCoeffs 210 : SolverCoeffs ℝ).bw2 j - (irkCoeffs 210 : SolverCoeffs ℝ).bw j) ≠ 0 := by
    have hsc : (irkCoeffs 210 : SolverCoeffs ℝ) = radauIIA32 := by simp [irkCoeffs]
    rw [hsc]
    change (radauIIA32 : SolverCoeffs ℝ).gamma + ∑ j : Fin 2, ((radauIIA32 : SolverCoeffs ℝ).bw2 j -
      (radauIIA32 : SolverCoeffs ℝ).bw j) ≠ 0
    rw [Fin.sum_univ_two]
    norm_num [radauIIA32, SolverCoeffs.bw2, SolverCoeffs.bw, q]
  have e4 := congrFun (e2.symm.trans (e3.trans e1)) 0
  simp only [Pi.smul_apply, smul_eq_mul, mul_one] at e4
  have hne : (b - a) * ((b - a) * ((irkCoeffs 210 : SolverCoeffs ℝ).gamma + ∑ j : Fin (irkCoeffs 210 : SolverCoeffs ℝ).ns,
      ((irkCoeffs 210 : SolverCoeffs ℝ).bw2 j - (irkCoeffs 210 : SolverCoeffs ℝ).bw j))) ≠ 0 :=
    mul_ne_zero (by linarith) (mul_ne_zero (by linarith) hc)
  apply hne
  linear_combination e4

/-- a change of the unit of the unknowns, of their signs and of their order, time counted from another instant, does not alter the error norm -/
theorem units_isometric {n : ℕ} {tau mu : ℝ} {σ : Equiv.Perm (Fin n)} {sg : Fin n → ℝ} (hmu : 0 < mu) (hsg : ∀ i, sg i = 1 ∨ sg i = -1)
    (o : ErkOpts ℝ) : (units 1 tau mu σ sg).Isometric o := by
  intro y yn e
  have hY : ∀ y, (units 1 tau mu σ sg).Y y = fun i => mu * sg i * y (σ i) := by
    intro y
    funext i
    simp [Change.Y, units]
  have hL : (units 1 tau mu σ sg).L e = fun i => mu * sg i * e (σ i) := rfl
  congr 1
  rw [errTot_sum, errTot_sum, hY, hY, hL, ← Equiv.sum_comp σ fun i => (e i / (o.absTol + o.relTol * max |y i| |yn i|)) ^ 2]
  refine Finset.sum_congr rfl fun i _ => ?_
  have habs : ∀ x : ℝ, |mu * sg i * x| = mu * |x| := by
    intro x
    rw [abs_mul, abs_mul, abs_of_pos hmu]
    rcases hsg i with h | h <;> simp [h]
  have hsq : sg i ^ 2 = 1 := by rcases hsg i with h | h <;> simp [h]
  simp only [Change.opts, units, habs]
  rw [← mul_max_of_nonneg _ _ hmu.le, show mu * o.absTol + o.relTol * (mu * max |y (σ i)| |yn (σ i)|) =
    mu * (o.absTol + o.relTol * max |y (σ i)| |yn (σ i)|) by ring, mul_assoc, mul_div_mul_left _ _ hmu.ne', mul_div_assoc, mul_pow, hsq, one_mul]

/-- **C107, what holds, without abstract maps.**  The time may be counted from another instant; the unknowns may be renumbered, change their
signs and be measured in another unit (then `abs_tol` and the tolerances of the Newton iteration are, too): the run is the same. -/
theorem C107_units_partial {n : ℕ} {fn gn : OdeFun ℝ n} {tau mu : ℝ} {σ : Equiv.Perm (Fin n)} {sg : Fin n → ℝ} (hmu : 0 < mu)
    (hsg : ∀ i, sg i = 1 ∨ sg i = -1)
    (hf : ∀ t y i, gn.fn (t + tau) (fun j => mu * sg j * y (σ j)) i = mu * sg i * fn.fn t y (σ i))
    (hj : ∀ t y i j, gn.jac (t + tau) (fun j => mu * sg j * y (σ j)) i j = sg i * sg j * fn.jac t y (σ i) (σ j))
    (nd : Bool) (t0 t1 dt : ℝ) (y0 : Vec ℝ n) (o : IrkOpts ℝ) (oo : OutOpts) (m : ℤ) (fuel : ℕ) :
    irkOdeint nd laReal gn (t0 + tau) (t1 + tau) (fun i => mu * sg i * y0 (σ i))
        { o with
          absTol := mu * o.absTol
          newtonOpts := o.newtonOpts.map fun no => { no with tol := mu * no.tol, dxDelta := mu * no.dxDelta } } oo m dt fuel =
      (irkOdeint nd laReal fn t0 t1 y0 o oo m dt fuel).map (units 1 tau mu σ sg).outcomeI := by
  have hY : ∀ y, (units 1 tau mu σ sg).Y y = fun i => mu * sg i * y (σ i) := by
    intro y
    funext i
    simp [Change.Y, units]
  have hL : ∀ y, (units 1 tau mu σ sg).L y = fun i => mu * sg i * y (σ i) := fun y => rfl
  have hT : ∀ t, (units 1 tau mu σ sg).T t = t + tau := fun t => by simp [Change.T, units]
  have hK : ∀ y, (units 1 tau mu σ sg).K y = fun i => mu * sg i * y (σ i) := by
    intro y
    rw [K_one rfl, hL]
  have hsq : ∀ i, sg i * sg i = 1 := fun i => by rcases hsg i with h | h <;> simp [h]
  have hw : (units 1 tau mu σ sg).Similar := by
    refine ⟨hmu, fun v => ?_⟩
    rw [hL, dot_real, dot_real, ← Equiv.sum_comp σ fun i => v i * v i, Finset.mul_sum]
    refine Finset.sum_congr rfl fun i _ => ?_
    have e : (units 1 tau mu σ sg).mu = mu := rfl
    rw [e]
    linear_combination mu ^ 2 * v (σ i) ^ 2 * hsq i
  have hs : (units 1 tau mu σ sg).Same fn gn := by
    refine ⟨fun t y => ?_, fun t y v => ?_⟩
    · funext i
      rw [hT, hY, hK, hf]
    · funext i
      rw [hT, hY, hL, hK]
      simp only [Matrix.mulVec, dotProduct, Matrix.of_apply]
      rw [← Equiv.sum_comp σ fun j => fn.jac t y (σ i) j * v j, Finset.mul_sum]
      refine Finset.sum_congr rfl fun j _ => ?_
      rw [hj]
      linear_combination sg i * mu * fn.jac t y (σ i) (σ j) * v (σ j) * hsq j
  have := C107_equivariant_partial rfl hw hs (units_isometric hmu hsg o.toErk) m nd t0 t1 dt y0 oo fuel
  rw [hT, hT, hY] at this
  have ho : (units 1 tau mu σ sg).optsI o = { o with
      absTol := mu * o.absTol
      newtonOpts := o.newtonOpts.map fun no => { no with tol := mu * no.tol, dxDelta := mu * no.dxDelta } } := by
    simp [Change.optsI, units]
  rw [ho] at this
  exact this

/-- a stiff linear system, `u' = -1000 u + v, v' = -v`, in other units, in the other order and started five seconds later -/
example (nd : Bool) (o : IrkOpts ℝ) (fuel : ℕ) :
    irkOdeint nd laReal ⟨fun _ y => ![-(y 0), -1000 * y 1 - y 0], fun _ _ => ![![-1, 0], ![-1, -1000]]⟩ (0 + 5) (1 + 5)
      (fun i : Fin 2 => 10 * (![-1, 1] : Fin 2 → ℝ) i * (![1, 2] : Fin 2 → ℝ) (Equiv.swap 0 1 i))
      { o with
        absTol := 10 * o.absTol
        newtonOpts := o.newtonOpts.map fun no => { no with tol := 10 * no.tol, dxDelta := 10 * no.dxDelta } } OutOpts.dflt 211 (1 / 10) fuel =
    (irkOdeint nd laReal ⟨fun _ y => ![-1000 * y 0 + y 1, -(y 1)], fun _ _ => ![![-1000, 1], ![0, -1]]⟩ 0 1 ![1, 2] o OutOpts.dflt 211 (1 / 10)
      fuel).map (units 1 5 10 (Equiv.swap 0 1) ![-1, 1]).outcomeI := by
  refine C107_units_partial (by norm_num) (fun i => ?_) (fun t y i => ?_) (fun t y i j => ?_) nd 0 1 (1 / 10) ![1, 2] o OutOpts.dflt 211 fuel
  · fin_cases i <;> simp
  · fin_cases i
    · simp
    · simp; ring
  · fin_cases i <;> fin_cases j <;> simp

end Verif
