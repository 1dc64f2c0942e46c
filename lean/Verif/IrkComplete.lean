import Verif.Prop.IrkConverge

/-!
# Implicit steps near a solution: the defect of the Newton iteration without reference to its tolerances, regular matrices, and an
invariant of the loop
-/

set_option linter.unusedSectionVars false

namespace Verif
open Spec Set

variable {n : ℕ} {nd : Bool} {la : LinAlg ℝ} {fn : OdeFun ℝ n} {sc : SolverCoeffs ℝ} {t0 t1 : ℝ} {u : ℝ → Vec ℝ n}

/-- how well the Jacobi matrix at `(t, y)` predicts differences of the right-hand side at the stage times, for arguments within `ρ`
of `y` -/
def LinNear (fn : OdeFun ℝ n) (sc : SolverCoeffs ℝ) (t h : ℝ) (y : Vec ℝ n) (ρ Ω : ℝ) : Prop :=
  ∀ (j : Fin sc.ns) (z w : Vec ℝ n) (D : ℝ), (∀ l, |z l| ≤ ρ) → (∀ l, |w l| ≤ ρ) → (∀ l, |z l - w l| ≤ D) →
    ∀ q, |fn.fn (t + sc.cn j * h) (y + z) q - fn.fn (t + sc.cn j * h) (y + w) q - ∑ l, fn.jac t y q l * (z l - w l)| ≤ Ω * D

theorem LipNear.linNear {t h : ℝ} {y : Vec ℝ n} {ρ L Jb : ℝ} (hL : LipNear fn sc t h y ρ L) (hJ : ∀ q, ∑ l, |fn.jac t y q l| ≤ Jb) :
    LinNear fn sc t h y ρ (Jb + L) := by
  intro j z w D hz hw hzw q
  have hD : 0 ≤ D := (abs_nonneg _).trans (hzw q)
  have h1 := hL j z w D hz hw hzw q
  have h2 := abs_sum_mul_le (fun l => fn.jac t y q l) (fun l => z l - w l) (hJ q) hzw hD
  refine (abs_sub _ _).trans ?_
  linarith

/-- the residual after an increment of size at most `D` -/
theorem residual_lin (hla : la.Exact) (hs : la.Sound) {t h : ℝ} {y : Vec ℝ n} {refresh : ℤ} {xtol Rtol : ℝ}
    {i : ℕ} {Y0 : Vec ℝ (sc.ns * n)} {count : IrkCounters} {log : CallLog ℝ n} {k : ℕ} {r : StageResult ℝ (sc.ns * n) n} {m : ℕ}
    {Ys dYs : ℕ → Vec ℝ (sc.ns * n)}
    (H : StageRun nd la fn sc t h y refresh xtol Rtol i Y0 count log k r m Ys dYs) {j : ℕ} (hj : j < m)
    (hh : 0 ≤ h) {Ω ρ D : ℝ} (hΩ0 : 0 ≤ Ω) (hΩ : LinNear fn sc t h y ρ Ω)
    (hD : 0 ≤ D) (hd : ∀ p, |dYs j p| ≤ D) (h1 : ∀ p, |Ys j p| ≤ ρ) (h2 : ∀ p, |Ys (j + 1) p| ≤ ρ) (p : Fin (sc.ns * n)) :
    |constructR fn.fn sc t h y (Ys (j + 1)) p| ≤ h * absA sc * Ω * D := by
  have hA := absA_nonneg sc
  obtain ⟨⟨p, q⟩, rfl⟩ := finProdFinEquiv.surjective p
  have heq := C36_newton_equation hla hs H hj p q
  rw [constructR_real] at heq
  rw [constructR_real]
  have hup : ∀ a, Ys (j + 1) a = Ys j a + dYs j a := fun a => by
    rw [H.upd j hj]; simp
  have b2 : |∑ u : Fin sc.ns, sc.a p u * (fn.fn (t + sc.cn u * h) (y + fun l => Ys (j + 1) (finProdFinEquiv (u, l))) q -
      fn.fn (t + sc.cn u * h) (y + fun l => Ys j (finProdFinEquiv (u, l))) q -
      ∑ l, fn.jac t y q l * dYs j (finProdFinEquiv (u, l)))| ≤ absA sc * (Ω * D) := by
    refine abs_sum_mul_le _ _ (row_le_absA sc p) (fun u => ?_) (by positivity)
    have h3 := hΩ u (fun l => Ys (j + 1) (finProdFinEquiv (u, l))) (fun l => Ys j (finProdFinEquiv (u, l))) D (fun l => h2 _)
      (fun l => h1 _) (fun l => by rw [hup, add_sub_cancel_left]; exact hd _) q
    simpa only [hup, add_sub_cancel_left] using h3
  have e : Ys (j + 1) (finProdFinEquiv (p, q)) - h * ∑ u : Fin sc.ns, sc.a p u *
        fn.fn (t + sc.cn u * h) (y + fun l => Ys (j + 1) (finProdFinEquiv (u, l))) q =
      - (h * ∑ u : Fin sc.ns, sc.a p u * (fn.fn (t + sc.cn u * h) (y + fun l => Ys (j + 1) (finProdFinEquiv (u, l))) q -
      fn.fn (t + sc.cn u * h) (y + fun l => Ys j (finProdFinEquiv (u, l))) q -
      ∑ l, fn.jac t y q l * dYs j (finProdFinEquiv (u, l)))) := by
    simp only [mul_sub (sc.a p _), Finset.sum_sub_distrib, hup (finProdFinEquiv (p, q))]
    linarith
  rw [e, abs_neg, abs_mul, abs_of_nonneg hh]
  have c2 := mul_le_mul_of_nonneg_left b2 hh
  linarith

/-- **the defect of a successful stage solve**, whatever the tolerances: at least one pass has been made, and its increment is at most
`2 h |A| M` -/
theorem stage_defect (hla : la.Exact) (hs : la.Sound) {t h : ℝ} {y : Vec ℝ n} {maxit refresh : ℤ} {xtol Rtol : ℝ}
    {count : IrkCounters} {log : CallLog ℝ n} {r : StageResult ℝ (sc.ns * n) n}
    (hr : newtonSolveStages nd la fn sc t h y maxit refresh xtol Rtol count log = .ret r) (hst : r.status = 0)
    (hh : 0 ≤ h) {Jb M L ρ Ω : ℝ} (hJ : ∀ q, ∑ l, |fn.jac t y q l| ≤ Jb) (hM0 : 0 ≤ M)
    (hM : ∀ (j : Fin sc.ns) q, |fn.fn (t + sc.cn j * h) y q| ≤ M) (hL0 : 0 ≤ L) (hL : LipNear fn sc t h y ρ L)
    (hsmall : h * absA sc * Jb ≤ 1 / 2) (hsmall2 : h * absA sc * (Jb + L) ≤ 1 / 4) (hρ : 4 * (h * absA sc * M) ≤ ρ)
    (hΩ0 : 0 ≤ Ω) (hΩ : LinNear fn sc t h y (4 * (h * absA sc * M)) Ω) (p : Fin (sc.ns * n)) :
    |constructR fn.fn sc t h y r.Y p| ≤ 2 * absA sc ^ 2 * M * Ω * h ^ 2 := by
  have hA := absA_nonneg sc
  obtain ⟨-, m, Ys, dYs, S⟩ := stage_run hr
  obtain ⟨k1, k2⟩ := newton_iterates hla hs S hh hJ hM0 hM hL0 hL hsmall hsmall2 hρ
  rw [S.final]
  have hm : 0 < m := by
    rcases S.stop with ⟨-, s2, -⟩ | ⟨s1, -⟩
    · omega
    · omega
  have hX : 0 ≤ h * absA sc * M := by positivity
  have := residual_lin hla hs S (j := m - 1) (by omega) hh hΩ0 hΩ (D := 2 * (h * absA sc * M)) (by positivity)
    (fun p => (k2 (m - 1) (by omega) p).trans (mul_le_of_le_one_right (by positivity) (pow_le_one₀ (by norm_num) (by norm_num))))
    (fun p => k1 _ (by omega) p) (fun p => k1 _ (by omega) p) p
  rw [show m - 1 + 1 = m by omega] at this
  refine this.trans (le_of_eq ?_)
  ring

/-- a continuously differentiable map is Lipschitz on balls -/
theorem lipschitz_ball' {E G : Type} [NormedAddCommGroup E] [NormedSpace ℝ E] [ProperSpace E] [NormedAddCommGroup G]
    [NormedSpace ℝ G] {g : E → G} (hg : ContDiff ℝ 1 g) (R : ℝ) :
    ∃ L, 0 ≤ L ∧ ∀ z w, ‖z‖ ≤ R → ‖w‖ ≤ R → ‖g z - g w‖ ≤ L * ‖z - w‖ := by
  obtain ⟨L, hL⟩ := (isCompact_closedBall (0 : E) R).exists_bound_of_continuousOn
    (hg.continuous_fderiv (by norm_num)).continuousOn
  refine ⟨max L 0, le_max_right _ _, fun z w hz hw => ?_⟩
  exact (convex_closedBall (0 : E) R).norm_image_sub_le_of_norm_fderiv_le
    (fun x _ => (hg.differentiable (by norm_num)).differentiableAt) (fun x hx => (hL x hx).trans (le_max_left _ _))
    (by simpa using hw) (by simpa using hz)

/-- the true Jacobi matrix of a twice continuously differentiable right-hand side predicts differences near `(t, y)` up to the distance
from `(t, y)` -/
theorem jacobian_predicts (hf : ContDiff ℝ 2 fun q : ℝ × Vec ℝ n => fn.fn q.1 q.2)
    (hjac : ∀ t y, IsJacobianAt (fn.fn t) (fn.jac t y) y) (Q : ℝ) :
    ∃ K, 0 ≤ K ∧ ∀ (t t' : ℝ) (y z w : Vec ℝ n) (ρ δ : ℝ), ‖((t, y) : ℝ × Vec ℝ n)‖ ≤ Q →
      (∀ x : Vec ℝ n, ‖x‖ ≤ ρ → ‖((t', y + x) : ℝ × Vec ℝ n)‖ ≤ Q) → |t' - t| ≤ δ → ρ ≤ δ → ‖z‖ ≤ ρ → ‖w‖ ≤ ρ →
      ‖fn.fn t' (y + z) - fn.fn t' (y + w) - (Matrix.of (fn.jac t y)).mulVec (z - w)‖ ≤ K * δ * ‖z - w‖ := by
  have hfd : ContDiff ℝ 1 (fderiv ℝ fun q : ℝ × Vec ℝ n => fn.fn q.1 q.2) := hf.fderiv_right (by norm_num)
  obtain ⟨K, hK, hlip⟩ := lipschitz_ball' hfd Q
  refine ⟨K, hK, ?_⟩
  intro t t' y z w ρ δ hty hball ht hρ hz hw
  set Φ := fun q : ℝ × Vec ℝ n => fn.fn q.1 q.2 with hΦ
  have hdiff : ∀ (s : ℝ) (v : Vec ℝ n), HasFDerivAt (fn.fn s) ((fderiv ℝ Φ (s, v)).comp (ContinuousLinearMap.inr ℝ ℝ (Vec ℝ n))) v := by
    intro s v
    have h1 : HasFDerivAt Φ (fderiv ℝ Φ (s, v)) (s, v) := (hf.differentiable (by norm_num)).differentiableAt.hasFDerivAt
    exact h1.comp v (hasFDerivAt_prodMk_right s v)
  set J := LinearMap.toContinuousLinearMap (Matrix.toLin' (Matrix.of (fn.jac t y))) with hJ
  have hJe : J = (fderiv ℝ Φ (t, y)).comp (ContinuousLinearMap.inr ℝ ℝ (Vec ℝ n)) := (hjac t y).unique (hdiff t y)
  have hder : ∀ x : Vec ℝ n, HasFDerivAt (fun x => fn.fn t' (y + x) - J x)
      ((fderiv ℝ Φ (t', y + x) - fderiv ℝ Φ (t, y)).comp (ContinuousLinearMap.inr ℝ ℝ (Vec ℝ n))) x := by
    intro x
    have h1 : HasFDerivAt (fun x => fn.fn t' (y + x)) ((fderiv ℝ Φ (t', y + x)).comp (ContinuousLinearMap.inr ℝ ℝ (Vec ℝ n))) x := by
      have := (hdiff t' (y + x)).comp x ((hasFDerivAt_id x).const_add y)
      simpa using this
    have h2 := h1.sub J.hasFDerivAt (x := x)
    rw [hJe] at h2
    rw [ContinuousLinearMap.sub_comp, hJe]
    exact h2
  have key := (convex_closedBall (0 : Vec ℝ n) ρ).norm_image_sub_le_of_norm_hasFDerivWithin_le (C := K * δ)
    (fun x _ => (hder x).hasFDerivWithinAt) (fun x hx => ?_) (x := w) (y := z) (by simpa using hw) (by simpa using hz)
  · have e : fn.fn t' (y + z) - J z - (fn.fn t' (y + w) - J w) =
        fn.fn t' (y + z) - fn.fn t' (y + w) - (Matrix.of (fn.jac t y)).mulVec (z - w) := by
      have : J z - J w = (Matrix.of (fn.jac t y)).mulVec (z - w) := by
        rw [← map_sub]
        rfl
      rw [← this]
      abel
    rwa [e] at key
  · have hx' : ‖x‖ ≤ ρ := by simpa using hx
    have h1 := hlip (t', y + x) (t, y) (hball x hx') hty
    have h2 : ‖((t', y + x) : ℝ × Vec ℝ n) - (t, y)‖ ≤ δ := by
      rw [Prod.mk_sub_mk, add_sub_cancel_left]
      exact pair_norm_le ht (hx'.trans hρ)
    have hδ : 0 ≤ δ := (abs_nonneg _).trans ht
    refine (ContinuousLinearMap.opNorm_comp_le _ _).trans ?_
    calc _ ≤ (K * δ) * 1 := mul_le_mul (h1.trans (mul_le_mul_of_nonneg_left h2 hK)) (ContinuousLinearMap.norm_inr_le_one ℝ ℝ (Vec ℝ n))
          (norm_nonneg _) (by positivity)
      _ = _ := mul_one _

/-- **bounds near a solution**, valid for all states within distance one of it and all small steps -/
theorem near_bounds (hf : ContDiff ℝ 1 fun q : ℝ × Vec ℝ n => fn.fn q.1 q.2)
    (hjac : Continuous fun q : ℝ × Vec ℝ n => fn.jac q.1 q.2)
    (hu : ∀ t ∈ Icc t0 t1, HasDerivWithinAt u (fn.fn t (u t)) (Icc t0 t1) t) (sc : SolverCoeffs ℝ) :
    ∃ Jb M L h0 Q : ℝ, 0 ≤ Jb ∧ 0 ≤ M ∧ 0 ≤ L ∧ 0 < h0 ∧ h0 ≤ 1 ∧ ∀ (t : ℝ) (y : Vec ℝ n), t ∈ Icc t0 t1 → ‖y - u t‖ ≤ 1 →
      (∀ q, ∑ l, |fn.jac t y q l| ≤ Jb) ∧ ‖((t, y) : ℝ × Vec ℝ n)‖ ≤ Q ∧
      (∀ (t' : ℝ) (z : Vec ℝ n), |t' - t| ≤ 1 → ‖z‖ ≤ 1 → ‖((t', y + z) : ℝ × Vec ℝ n)‖ ≤ Q) ∧
      BoundedNear fn t y 1 1 M ∧
      ∀ h, 0 ≤ h → h ≤ h0 → LipNear fn sc t h y 1 L ∧ h * absA sc * Jb ≤ 1 / 2 ∧ h * absA sc * (Jb + L) ≤ 1 / 4 ∧
        4 * (h * absA sc * M) ≤ 1 ∧ absC sc * h ≤ 1 ∧ h * |sc.gamma| * Jb ≤ 1 / 2 := by
  have hcu : ContinuousOn u (Icc t0 t1) := fun t ht => (hu t ht).continuousWithinAt
  obtain ⟨R, hR, hub⟩ := solution_bounded hcu
  have hCn := absC_nonneg sc
  have hAn := absA_nonneg sc
  set Q := |t0| + |t1| + 1 + (R + 2) with hQ
  obtain ⟨Jb, hJb, hJ⟩ := jac_bound hjac Q
  obtain ⟨M0, hM⟩ := (isCompact_closedBall (0 : ℝ × Vec ℝ n) Q).exists_bound_of_continuousOn hf.continuous.continuousOn
  set M := max M0 0 with hMdef
  have hM0 : 0 ≤ M := le_max_right _ _
  obtain ⟨L, hL, hLip⟩ := lipschitz_ball' hf Q
  set q := 4 * (absA sc * (Jb + L + M) + absC sc + |sc.gamma| * Jb + 1) with hq
  have hq0 : 0 < q := by positivity
  refine ⟨Jb, M, L, 1 / q, Q, hJb, hM0, hL, by positivity, ?_, ?_⟩
  · rw [div_le_one hq0, hq]
    have : 0 ≤ absA sc * (Jb + L + M) + absC sc + |sc.gamma| * Jb := by positivity
    linarith
  intro t y ht hy
  have hyR : ‖y‖ ≤ R + 1 := by
    have := norm_add_le (y - u t) (u t)
    rw [sub_add_cancel] at this
    linarith [hub t ht]
  have htQ : |t| ≤ |t0| + |t1| := by
    rw [abs_le]
    constructor
    · linarith [neg_abs_le t0, abs_nonneg t1, ht.1]
    · linarith [le_abs_self t1, abs_nonneg t0, ht.2]
  have htQ' : ∀ t', |t' - t| ≤ 1 → |t'| ≤ |t0| + |t1| + 1 := fun t' h => by
    have h2 := abs_add_le t (t' - t)
    rw [add_sub_cancel] at h2
    linarith
  have hpair : ∀ (t' : ℝ) (z : Vec ℝ n), |t' - t| ≤ 1 → ‖z‖ ≤ 1 → ‖((t', y + z) : ℝ × Vec ℝ n)‖ ≤ Q := by
    intro t' z h1 h2
    refine pair_norm_le (by linarith [htQ' t' h1]) ((norm_add_le _ _).trans ?_)
    linarith [abs_nonneg t0, abs_nonneg t1]
  have hty : ‖((t, y) : ℝ × Vec ℝ n)‖ ≤ Q := by
    have := hpair t 0 (by simp) (by simp)
    rwa [add_zero] at this
  refine ⟨hJ t y hty, hty, hpair, ?_, ?_⟩
  · intro t' y' h1 h2 k
    have h3 := hpair t' (y' - y) h1 (pi_le zero_le_one h2)
    rw [add_sub_cancel] at h3
    exact (le_pi _ k).trans ((hM (t', y') (by simpa using h3)).trans (le_max_left _ _))
  · intro h hh hle
    have hle' := hle
    rw [le_div_iff₀ hq0, hq] at hle
    have e0 : 0 ≤ h * (|sc.gamma| * Jb) := by positivity
    have e1 : 0 ≤ h * (absA sc * Jb) := by positivity
    have e2 : 0 ≤ h * (absA sc * L) := by positivity
    have e3 : 0 ≤ h * (absA sc * M) := by positivity
    have e4 : 0 ≤ h * absC sc := by positivity
    have c5 : absC sc * h ≤ 1 := by nlinarith
    refine ⟨?_, by nlinarith, by nlinarith, by nlinarith, c5, by nlinarith⟩
    intro j z w E hz hw hzw k
    have hE : 0 ≤ E := (abs_nonneg _).trans (hzw k)
    have hs := (stage_time sc (t := t) hh j).trans c5
    have h1 := hLip (t + sc.cn j * h, y + z) (t + sc.cn j * h, y + w) (hpair _ _ hs (pi_le zero_le_one hz))
      (hpair _ _ hs (pi_le zero_le_one hw))
    rw [Prod.mk_sub_mk, sub_self, norm_pair, add_sub_add_left_eq_sub] at h1
    refine (le_pi (fn.fn (t + sc.cn j * h) (y + z) - fn.fn (t + sc.cn j * h) (y + w)) k).trans (h1.trans ?_)
    exact mul_le_mul_of_nonneg_left (pi_le hE hzw) hL

/-- How the supplied Jacobi matrix and the attainable order go together: any continuous matrix gives order one, the true Jacobi matrix
gives order two. -/
def JacobianOrder (fn : OdeFun ℝ n) (r : ℕ) : Prop :=
  (r = 1 ∧ Continuous fun q : ℝ × Vec ℝ n => fn.jac q.1 q.2) ∨ (r = 2 ∧ ∀ t y, IsJacobianAt (fn.fn t) (fn.jac t y) y)

theorem jacobian_continuous (hf : ContDiff ℝ 2 fun q : ℝ × Vec ℝ n => fn.fn q.1 q.2)
    (hjac : ∀ t y, IsJacobianAt (fn.fn t) (fn.jac t y) y) : Continuous fun q : ℝ × Vec ℝ n => fn.jac q.1 q.2 := by
  set Φ := fun q : ℝ × Vec ℝ n => fn.fn q.1 q.2 with hΦ
  have hc : Continuous (fderiv ℝ Φ) := hf.continuous_fderiv (by norm_num)
  refine continuous_pi fun i => continuous_pi fun j => ?_
  have e : (fun q : ℝ × Vec ℝ n => fn.jac q.1 q.2 i j) = fun q => (fderiv ℝ Φ q) (0, Pi.single j 1) i := by
    funext ⟨t, y⟩
    have h1 : HasFDerivAt Φ (fderiv ℝ Φ (t, y)) (t, y) := (hf.differentiable (by norm_num)).differentiableAt.hasFDerivAt
    have h2 := h1.comp y (hasFDerivAt_prodMk_right t y)
    have h3 := (hjac t y).unique h2
    have h4 := congrArg (fun L : Vec ℝ n →L[ℝ] Vec ℝ n => L (Pi.single j 1) i) h3
    simp only [LinearMap.coe_toContinuousLinearMap', Matrix.toLin'_apply, Matrix.mulVec_single_one] at h4
    simpa using h4
  rw [e]
  exact (continuous_apply i).comp (hc.clm_apply continuous_const)

theorem JacobianOrder.continuous {r : ℕ} (hf : ContDiff ℝ r fun q : ℝ × Vec ℝ n => fn.fn q.1 q.2) (h : JacobianOrder fn r) :
    Continuous fun q : ℝ × Vec ℝ n => fn.jac q.1 q.2 := by
  rcases h with ⟨-, h⟩ | ⟨rfl, h⟩
  · exact h
  · exact jacobian_continuous hf h

theorem JacobianOrder.pos {r : ℕ} (h : JacobianOrder fn r) : 1 ≤ r := by
  rcases h with ⟨rfl, -⟩ | ⟨rfl, -⟩ <;> norm_num

/-- the defect of a successful stage solve near a solution is of order `h^(r+1)`, whatever the Newton options -/
theorem near_defect {r : ℕ} (hf : ContDiff ℝ r fun q : ℝ × Vec ℝ n => fn.fn q.1 q.2) (hjac : JacobianOrder fn r)
    (hu : ∀ t ∈ Icc t0 t1, HasDerivWithinAt u (fn.fn t (u t)) (Icc t0 t1) t) (sc : SolverCoeffs ℝ) :
    ∃ κ h0 : ℝ, 0 ≤ κ ∧ 0 < h0 ∧ ∀ (nd : Bool) (la : LinAlg ℝ) (t h : ℝ) (y : Vec ℝ n)
      (maxit refresh : ℤ) (xtol Rtol : ℝ) (count : IrkCounters) (log : CallLog ℝ n) (res : StageResult ℝ (sc.ns * n) n),
      la.Exact → la.Sound → newtonSolveStages nd la fn sc t h y maxit refresh xtol Rtol count log = .ret res → res.status = 0 →
      t ∈ Icc t0 t1 → 0 ≤ h → h ≤ h0 → ‖y - u t‖ ≤ 1 → ∀ q, |constructR fn.fn sc t h y res.Y q| ≤ κ * h ^ (r + 1) := by
  have hA := absA_nonneg sc
  have hC := absC_nonneg sc
  have hf1 : ContDiff ℝ 1 fun q : ℝ × Vec ℝ n => fn.fn q.1 q.2 := hf.of_le (by exact_mod_cast hjac.pos)
  obtain ⟨Jb, M, L, h0, Q, hJb, hM, hL, hh0, hh1, H⟩ := near_bounds hf1 (hjac.continuous hf) hu sc
  rcases hjac with ⟨rfl, -⟩ | ⟨rfl, hj⟩
  · refine ⟨2 * absA sc ^ 2 * M * (Jb + L), h0, by positivity, hh0, ?_⟩
    intro nd la t h y maxit refresh xtol Rtol count log res hla hs hr hst ht hh hle hy q
    obtain ⟨b1, b2, b3, b4, b5⟩ := H t y ht hy
    obtain ⟨c1, c2, c3, c4, c5, c6⟩ := b5 h hh hle
    refine stage_defect hla hs hr hst hh b1 hM (fun j k => b4 _ _ ((stage_time sc hh j).trans c5) (by simp) k) hL c1 c2 c3 c4
      (by positivity) (LipNear.linNear ?_ b1) q
    exact fun j z w D hz hw => c1 j z w D (fun l => (hz l).trans c4) (fun l => (hw l).trans c4)
  · obtain ⟨K, hK, hpred⟩ := jacobian_predicts hf hj Q
    set G := absC sc + 4 * (absA sc * M) with hG
    have hG0 : 0 ≤ G := by positivity
    refine ⟨2 * absA sc ^ 2 * M * (K * G), h0, by positivity, hh0, ?_⟩
    intro nd la t h y maxit refresh xtol Rtol count log res hla hs hr hst ht hh hle hy q
    obtain ⟨b1, b2, b3, b4, b5⟩ := H t y ht hy
    obtain ⟨c1, c2, c3, c4, c5, c6⟩ := b5 h hh hle
    have h4 : 0 ≤ 4 * (h * absA sc * M) := by positivity
    refine (stage_defect hla hs hr hst hh b1 hM (fun j k => b4 _ _ ((stage_time sc hh j).trans c5) (by simp) k) hL c1 c2 c3 c4
      (Ω := K * (G * h)) (by positivity) ?_ q).trans (le_of_eq (by ring))
    intro j z w D hz hw hzw k
    have hD : 0 ≤ D := (abs_nonneg _).trans (hzw k)
    have hs := stage_time sc (t := t) hh j
    have key := hpred t (t + sc.cn j * h) y z w (4 * (h * absA sc * M)) (G * h) b2
      (fun x hx => b3 _ x (hs.trans c5) (hx.trans c4)) (hs.trans (by
        have : 0 ≤ 4 * (absA sc * M) * h := by positivity
        rw [hG]; linarith)) (by
        have : 0 ≤ absC sc * h := by positivity
        rw [hG]; linarith) (pi_le h4 hz) (pi_le h4 hw)
    refine (le_pi _ k).trans (key.trans ?_)
    exact mul_le_mul_of_nonneg_left (pi_le hD hzw) (by positivity : 0 ≤ K * (G * h))

/-- **one accepted step near a solution**, whatever the Newton options -/
theorem near_step {r p : ℕ} (hr1 : r ≤ p) (hf : ContDiff ℝ r fun q : ℝ × Vec ℝ n => fn.fn q.1 q.2) (hjac : JacobianOrder fn r)
    (hu : ∀ t ∈ Icc t0 t1, HasDerivWithinAt u (fn.fn t (u t)) (Icc t0 t1) t)
    (ho : HasOrder (fun i j : Fin sc.ns => sc.a i j) (fun i => sc.bw i) p)
    (hc : ∀ i : Fin sc.ns, ∑ j : Fin sc.ns, sc.a i j = sc.cn i) :
    ∃ Λ C h0 : ℝ, 0 ≤ Λ ∧ 0 ≤ C ∧ 0 < h0 ∧ ∀ (nd : Bool) (la : LinAlg ℝ) (Ai : Mat ℝ sc.ns) (t h : ℝ) (y : Vec ℝ n)
      (maxit refresh : ℤ) (xtol Rtol : ℝ) (count : IrkCounters) (log : CallLog ℝ n) (res : StageResult ℝ (sc.ns * n) n),
      la.Exact → la.Sound → la.inv sc.mat = some Ai →
      newtonSolveStages nd la fn sc t h y maxit refresh xtol Rtol count log = .ret res → res.status = 0 →
      t0 ≤ t → 0 ≤ h → h ≤ h0 → t + h ≤ t1 → ‖y - u t‖ ≤ 1 →
      ‖(fun k => y k + combineI sc res.Y (dWeights Ai fun i => sc.bw i) k) - u (t + h)‖ ≤
        (1 + Λ * h) * ‖y - u t‖ + C * h ^ (r + 1) := by
  have ho' : HasOrder (fun i j : Fin sc.ns => sc.a i j) (fun i => sc.bw i) r := fun t ht => ho t (ht.trans hr1)
  obtain ⟨Λ, C, G, κ, h0, hΛ, hC, hG, hκ, hh0, hstep⟩ := irk_step_error hjac.pos hf (hjac.continuous hf) hu ho' hc
  obtain ⟨κ', h1, hκ', hh1, hdef⟩ := near_defect hf hjac hu sc
  refine ⟨Λ, C + G * κ', min h0 h1, hΛ, by positivity, lt_min hh0 hh1, ?_⟩
  intro nd la Ai t h y maxit refresh xtol Rtol count log res hla hs hAi hr hst ht hh hle hth hy
  have h2 := hdef nd la t h y maxit refresh xtol Rtol count log res hla hs hr hst ⟨ht, by linarith⟩ hh (hle.trans (min_le_right _ _)) hy
  refine ((hstep nd la Ai t h y maxit refresh xtol Rtol count log res hla hs hAi hr hst ht hh (hle.trans (min_le_left _ _)) hth hy).1
    _ (by positivity) h2).trans (le_of_eq ?_)
  ring

/-- a matrix `I - B` with `B` a contraction by one half is regular -/
theorem isUnit_of_half {m : ℕ} (A : Matrix (Fin m) (Fin m) ℝ) (B : Vec ℝ m → Vec ℝ m) (hAB : ∀ x k, A.mulVec x k = x k - B x k)
    (hB : ∀ x D, 0 ≤ D → (∀ k, |x k| ≤ D) → ∀ k, |B x k| ≤ D / 2) : IsUnit A.det := by
  rw [← Matrix.isUnit_iff_isUnit_det, ← Matrix.mulVec_injective_iff_isUnit]
  intro x x' hx
  have hx0 : A.mulVec (x - x') = 0 := by rw [Matrix.mulVec_sub]; exact sub_eq_zero.mpr hx
  funext k
  have := half_bound (x - x') (E := 0) le_rfl (fun D hD hb k => by
    have h1 := congrFun hx0 k
    rw [hAB] at h1
    have h2 : (x - x') k = B (x - x') k := by simpa [sub_eq_zero] using h1
    rw [h2, add_zero]
    exact hB _ D hD hb k) k
  rw [mul_zero] at this
  exact sub_eq_zero.mp (abs_nonpos_iff.mp this)

/-- small steps meet regular matrices only -/
theorem regular_small {t h : ℝ} {y : Vec ℝ n} (hh : 0 ≤ h) {Jb : ℝ} (hJ : ∀ q, ∑ l, |fn.jac t y q l| ≤ Jb)
    (h1 : h * absA sc * Jb ≤ 1 / 2) (h2 : h * |sc.gamma| * Jb ≤ 1 / 2) : RegularAt fn sc t y h := by
  have hA := absA_nonneg sc
  constructor
  · refine isUnit_of_half _ (fun x => mulVec (fun p q => h * kron sc.mat (fn.jac t y) p q) x) (fun x k => ?_) (fun x D hD hx k => ?_)
    · have hM : Matrix.of (stageJac sc h (fn.jac t y)) = 1 - Matrix.of (fun p q => h * kron sc.mat (fn.jac t y) p q) := by
        ext a b
        simp [stageJac, eye_real]
      rw [hM, Matrix.sub_mulVec, Matrix.one_mulVec, mulVec_real]
      rfl
    · obtain ⟨⟨p, q⟩, rfl⟩ := finProdFinEquiv.surjective k
      rw [kron_mulVec]
      change |h * ∑ u : Fin sc.ns, sc.a p u * ∑ l, fn.jac t y q l * x (finProdFinEquiv (u, l))| ≤ _
      have hJb : 0 ≤ Jb := (Finset.sum_nonneg fun _ _ => abs_nonneg _).trans (hJ q)
      have b1 : |∑ u : Fin sc.ns, sc.a p u * ∑ l, fn.jac t y q l * x (finProdFinEquiv (u, l))| ≤ absA sc * (Jb * D) :=
        abs_sum_mul_le _ _ (row_le_absA sc p) (fun u => abs_sum_mul_le _ _ (hJ q) (fun l => hx _) hD) (by positivity)
      rw [abs_mul, abs_of_nonneg hh]
      have c1 := mul_le_mul_of_nonneg_left b1 hh
      have c3 : h * absA sc * Jb * D ≤ 1 / 2 * D := mul_le_mul_of_nonneg_right h1 hD
      linarith
  · refine isUnit_of_half _ (fun x k => sc.gamma * h * ∑ l, fn.jac t y k l * x l) (fun x k => ?_) (fun x D hD hx k => ?_)
    · have hM : (Matrix.of fun i j => eye n i j - sc.gamma * h * fn.jac t y i j) = 1 - (sc.gamma * h) • Matrix.of (fn.jac t y) := by
        ext a b
        simp [eye_real]
      rw [hM, Matrix.sub_mulVec, Matrix.one_mulVec, Matrix.smul_mulVec]
      rfl
    · have b1 : |∑ l, fn.jac t y k l * x l| ≤ Jb * D := abs_sum_mul_le _ _ (hJ k) hx hD
      rw [abs_mul, abs_mul, abs_of_nonneg hh]
      have c1 := mul_le_mul_of_nonneg_left b1 (by positivity : 0 ≤ |sc.gamma| * h)
      have c3 : h * |sc.gamma| * Jb * D ≤ 1 / 2 * D := mul_le_mul_of_nonneg_right h2 hD
      linarith

end Verif
