import Verif.Prop.IrkAffine
import Verif.ErkAdaptTerm

/-!
# The implicit integrator for small steps: helper lemmas

For a step that is small compared with bounds of the right-hand side and of its Jacobi matrix the first Newton pass
already passes the stopping test, and the error estimate is of second order in the step.
-/

set_option linter.unusedSectionVars false

namespace Verif
open Spec

variable {n : ℕ} {nd : Bool} {la : LinAlg ℝ} {fn : OdeFun ℝ n} {t0 t1 : ℝ} {y0 : Vec ℝ n} {o : IrkOpts ℝ}
  {no : NewtonOpts ℝ} {dt : ℝ} {sc : SolverCoeffs ℝ} {oo : OutOpts} {mo : ℕ} {d d2 : Vec ℝ sc.ns}

/-- sum of the absolute entries of the tableau -/
noncomputable def absA (sc : SolverCoeffs ℝ) : ℝ := ∑ i : Fin sc.ns, ∑ j : Fin sc.ns, |sc.a i j|

/-- sum of the absolute nodes -/
noncomputable def absC (sc : SolverCoeffs ℝ) : ℝ := ∑ j : Fin sc.ns, |sc.cn j|

/-- sum of absolute weights -/
noncomputable def absW {m : ℕ} (d : Vec ℝ m) : ℝ := ∑ i, |d i|

/-- constant of the error estimate -/
noncomputable def errC (sc : SolverCoeffs ℝ) (d d2 : Vec ℝ sc.ns) : ℝ :=
  |sc.gamma| + 2 * absA sc * (absW d + absW d2)

theorem absA_nonneg (sc : SolverCoeffs ℝ) : 0 ≤ absA sc :=
  Finset.sum_nonneg fun _ _ => Finset.sum_nonneg fun _ _ => abs_nonneg _

theorem absC_nonneg (sc : SolverCoeffs ℝ) : 0 ≤ absC sc := Finset.sum_nonneg fun _ _ => abs_nonneg _

theorem absW_nonneg {m : ℕ} (d : Vec ℝ m) : 0 ≤ absW d := Finset.sum_nonneg fun _ _ => abs_nonneg _

theorem errC_nonneg (sc : SolverCoeffs ℝ) (d d2 : Vec ℝ sc.ns) : 0 ≤ errC sc d d2 := by
  have := absA_nonneg sc
  have := absW_nonneg d
  have := absW_nonneg d2
  unfold errC
  positivity

theorem row_le_absA (sc : SolverCoeffs ℝ) (i : Fin sc.ns) : ∑ j : Fin sc.ns, |sc.a i j| ≤ absA sc :=
  Finset.single_le_sum (f := fun i : Fin sc.ns => ∑ j : Fin sc.ns, |sc.a i j|)
    (fun _ _ => Finset.sum_nonneg fun _ _ => abs_nonneg _) (Finset.mem_univ i)

theorem cn_le_absC (sc : SolverCoeffs ℝ) (j : Fin sc.ns) : |sc.cn j| ≤ absC sc :=
  Finset.single_le_sum (f := fun j : Fin sc.ns => |sc.cn j|) (fun _ _ => abs_nonneg _) (Finset.mem_univ j)

theorem abs_sum_mul_le {m : ℕ} (w v : Fin m → ℝ) {A B : ℝ} (hw : ∑ i, |w i| ≤ A) (hv : ∀ i, |v i| ≤ B) (hB : 0 ≤ B) :
    |∑ i, w i * v i| ≤ A * B := by
  calc |∑ i, w i * v i| ≤ ∑ i, |w i * v i| := Finset.abs_sum_le_sum_abs _ _
    _ ≤ ∑ i, |w i| * B := Finset.sum_le_sum fun i _ => by
        rw [abs_mul]; exact mul_le_mul_of_nonneg_left (hv i) (abs_nonneg _)
    _ = (∑ i, |w i|) * B := by rw [Finset.sum_mul]
    _ ≤ A * B := mul_le_mul_of_nonneg_right hw hB

/-- a vector whose components are at most half its largest component plus `E` is bounded by `2E` -/
theorem half_bound {m : ℕ} (v : Fin m → ℝ) {E : ℝ} (hE : 0 ≤ E) (h : ∀ D, 0 ≤ D → (∀ i, |v i| ≤ D) → ∀ i, |v i| ≤ D / 2 + E)
    (i : Fin m) : |v i| ≤ 2 * E := by
  have hn : ∀ i, |v i| ≤ ‖v‖ := fun i => by
    have := norm_le_pi_norm v i
    rwa [Real.norm_eq_abs] at this
  have h1 := h ‖v‖ (norm_nonneg _) hn
  have h2 : ‖v‖ ≤ ‖v‖ / 2 + E :=
    (pi_norm_le_iff_of_nonneg (by have := norm_nonneg v; linarith)).mpr fun i => by
      rw [Real.norm_eq_abs]; exact h1 i
  linarith [hn i]

/-- the first Newton increment -/
theorem first_pass (hla : la.Exact) (hs : la.Sound) {t h : ℝ} {y : Vec ℝ n} {refresh : ℤ} {xtol Rtol : ℝ}
    {i : ℕ} {count : IrkCounters} {log : CallLog ℝ n} {k : ℕ} {r : StageResult ℝ (sc.ns * n) n} {m : ℕ}
    {Ys dYs : ℕ → Vec ℝ (sc.ns * n)}
    (H : StageRun nd la fn sc t h y refresh xtol Rtol i (fun _ => lit 0) count log k r m Ys dYs) (hm : 0 < m)
    (hh : 0 ≤ h) {Jb M : ℝ} (hJ : ∀ q, ∑ l, |fn.jac t y q l| ≤ Jb) (hM0 : 0 ≤ M)
    (hM : ∀ (j : Fin sc.ns) q, |fn.fn (t + sc.cn j * h) y q| ≤ M) (hsmall : h * absA sc * Jb ≤ 1 / 2)
    (p : Fin (sc.ns * n)) : Ys 1 p = dYs 0 p ∧ |Ys 1 p| ≤ 2 * (h * absA sc * M) := by
  have hA := absA_nonneg sc
  have e : Ys 1 p = dYs 0 p := by
    rw [H.upd 0 hm, H.start]
    simp
  refine ⟨e, ?_⟩
  rw [e]
  refine half_bound (dYs 0) (by positivity) (fun D hD hb p => ?_) p
  obtain ⟨⟨p, q⟩, rfl⟩ := finProdFinEquiv.surjective p
  have heq := C36_newton_equation hla hs H hm p q
  rw [constructR_real, H.start] at heq
  simp only [lit_real, Rat.cast_zero] at heq
  have hy : (y + fun _ => (0 : ℝ)) = y := by funext l; simp
  have hJb : 0 ≤ Jb := (Finset.sum_nonneg fun _ _ => abs_nonneg _).trans (hJ q)
  have b1 : |∑ u : Fin sc.ns, sc.a p u * ∑ l, fn.jac t y q l * dYs 0 (finProdFinEquiv (u, l))| ≤ absA sc * (Jb * D) :=
    abs_sum_mul_le _ _ (row_le_absA sc p) (fun u => abs_sum_mul_le _ _ (hJ q) (fun l => hb _) hD) (by positivity)
  have b2 : |∑ u : Fin sc.ns, sc.a p u * fn.fn (t + sc.cn u * h) (y + fun _ => (0 : ℝ)) q| ≤ absA sc * M :=
    abs_sum_mul_le _ _ (row_le_absA sc p) (fun u => by rw [hy]; exact hM u q) hM0
  have heq' : dYs 0 (finProdFinEquiv (p, q)) =
      h * (∑ u : Fin sc.ns, sc.a p u * ∑ l, fn.jac t y q l * dYs 0 (finProdFinEquiv (u, l))) +
      h * ∑ u : Fin sc.ns, sc.a p u * fn.fn (t + sc.cn u * h) (y + fun _ => (0 : ℝ)) q := by linarith
  rw [heq']
  refine (abs_add_le _ _).trans ?_
  rw [abs_mul, abs_mul, abs_of_nonneg hh]
  have c1 := mul_le_mul_of_nonneg_left b1 hh
  have c2 := mul_le_mul_of_nonneg_left b2 hh
  have c3 : h * absA sc * Jb * D ≤ 1 / 2 * D := mul_le_mul_of_nonneg_right hsmall hD
  nlinarith

/-- if the first pass passes the stopping test, the stage solve succeeds with it -/
theorem first_stops {t h : ℝ} {y : Vec ℝ n} {refresh : ℤ} {xtol Rtol : ℝ}
    {count : IrkCounters} {log : CallLog ℝ n} {k : ℕ} {r : StageResult ℝ (sc.ns * n) n} {m : ℕ}
    {Ys dYs : ℕ → Vec ℝ (sc.ns * n)}
    (H : StageRun nd la fn sc t h y refresh xtol Rtol 1 (fun _ => lit 0) count log k r m Ys dYs) (hk : 0 < k)
    (hc : 0 < m → Converged fn.fn sc t h y xtol Rtol (Ys 1) (dYs 0)) :
    r.status = 0 ∧ r.iters = 1 ∧ m = 1 ∧ r.Y = Ys 1 := by
  have hm : 0 < m := by
    rcases H.stop with ⟨-, h2, -⟩ | ⟨-, h2, -⟩ <;> omega
  have hm1 : m = 1 := by
    by_contra hne
    exact H.early 0 (by omega) (hc hm)
  rcases H.stop with ⟨h1, -, -, -, h5, -⟩ | ⟨-, -, -, h4⟩
  · exact ⟨h1, by omega, hm1, by rw [H.final, hm1]⟩
  · exact absurd (hc hm) (h4 0 hm)

/-- The right-hand side is bounded by `M` near `(t, y)` -/
def BoundedNear (fn : OdeFun ℝ n) (t : ℝ) (y : Vec ℝ n) (τ ρ M : ℝ) : Prop :=
  ∀ t' y', |t' - t| ≤ τ → (∀ k, |y' k - y k| ≤ ρ) → ∀ k, |fn.fn t' y' k| ≤ M

theorem stage_time (sc : SolverCoeffs ℝ) {t h : ℝ} (hh : 0 ≤ h) (j : Fin sc.ns) :
    |t + sc.cn j * h - t| ≤ absC sc * h := by
  rw [add_sub_cancel_left, abs_mul, abs_of_nonneg hh]
  exact mul_le_mul_of_nonneg_right (cn_le_absC sc j) hh

/-- a stage solve with a small step succeeds after one pass -/
theorem small_stage (hla : la.Exact) (hs : la.Sound) {t h : ℝ} {y : Vec ℝ n} {maxit refresh : ℤ} {xtol Rtol : ℝ}
    {count : IrkCounters} {log : CallLog ℝ n} {r : StageResult ℝ (sc.ns * n) n}
    (hr : newtonSolveStages nd la fn sc t h y maxit refresh xtol Rtol count log = .ret r) (hmax : 2 ≤ maxit)
    (hh : 0 ≤ h) {Jb M ρ : ℝ} (hJ : ∀ q, ∑ l, |fn.jac t y q l| ≤ Jb) (hM0 : 0 ≤ M) (hρ : 0 ≤ ρ)
    (hM : BoundedNear fn t y (absC sc * h) ρ M) (hsmall : h * absA sc * Jb ≤ 1 / 2)
    (h1 : 2 * (h * absA sc * M) ≤ ρ) (h2 : (sc.ns * n) * (3 * (h * absA sc * M)) ^ 2 < Rtol ^ 2) :
    r.status = 0 ∧ r.iters = 1 ∧ r.J = fn.jac t y ∧ ∀ p, |r.Y p| ≤ 2 * (h * absA sc * M) := by
  have hA := absA_nonneg sc
  obtain ⟨-, m, Ys, dYs, H⟩ := stage_run hr
  have hfp := fun hm => first_pass hla hs H hm hh hJ hM0
    (fun j q => hM _ _ (stage_time sc hh j) (fun k => by simpa using hρ) q) hsmall
  obtain ⟨g1, g2, g3, g4⟩ := first_stops H (by omega) (fun hm => by
    left
    rw [ltb_real, dot_stage]
    have hb : ∀ (p : Fin sc.ns) (q : Fin n), (constructR fn.fn sc t h y (Ys 1) (finProdFinEquiv (p, q))) ^ 2 ≤
        (3 * (h * absA sc * M)) ^ 2 := by
      intro p q
      rw [constructR_real]
      have b2 : |∑ u : Fin sc.ns, sc.a p u *
          fn.fn (t + sc.cn u * h) (y + fun l => Ys 1 (finProdFinEquiv (u, l))) q| ≤ absA sc * M :=
        abs_sum_mul_le _ _ (row_le_absA sc p) (fun u => hM _ _ (stage_time sc hh u)
          (fun k => by simpa using (hfp hm _).2.trans h1) q) hM0
      have b3 := (hfp hm (finProdFinEquiv (p, q))).2
      have b4 := mul_le_mul_of_nonneg_left b2 hh
      rw [← sq_abs]
      refine pow_le_pow_left₀ (abs_nonneg _) ?_ 2
      refine (abs_sub _ _).trans ?_
      rw [abs_mul, abs_of_nonneg hh]
      nlinarith
    calc ∑ p, ∑ q, (constructR fn.fn sc t h y (Ys 1) (finProdFinEquiv (p, q))) ^ 2
        ≤ ∑ _p : Fin sc.ns, ∑ _q : Fin n, (3 * (h * absA sc * M)) ^ 2 :=
          Finset.sum_le_sum fun p _ => Finset.sum_le_sum fun q _ => hb p q
      _ = (sc.ns * n) * (3 * (h * absA sc * M)) ^ 2 := by simp [mul_assoc]
      _ < Rtol * Rtol := by rw [← sq]; exact h2)
  exact ⟨g1, g2, H.jac, fun p => by rw [g4]; exact (hfp (by omega) p).2⟩

/-- the same for affine right-hand sides, where no smallness with respect to the tolerance is needed -/
theorem small_stage_affine (hla : la.Exact) (hs : la.Sound) (ha : IsAffine fn) {t h : ℝ} {y : Vec ℝ n}
    {maxit refresh : ℤ} {xtol Rtol : ℝ}
    {count : IrkCounters} {log : CallLog ℝ n} {r : StageResult ℝ (sc.ns * n) n}
    (hr : newtonSolveStages nd la fn sc t h y maxit refresh xtol Rtol count log = .ret r) (hmax : 2 ≤ maxit)
    (htol : Rtol ≠ 0)
    (hh : 0 ≤ h) {Jb M : ℝ} (hJ : ∀ q, ∑ l, |fn.jac t y q l| ≤ Jb) (hM0 : 0 ≤ M)
    (hM : ∀ (j : Fin sc.ns) q, |fn.fn (t + sc.cn j * h) y q| ≤ M) (hsmall : h * absA sc * Jb ≤ 1 / 2) :
    r.status = 0 ∧ r.iters = 1 ∧ r.J = fn.jac t y ∧ ∀ p, |r.Y p| ≤ 2 * (h * absA sc * M) := by
  obtain ⟨-, m, Ys, dYs, H⟩ := stage_run hr
  obtain ⟨J, g, hf, hJ'⟩ := ha
  have hfp := fun hm => first_pass hla hs H hm hh hJ hM0 hM hsmall
  obtain ⟨g1, g2, g3, g4⟩ := first_stops H (by omega) (fun hm => by
    left
    have key : ∀ i, stageResidual fn.fn sc t h y (fun p l => Ys 1 (finProdFinEquiv (p, l))) i = 0 := by
      intro i
      have e : (fun p l => Ys 1 (finProdFinEquiv (p, l)) : Fin sc.ns → Vec ℝ n) =
          (fun p l => Ys 0 (finProdFinEquiv (p, l))) + fun p l => dYs 0 (finProdFinEquiv (p, l)) := by
        funext p l
        rw [H.upd 0 hm]
        simp
      rw [e, stageResidual_affine hf]
      funext q
      have e2 := C36_newton_equation hla hs H hm i q
      rw [constructR_eq] at e2
      simp only [Pi.add_apply, Pi.sub_apply, Pi.smul_apply, Finset.sum_apply, smul_eq_mul, Matrix.mulVec, dotProduct,
        Pi.zero_apply]
      simp only [hJ'] at e2
      rw [e2]
      ring
    rw [ltb_real, dot_stage]
    simp only [constructR_eq, key, Pi.zero_apply]
    simp only [ne_eq, OfNat.ofNat_ne_zero, not_false_eq_true, zero_pow, Finset.sum_const_zero]
    exact mul_self_pos.mpr htol)
  exact ⟨g1, g2, H.jac, fun p => by rw [g4]; exact (hfp (by omega) p).2⟩

/-- `I - c J` for a small `c J`: solvable, the solution is at most twice the right-hand side -/
theorem small_solve (hla : la.Exact) {J : Mat ℝ n} {c Jb : ℝ} (hJ : ∀ q, ∑ l, |J q l| ≤ Jb) (hc : |c| * Jb ≤ 1 / 2)
    {v e : Vec ℝ n} (h : la.solve (fun i j => eye n i j - c * J i j) v = some e) {E : ℝ} (hE : 0 ≤ E)
    (hv : ∀ k, |v k| ≤ E) (k : Fin n) : |e k| ≤ 2 * E := by
  have hM : Matrix.of (fun i j => eye n i j - c * J i j) = 1 - c • Matrix.of J := by
    ext a b
    simp [eye_real]
  have hmul : ∀ x : Vec ℝ n, ∀ k, ((1 - c • Matrix.of J).mulVec x) k = x k - c * ∑ l, J k l * x l := by
    intro x k
    rw [Matrix.sub_mulVec, Matrix.one_mulVec, Matrix.smul_mulVec]
    simp [Matrix.mulVec, dotProduct]
  have bnd : ∀ (x : Vec ℝ n) (E : ℝ), 0 ≤ E → (∀ k, |((1 - c • Matrix.of J).mulVec x) k| ≤ E) → ∀ k, |x k| ≤ 2 * E := by
    intro x E hE hx
    refine half_bound x hE fun D hD hb k => ?_
    have h1 := hx k
    rw [hmul] at h1
    have h2 : |∑ l, J k l * x l| ≤ Jb * D := abs_sum_mul_le _ _ (hJ k) hb hD
    have h3 : |c * ∑ l, J k l * x l| ≤ D / 2 := by
      rw [abs_mul]
      calc |c| * |∑ l, J k l * x l| ≤ |c| * (Jb * D) := mul_le_mul_of_nonneg_left h2 (abs_nonneg _)
        _ = |c| * Jb * D := by ring
        _ ≤ 1 / 2 * D := mul_le_mul_of_nonneg_right hc hD
        _ = D / 2 := by ring
    have : x k = (x k - c * ∑ l, J k l * x l) + c * ∑ l, J k l * x l := by ring
    rw [this]
    refine (abs_add_le _ _).trans ?_
    linarith
  have hu : IsUnit (Matrix.of (fun i j => eye n i j - c * J i j)).det := by
    rw [← Matrix.isUnit_iff_isUnit_det, hM, ← Matrix.mulVec_injective_iff_isUnit]
    intro x x' hx
    have hx0 : (1 - c • Matrix.of J).mulVec (x - x') = 0 := by rw [Matrix.mulVec_sub]; exact sub_eq_zero.mpr hx
    have := bnd (x - x') 0 le_rfl (fun k => by rw [hx0]; simp)
    funext k
    have hk := this k
    simp only [Pi.sub_apply, mul_zero] at hk
    exact sub_eq_zero.mp (abs_nonpos_iff.mp hk)
  rw [hla.solve _ _ hu] at h
  simp only [Option.some.injEq] at h
  refine bnd e E hE (fun k => ?_) k
  rw [← hM, ← h, Matrix.mulVec_mulVec, Matrix.mul_nonsing_inv _ hu, Matrix.one_mulVec]
  exact hv k

theorem combineI_le (Y : Vec ℝ (sc.ns * n)) (w : Vec ℝ sc.ns) {B : ℝ} (hB : 0 ≤ B) (hY : ∀ p, |Y p| ≤ B) (k : Fin n) :
    |combineI sc Y w k| ≤ absW w * B := by
  rw [combineI_real]
  have := abs_sum_mul_le w (fun i => Y (finProdFinEquiv (i, k))) (A := absW w) le_rfl (fun i => hY _) hB
  simpa only [mul_comm] using this

/-- the error of an attempt with a small step is of second order -/
theorem small_attempt (hla : la.Exact) (hat : 0 < o.absTol) (hrt : 0 ≤ o.relTol) {s : IrkState ℝ (sc.ns * n) n} {h : ℝ}
    {r : StageResult ℝ (sc.ns * n) n} {a : AttemptI ℝ n} (ha : attemptI la fn o sc mo d d2 s h r = some a)
    (hh : 0 ≤ h) {Jb M ρ : ℝ} (hJ : ∀ q, ∑ l, |r.J q l| ≤ Jb) (hM0 : 0 ≤ M) (hρ : 0 ≤ ρ)
    (hM : BoundedNear fn s.t s.y 0 ρ M) (hY : ∀ p, |r.Y p| ≤ 2 * (h * absA sc * M))
    (hsmall : h * |sc.gamma| * Jb ≤ 1 / 2) (hρ1 : 2 * errC sc d d2 * M * h ^ 2 ≤ ρ) :
    a.err ≤ max (2 * errC sc d d2 * M / o.absTol * h ^ 2) machinePrecision := by
  have hA := absA_nonneg sc
  have hC := errC_nonneg sc d d2
  obtain ⟨-, -, e3, e4, -⟩ := attemptI_spec ha
  rw [e4, e3, errNorm_wrms]
  have key : ∀ k, |a.errEst k| ≤ 2 * errC sc d d2 * M * h ^ 2 := by
    have hsm : |sc.gamma * h| * Jb ≤ 1 / 2 := by
      rw [abs_mul, abs_of_nonneg hh]; linarith
    have hB : 0 ≤ 2 * (h * absA sc * M) := by positivity
    have rhs : ∀ (f : Vec ℝ n), (∀ k, |f k| ≤ M) → ∀ k,
        |sc.gamma * h * f k + combineI sc r.Y d2 k - combineI sc r.Y d k| ≤ errC sc d d2 * M * h := by
      intro f hf k
      have b1 := combineI_le r.Y d hB hY k
      have b2 := combineI_le r.Y d2 hB hY k
      have b3 : |sc.gamma * h * f k| ≤ |sc.gamma| * h * M := by
        rw [abs_mul, abs_mul, abs_of_nonneg hh]
        exact mul_le_mul_of_nonneg_left (hf k) (by positivity)
      refine (abs_sub _ _).trans ?_
      refine (add_le_add_left (abs_add_le _ _) _).trans ?_
      unfold errC
      nlinarith
    have hE : 0 ≤ errC sc d d2 * M * h := by positivity
    have scale : ∀ e : Vec ℝ n, (∀ k, |e k| ≤ 2 * (errC sc d d2 * M * h)) → ∀ k, |h * e k| ≤ 2 * errC sc d d2 * M * h ^ 2 := by
      intro e he k
      rw [abs_mul, abs_of_nonneg hh]
      have := mul_le_mul_of_nonneg_left (he k) hh
      nlinarith
    have hf0 : ∀ k, |fn.fn s.t s.y k| ≤ M := hM _ _ (by simp) (fun _ => by simpa using hρ)
    unfold attemptI at ha
    simp only at ha
    split at ha
    · cases ha
    · rename_i e1 h1
      have he1 := small_solve hla hJ hsm h1 hE (rhs _ hf0)
      by_cases halt : s.alt = true
      · rw [if_pos halt] at ha
        split at ha
        · cases ha
        · rename_i e2 h2
          simp only [Option.some.injEq] at ha
          subst ha
          have hf1 : ∀ k, |fn.fn s.t (fun k => s.y k + h * e1 k) k| ≤ M :=
            hM _ _ (by simp) (fun k => by simpa using (scale e1 he1 k).trans hρ1)
          exact scale e2 (small_solve hla hJ hsm h2 hE (rhs _ hf1))
      · rw [if_neg halt] at ha
        simp only [Option.some.injEq] at ha
        subst ha
        exact scale e1 he1
  refine max_le_max ?_ le_rfl
  have := wrms_le (atol := o.absTol) (rtol := o.relTol) hat hrt s.y a.yn a.errEst (E := 2 * errC sc d d2 * M * h ^ 2)
    (by positivity) key
  calc _ ≤ 2 * errC sc d d2 * M * h ^ 2 / o.absTol := this
    _ = _ := by ring

end Verif
