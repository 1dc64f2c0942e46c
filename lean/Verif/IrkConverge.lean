import Verif.ConvergeImplicit
import Verif.ErkConverge
import Verif.IrkNewton

/-!
# One accepted step of the implicit integrator near the solution
-/

namespace Verif
open Spec Set

variable {n : ℕ} {fn : OdeFun ℝ n} {t0 t1 : ℝ} {u : ℝ → Vec ℝ n} {sc : SolverCoeffs ℝ}

/-- the weights of the update do not depend on the linear algebra library -/
theorem dWeights_bound (sc : SolverCoeffs ℝ) : ∃ D : ℝ, 0 ≤ D ∧ ∀ d : Fin sc.ns → ℝ, IsUnit (Matrix.of sc.mat).det →
    (∀ j : Fin sc.ns, ∑ i : Fin sc.ns, d i * sc.a i j = sc.bw j) → ∑ i, |d i| ≤ D := by
  refine ⟨∑ i, |(Matrix.vecMul (fun j : Fin sc.ns => sc.bw j) (Matrix.of sc.mat)⁻¹) i|, Finset.sum_nonneg fun _ _ => abs_nonneg _, ?_⟩
  intro d hA hd
  have e : Matrix.vecMul d (Matrix.of sc.mat) = fun j : Fin sc.ns => sc.bw j := by
    funext j
    rw [← hd j]
    rfl
  rw [← e, Matrix.vecMul_vecMul, Matrix.mul_nonsing_inv _ hA, Matrix.vecMul_one]

/-- bounds of a continuous Jacobi matrix -/
theorem jac_bound (hjac : Continuous fun q : ℝ × Vec ℝ n => fn.jac q.1 q.2) (Q : ℝ) :
    ∃ Jb, 0 ≤ Jb ∧ ∀ t y, ‖((t, y) : ℝ × Vec ℝ n)‖ ≤ Q → ∀ q, ∑ l, |fn.jac t y q l| ≤ Jb := by
  have hc : Continuous fun q : ℝ × Vec ℝ n => ∑ k, ∑ l, |fn.jac q.1 q.2 k l| := by
    refine continuous_finsetSum _ fun k _ => continuous_finsetSum _ fun l _ => ?_
    exact ((continuous_apply l).comp ((continuous_apply k).comp hjac)).abs
  obtain ⟨M, hM⟩ := (isCompact_closedBall (0 : ℝ × Vec ℝ n) Q).exists_bound_of_continuousOn hc.continuousOn
  refine ⟨max M 0, le_max_right _ _, fun t y hq k => ?_⟩
  have h1 := hM (t, y) (by simpa using hq)
  rw [Real.norm_of_nonneg (Finset.sum_nonneg fun _ _ => Finset.sum_nonneg fun _ _ => abs_nonneg _)] at h1
  refine le_trans ?_ (h1.trans (le_max_left _ _))
  exact Finset.single_le_sum (f := fun k => ∑ l, |fn.jac t y k l|) (fun _ _ => Finset.sum_nonneg fun _ _ => abs_nonneg _) (Finset.mem_univ k)

theorem pi_le {v : Vec ℝ n} {B : ℝ} (hB : 0 ≤ B) (h : ∀ k, |v k| ≤ B) : ‖v‖ ≤ B :=
  (pi_norm_le_iff_of_nonneg hB).mpr h

theorem le_pi (v : Vec ℝ n) (k : Fin n) : |v k| ≤ ‖v‖ := by
  rw [← Real.norm_eq_abs]; exact norm_le_pi_norm v k

theorem pair_norm_le {t B : ℝ} {v : Vec ℝ n} (h1 : |t| ≤ B) (h2 : ‖v‖ ≤ B) : ‖((t, v) : ℝ × Vec ℝ n)‖ ≤ B := by
  rw [Prod.norm_def]; exact max_le h1 h2

/-- **one accepted step**: its error is the propagated error plus the local error `C h^(p+1)` of the method plus a multiple of the
residual `η` of the stage equations; the stopping test of the Newton iteration bounds this residual -/
theorem irk_step_error {p : ℕ} (hp : 1 ≤ p) (hf : ContDiff ℝ p fun q : ℝ × Vec ℝ n => fn.fn q.1 q.2)
    (hjac : Continuous fun q : ℝ × Vec ℝ n => fn.jac q.1 q.2)
    (hu : ∀ t ∈ Icc t0 t1, HasDerivWithinAt u (fn.fn t (u t)) (Icc t0 t1) t)
    (ho : HasOrder (fun i j : Fin sc.ns => sc.a i j) (fun i => sc.bw i) p)
    (hc : ∀ i : Fin sc.ns, ∑ j : Fin sc.ns, sc.a i j = sc.cn i) :
    ∃ Λ C G κ h0 : ℝ, 0 ≤ Λ ∧ 0 ≤ C ∧ 0 ≤ G ∧ 0 ≤ κ ∧ 0 < h0 ∧ ∀ (nd : Bool) (la : LinAlg ℝ) (Ai : Mat ℝ sc.ns) (t h : ℝ) (y : Vec ℝ n)
      (maxit refresh : ℤ) (xtol Rtol : ℝ) (count : IrkCounters) (log : CallLog ℝ n) (r : StageResult ℝ (sc.ns * n) n),
      la.Exact → la.Sound → la.inv sc.mat = some Ai →
      newtonSolveStages nd la fn sc t h y maxit refresh xtol Rtol count log = .ret r → r.status = 0 →
      t0 ≤ t → 0 ≤ h → h ≤ h0 → t + h ≤ t1 → ‖y - u t‖ ≤ 1 →
      (∀ η, 0 ≤ η → (∀ q, |constructR fn.fn sc t h y r.Y q| ≤ η) →
        ‖(fun k => y k + combineI sc r.Y (dWeights Ai fun i => sc.bw i) k) - u (t + h)‖ ≤
          (1 + Λ * h) * ‖y - u t‖ + C * h ^ (p + 1) + G * η) ∧
      ∀ q, |constructR fn.fn sc t h y r.Y q| ≤ κ * (|Rtol| + h * |xtol|) := by
  obtain ⟨Λ, C, Γ, hs, hΛ, hC, hΓ, hs0, hstep⟩ := implicit_step_error hp (autonomize_contDiff hf) (autonomize_solution hu) ho
  obtain ⟨D, hD, hDle⟩ := dWeights_bound sc
  have hcu : ContinuousOn u (Icc t0 t1) := fun t ht => (hu t ht).continuousWithinAt
  obtain ⟨R, hR, hub⟩ := solution_bounded hcu
  have hCn := absC_nonneg sc
  have hAn := absA_nonneg sc
  set Q := |t0| + |t1| + 1 + (R + 2) with hQ
  obtain ⟨Jb, hJb, hJ⟩ := jac_bound hjac Q
  obtain ⟨M, hM, hfb⟩ := bounded_deriv (autonomize_contDiff hf) (Nat.zero_le p) Q
  have hfb : ∀ t y, ‖((t, y) : ℝ × Vec ℝ n)‖ ≤ Q → ‖fn.fn t y‖ ≤ M := fun t y hz => by
    have h1 : ‖autonomize fn.fn (t, y)‖ ≤ M := by simpa using hfb (t, y) hz
    exact (norm_snd_le (autonomize fn.fn (t, y))).trans h1
  obtain ⟨L, hL, hLip⟩ := lipschitz_ball hp (autonomize_contDiff hf) Q
  have hLip : ∀ t z w, ‖((t, z) : ℝ × Vec ℝ n)‖ ≤ Q → ‖((t, w) : ℝ × Vec ℝ n)‖ ≤ Q → ‖fn.fn t z - fn.fn t w‖ ≤ L * ‖z - w‖ := by
    intro t z w h1 h2
    have h3 := hLip (t, z) (by simpa using h1) (t, w) (by simpa using h2)
    rw [show ((t, z) : ℝ × Vec ℝ n) - (t, w) = (0, z - w) by rw [Prod.mk_sub_mk, sub_self], norm_pair] at h3
    exact (norm_snd_le (autonomize fn.fn (t, z) - autonomize fn.fn (t, w))).trans h3
  set q := 4 * (absA sc * (Jb + L + M) + absC sc + 1) with hq
  have hq0 : 0 < q := by positivity
  have hsm : ∀ h, 0 ≤ h → h ≤ 1 / q → h ≤ 1 ∧ h * absA sc * Jb ≤ 1 / 2 ∧ h * absA sc * (Jb + L) ≤ 1 / 4 ∧
      4 * (h * absA sc * M) ≤ 1 ∧ absC sc * h ≤ 1 := by
    intro h h1 h2
    rw [le_div_iff₀ hq0, hq] at h2
    have e1 : 0 ≤ h * (absA sc * Jb) := by positivity
    have e2 : 0 ≤ h * (absA sc * L) := by positivity
    have e3 : 0 ≤ h * (absA sc * M) := by positivity
    have e4 : 0 ≤ h * absC sc := by positivity
    refine ⟨?_, ?_, ?_, ?_, ?_⟩ <;> nlinarith
  set κ := max 1 (absA sc * (Jb + L)) with hκ
  refine ⟨Λ, C, Γ + D, κ, min hs (1 / q), hΛ, hC, by positivity, by positivity, lt_min hs0 (by positivity), ?_⟩
  intro nd la Ai t h y maxit refresh xtol Rtol count log r hla hsd hAi hr hst ht hh hle hth hy
  obtain ⟨c1, c2, c3, c4, c5⟩ := hsm h hh (hle.trans (min_le_right _ _))
  have htm : t ∈ Icc t0 t1 := ⟨ht, by linarith⟩
  have hyR : ‖y‖ ≤ R + 1 := by
    have := norm_add_le (y - u t) (u t)
    rw [sub_add_cancel] at this
    linarith [hub t htm]
  have htQ : |t| ≤ |t0| + |t1| := by
    rw [abs_le]
    constructor
    · linarith [neg_abs_le t0, abs_nonneg t1]
    · linarith [le_abs_self t1, abs_nonneg t0]
  have hstime : ∀ j : Fin sc.ns, |t + sc.cn j * h| ≤ |t0| + |t1| + 1 := fun j => by
    have h1 := stage_time sc (t := t) hh j
    have h2 := abs_add_le t (t + sc.cn j * h - t)
    rw [add_sub_cancel] at h2
    linarith
  have hpair : ∀ (j : Fin sc.ns) (z : Vec ℝ n), ‖z‖ ≤ R + 2 → ‖((t + sc.cn j * h, z) : ℝ × Vec ℝ n)‖ ≤ Q := fun j z hz =>
    pair_norm_le (by linarith [hstime j]) (by linarith [abs_nonneg t0, abs_nonneg t1])
  have hadd : ∀ z : Vec ℝ n, (∀ l, |z l| ≤ 1) → ‖y + z‖ ≤ R + 2 := fun z hz =>
    (norm_add_le _ _).trans (by linarith [pi_le zero_le_one hz])
  have hMf : ∀ (j : Fin sc.ns) (z : Vec ℝ n), (∀ l, |z l| ≤ 1) → ‖fn.fn (t + sc.cn j * h) (y + z)‖ ≤ M := fun j z hz =>
    hfb _ _ (hpair j _ (hadd z hz))
  have hLn : LipNear fn sc t h y 1 L := by
    intro j z w E hz hw hzw k
    have hE : 0 ≤ E := (abs_nonneg _).trans (hzw k)
    have h1 := hLip (t + sc.cn j * h) (y + z) (y + w) (hpair j _ (hadd z hz)) (hpair j _ (hadd w hw))
    refine (le_pi (fn.fn (t + sc.cn j * h) (y + z) - fn.fn (t + sc.cn j * h) (y + w)) k).trans (h1.trans ?_)
    refine mul_le_mul_of_nonneg_left ?_ hL
    rw [add_sub_add_left_eq_sub]
    exact pi_le hE hzw
  obtain ⟨v1, v2⟩ := stage_values hla hsd hr hst hh
    (hJ t y (pair_norm_le (by linarith) (by linarith [abs_nonneg t0, abs_nonneg t1]))) hM
    (fun j k => (le_pi _ k).trans (by simpa using hMf j 0 (by simp))) hL hLn c2 c3 c4
  refine ⟨?_, fun q => (v2 q).trans (max_le ?_ ?_)⟩
  rotate_left
  · have a1 : |Rtol| ≤ κ * |Rtol| := le_mul_of_one_le_left (abs_nonneg _) (le_max_left _ _)
    have a2 : 0 ≤ κ * (h * |xtol|) := by positivity
    rw [mul_add]; linarith
  · have a1 : absA sc * (Jb + L) * (h * |xtol|) ≤ κ * (h * |xtol|) := mul_le_mul_of_nonneg_right (le_max_right _ _) (by positivity)
    have a2 : 0 ≤ κ * |Rtol| := by positivity
    calc h * absA sc * (Jb + L) * |xtol| = absA sc * (Jb + L) * (h * |xtol|) := by ring
      _ ≤ _ := a1
      _ ≤ _ := by rw [mul_add]; linarith
  intro η hη0 v2
  set Y : Fin sc.ns → Vec ℝ n := fun j l => r.Y (finProdFinEquiv (j, l)) with hY
  have hY1 : ∀ j l, |Y j l| ≤ 1 := fun j l => (v1 _).trans c4
  set K : Fin sc.ns → Vec ℝ n := fun j => fn.fn (t + sc.cn j * h) (y + Y j) with hK
  have hKM : ∀ j, ‖K j‖ ≤ M := fun j => hMf j (Y j) (hY1 j)
  set res : Fin sc.ns → Vec ℝ n := fun i => Y i - h • ∑ j : Fin sc.ns, sc.a i j • K j with hres
  have hresle : ∀ i, ‖res i‖ ≤ η := by
    intro i
    refine pi_le hη0 fun k => ?_
    have h1 := v2 (finProdFinEquiv (i, k))
    rw [constructR_real] at h1
    have h2 : res i k = r.Y (finProdFinEquiv (i, k)) - h * ∑ j : Fin sc.ns, sc.a i j *
        fn.fn (t + sc.cn j * h) (y + fun l => r.Y (finProdFinEquiv (j, l))) k := by
      simp [hres, hK, hY, Finset.sum_apply]
    rw [h2]
    exact h1
  -- the autonomous step
  have esum : ∀ i : Fin sc.ns, h • ∑ j : Fin sc.ns, sc.a i j • ((1 : ℝ), K j) = (sc.cn i * h, h • ∑ j : Fin sc.ns, sc.a i j • K j) := by
    intro i
    rw [pair_sum (fun j : Fin sc.ns => sc.a i j) K, hc i, Prod.smul_mk, smul_eq_mul, mul_comm]
  have hcn : ∀ i : Fin sc.ns, |sc.cn i * h| ≤ 1 := fun i => by
    have h1 := stage_time sc (t := t) hh i
    rw [add_sub_cancel_left] at h1
    linarith
  have hsumM : ∀ i : Fin sc.ns, ‖h • ∑ j : Fin sc.ns, sc.a i j • K j‖ ≤ 2 := by
    intro i
    refine pi_le (by norm_num) fun k => ?_
    have h1 : (h • ∑ j : Fin sc.ns, sc.a i j • K j) k = h * ∑ j : Fin sc.ns, sc.a i j * K j k := by simp [Finset.sum_apply]
    rw [h1, abs_mul, abs_of_nonneg hh]
    have h2 := abs_sum_mul_le (fun j : Fin sc.ns => sc.a i j) (fun j => K j k) (row_le_absA sc i) (fun j => (le_pi _ k).trans (hKM j)) hM
    have h3 := mul_le_mul_of_nonneg_left h2 hh
    have h4 : 0 ≤ h * absA sc * M := by positivity
    nlinarith
  have key := hstep t h η (t, y) (fun j => (1, K j)) (fun i => (0, res i)) ht hh (hle.trans (min_le_left _ _)) hth
    (by rw [Prod.mk_sub_mk, sub_self, norm_pair]; exact hy)
    (fun i => by rw [esum]; exact pair_norm_le ((hcn i).trans (by norm_num)) (hsumM i))
    (fun i => by
      rw [esum, Prod.mk_add_mk, add_zero]
      refine pair_norm_le ((hcn i).trans (by norm_num)) ?_
      rw [hres]
      simp only [add_sub_cancel]
      exact (pi_le zero_le_one (hY1 i)).trans (by norm_num))
    (fun i => by rw [norm_pair]; exact hresle i)
    (fun i => by
      rw [esum, Prod.mk_add_mk, Prod.mk_add_mk, add_zero, autonomize]
      simp only [hres, add_sub_cancel, hK])
  have e1 : (t, y) + h • ((1 : ℝ), ∑ j : Fin sc.ns, sc.bw j • K j) - (t + h, u (t + h)) =
      (0, y + h • (∑ j : Fin sc.ns, sc.bw j • K j) - u (t + h)) := by
    rw [Prod.smul_mk, Prod.mk_add_mk, smul_eq_mul, mul_one, Prod.mk_sub_mk, sub_self]
  have e2 : (t, y) - (t, u t) = (0, y - u t) := by rw [Prod.mk_sub_mk, sub_self]
  rw [pair_sum, sum_weights hp ho, e1, e2, norm_pair, norm_pair] at key
  obtain ⟨d, hd, H⟩ := C37_update hla hAi fn.fn t h y r.Y
  obtain ⟨H1, -⟩ := H K res (fun _ => rfl) (fun _ => rfl)
  have hdet : IsUnit (Matrix.of sc.mat).det := by
    by_contra hn
    rw [hla.inv_none _ hn] at hAi
    cases hAi
  have hdle := hDle d hdet hd
  rw [H1, add_sub_right_comm]
  refine (norm_add_le _ _).trans ?_
  have h5 : ‖∑ i, d i • res i‖ ≤ D * η := (wsum_le d hresle).trans (mul_le_mul_of_nonneg_right hdle hη0)
  have h6 : Γ * h * η ≤ Γ * η := by
    have : Γ * h ≤ Γ := mul_le_of_le_one_right hΓ c1
    exact mul_le_mul_of_nonneg_right this hη0
  calc _ ≤ (1 + Λ * h) * ‖y - u t‖ + C * h ^ (p + 1) + Γ * η + D * η := by linarith
    _ = _ := by ring

end Verif
