import Verif.ErkConverge
import Verif.Prop.IrkComplete

/-!
# Steps that start in a ball: bounds for the stages and the increments, uniform over the ball

Helper lemmas for property C103.
-/

set_option linter.unusedSectionVars false

namespace Verif
open Spec Set

section explicit
variable {n s : ℕ} {f : ℝ → (Fin n → ℝ) → Fin n → ℝ}

/-- the stages of an explicit step are bounded by a bound of `f` on a larger ball -/
theorem rk_stages_ball {A : Fin s → Fin s → ℝ} {b c : Fin s → ℝ} (hA : ∀ i j, i ≤ j → A i j = 0) {t h R M : ℝ} {y y' : Fin n → ℝ}
    {k : Fin s → Fin n → ℝ} (hM0 : 0 ≤ M) (hM : ∀ t' (y' : Fin n → ℝ), |t'| ≤ R + 1 → ‖y'‖ ≤ R + 1 → ‖f t' y'‖ ≤ M)
    (hy : ‖y‖ ≤ R) (hh : 0 ≤ h) (hc : ∀ i, |t + c i * h| ≤ R + 1) (hsmall : h * ((∑ i, ∑ j, |A i j|) * M) ≤ 1)
    (hst : IsRKStep A b c f t h y y' k) : (∀ i, ‖k i‖ ≤ M) ∧ ‖y' - y‖ ≤ h * ((∑ i, |b i|) * M) := by
  have key : ∀ (N : ℕ) (i : Fin s), (i : ℕ) < N → ‖k i‖ ≤ M := by
    intro N
    induction N with
    | zero => intro i hi; omega
    | succ N ih =>
      intro i hi
      rw [hst.1 i]
      refine hM _ _ (hc i) ((norm_add_le _ _).trans ?_)
      have h1 : ‖∑ j, A i j • k j‖ ≤ (∑ j, |A i j|) * M := by
        rw [Finset.sum_mul]
        refine (norm_sum_le _ _).trans (Finset.sum_le_sum fun j _ => ?_)
        rw [norm_smul, Real.norm_eq_abs]
        by_cases hij : i ≤ j
        · rw [hA i j hij]; simp
        · exact mul_le_mul_of_nonneg_left (ih j (by have := Fin.lt_def.1 (not_le.1 hij); omega)) (abs_nonneg _)
      have h2 : ∑ j, |A i j| ≤ ∑ i, ∑ j, |A i j| :=
        Finset.single_le_sum (f := fun i => ∑ j, |A i j|) (fun i _ => Finset.sum_nonneg fun j _ => abs_nonneg _) (Finset.mem_univ i)
      rw [norm_smul, Real.norm_eq_abs, abs_of_nonneg hh]
      have h3 : h * ‖∑ j, A i j • k j‖ ≤ h * ((∑ i, ∑ j, |A i j|) * M) :=
        mul_le_mul_of_nonneg_left (h1.trans (mul_le_mul_of_nonneg_right h2 hM0)) hh
      linarith
  have hk : ∀ i, ‖k i‖ ≤ M := fun i => key _ i (Nat.lt_succ_self _)
  refine ⟨hk, ?_⟩
  rw [hst.2, add_sub_cancel_left, norm_smul, Real.norm_eq_abs, abs_of_nonneg hh]
  refine mul_le_mul_of_nonneg_left ?_ hh
  rw [Finset.sum_mul]
  refine (norm_sum_le _ _).trans (Finset.sum_le_sum fun j _ => ?_)
  rw [norm_smul, Real.norm_eq_abs]
  exact mul_le_mul_of_nonneg_left (hk j) (abs_nonneg _)

/-- a bound of a continuous right-hand side on a ball -/
theorem ball_bound (hf : Continuous fun q : ℝ × (Fin n → ℝ) => f q.1 q.2) (R : ℝ) :
    ∃ M, 0 ≤ M ∧ ∀ t (y : Fin n → ℝ), |t| ≤ R → ‖y‖ ≤ R → ‖f t y‖ ≤ M := by
  obtain ⟨M, hM⟩ := (isCompact_closedBall (0 : ℝ × (Fin n → ℝ)) R).exists_bound_of_continuousOn hf.continuousOn
  refine ⟨max M 0, le_max_right _ _, fun t y ht hy => (hM (t, y) ?_).trans (le_max_left _ _)⟩
  simpa using pair_norm_le ht hy

/-- For every ball there are a length and a speed: on intervals of at most this length the explicit steps from points of the ball
have bounded stages, and the distance from the initial value grows at most with this speed. -/
theorem erk_ball {sc : SolverCoeffs ℝ} (hex : Explicit sc) (hcn : ∀ i, i < sc.ns → 0 ≤ sc.cn i ∧ sc.cn i ≤ 1)
    (hf : Continuous fun q : ℝ × (Fin n → ℝ) => f q.1 q.2) (R : ℝ) :
    ∃ δ B M : ℝ, 0 < δ ∧ δ ≤ 1 ∧ 0 ≤ B ∧ 0 ≤ M ∧ ∀ (t0 t h : ℝ) (y0 y y' : Vec ℝ n) (k : Fin sc.ns → Vec ℝ n),
      |t0| ≤ R → ‖y0‖ ≤ R → t0 ≤ t → 0 ≤ h → t + h ≤ t0 + δ → ‖y - y0‖ ≤ B * (t - t0) →
      IsRKStep (fun i j : Fin sc.ns => sc.a i j) (fun i => sc.bw i) (fun i => sc.cn i) f t h y y' k →
      (∀ i, ‖k i‖ ≤ M) ∧ ‖y' - y0‖ ≤ B * (t + h - t0) := by
  obtain ⟨M, hM0, hM⟩ := ball_bound hf (R + 1 + 1)
  set α := ∑ i : Fin sc.ns, ∑ j : Fin sc.ns, |sc.a i j| with hα
  set β := ∑ i : Fin sc.ns, |sc.bw i| with hβ
  have hα0 : 0 ≤ α := Finset.sum_nonneg fun _ _ => Finset.sum_nonneg fun _ _ => abs_nonneg _
  have hβ0 : 0 ≤ β := Finset.sum_nonneg fun _ _ => abs_nonneg _
  set q := α * M + β * M + 1 with hq
  have hq1 : 1 ≤ q := by
    have : 0 ≤ α * M + β * M := by positivity
    linarith
  have hq0 : 0 < q := by linarith
  refine ⟨1 / q, β * M, M, by positivity, by rw [div_le_one hq0]; exact hq1, by positivity, hM0, ?_⟩
  intro t0 t h y0 y y' k ht0 hy0 ht hh hth hy hst
  have hδ1 : 1 / q ≤ 1 := by rw [div_le_one hq0]; exact hq1
  have hle : ∀ x, 0 ≤ x → x ≤ 1 / q → x * (α * M) ≤ 1 ∧ x * (β * M) ≤ 1 := by
    intro x hx hxq
    rw [le_div_iff₀ hq0, hq] at hxq
    have e1 : 0 ≤ x * (α * M) := by positivity
    have e2 : 0 ≤ x * (β * M) := by positivity
    constructor <;> nlinarith
  have hyR : ‖y‖ ≤ R + 1 := by
    have h1 := norm_add_le (y - y0) y0
    rw [sub_add_cancel] at h1
    have h2 := (hle (t - t0) (by linarith) (by linarith)).2
    linarith
  obtain ⟨g1, g2⟩ := rk_stages_ball (R := R + 1) (fun i j hij => hex i j i.isLt j.isLt hij) hM0 hM hyR hh (fun i => by
      obtain ⟨c0, c1⟩ := hcn i i.isLt
      have e1 : 0 ≤ sc.cn i * h := mul_nonneg c0 hh
      have e2 : sc.cn i * h ≤ h := mul_le_of_le_one_left hh c1
      rw [abs_le] at ht0 ⊢
      constructor <;> linarith) (hle h hh (by linarith)).1 hst
  refine ⟨g1, ?_⟩
  have h1 := norm_add_le (y' - y) (y - y0)
  rw [sub_add_sub_cancel] at h1
  nlinarith

end explicit

section implicit
variable {n : ℕ} {nd : Bool} {la : LinAlg ℝ} {fn : OdeFun ℝ n} {sc : SolverCoeffs ℝ} {t0 t1 : ℝ} {o : IrkOpts ℝ}
  {no : NewtonOpts ℝ} {oo : OutOpts} {mo : ℕ} {d d2 : Vec ℝ sc.ns}

/-- bounds for all states of a ball and all small steps (as `near_bounds`) -/
theorem ball_bounds (hf : ContDiff ℝ 1 fun q : ℝ × Vec ℝ n => fn.fn q.1 q.2)
    (hjac : Continuous fun q : ℝ × Vec ℝ n => fn.jac q.1 q.2) (sc : SolverCoeffs ℝ) (R : ℝ) :
    ∃ Jb M L h0 : ℝ, 0 ≤ Jb ∧ 0 ≤ M ∧ 0 ≤ L ∧ 0 < h0 ∧ h0 ≤ 1 ∧ ∀ (t : ℝ) (y : Vec ℝ n), |t| ≤ R → ‖y‖ ≤ R →
      (∀ q, ∑ l, |fn.jac t y q l| ≤ Jb) ∧ BoundedNear fn t y 1 1 M ∧
      ∀ h, 0 ≤ h → h ≤ h0 → LipNear fn sc t h y 1 L ∧ h * absA sc * Jb ≤ 1 / 2 ∧ h * absA sc * (Jb + L) ≤ 1 / 4 ∧
        4 * (h * absA sc * M) ≤ 1 ∧ absC sc * h ≤ 1 ∧ h * |sc.gamma| * Jb ≤ 1 / 2 := by
  have hCn := absC_nonneg sc
  have hAn := absA_nonneg sc
  set Q := R + 1 with hQ
  obtain ⟨Jb, hJb, hJ⟩ := jac_bound hjac Q
  obtain ⟨M0, hM⟩ := (isCompact_closedBall (0 : ℝ × Vec ℝ n) Q).exists_bound_of_continuousOn hf.continuous.continuousOn
  set M := max M0 0 with hMdef
  have hM0 : 0 ≤ M := le_max_right _ _
  obtain ⟨L, hL, hLip⟩ := lipschitz_ball' hf Q
  set q := 4 * (absA sc * (Jb + L + M) + absC sc + |sc.gamma| * Jb + 1) with hq
  have hq0 : 0 < q := by positivity
  refine ⟨Jb, M, L, 1 / q, hJb, hM0, hL, by positivity, ?_, ?_⟩
  · rw [div_le_one hq0, hq]
    have : 0 ≤ absA sc * (Jb + L + M) + absC sc + |sc.gamma| * Jb := by positivity
    linarith
  intro t y ht hy
  have hpair : ∀ (t' : ℝ) (z : Vec ℝ n), |t' - t| ≤ 1 → ‖z‖ ≤ 1 → ‖((t', y + z) : ℝ × Vec ℝ n)‖ ≤ Q := by
    intro t' z h1 h2
    refine pair_norm_le ?_ ((norm_add_le _ _).trans (by linarith))
    have h3 := abs_add_le t (t' - t)
    rw [add_sub_cancel] at h3
    linarith
  have hty : ‖((t, y) : ℝ × Vec ℝ n)‖ ≤ Q := by
    have := hpair t 0 (by simp) (by simp)
    rwa [add_zero] at this
  refine ⟨hJ t y hty, ?_, ?_⟩
  · intro t' y' h1 h2 k
    have h3 := hpair t' (y' - y) h1 (pi_le zero_le_one h2)
    rw [add_sub_cancel] at h3
    exact (le_pi _ k).trans ((hM (t', y') (by simpa using h3)).trans (le_max_left _ _))
  · intro h hh hle
    have hle' := hle
    rw [le_div_iff₀ hq0, hq] at hle
    have e0 : 0 ≤ h * (|sc.gamma| * Jb) := by positivity
    have e1 : 0 ≤ h * (absA sc * Jb) := by positivity
    have e2 : 0 ≤ h * (absA sc * L) := by positivity
    have e3 : 0 ≤ h * (absA sc * M) := by positivity
    have e4 : 0 ≤ h * absC sc := by positivity
    have c5 : absC sc * h ≤ 1 := by nlinarith
    refine ⟨?_, by nlinarith, by nlinarith, by nlinarith, c5, by nlinarith⟩
    intro j z w E hz hw hzw k
    have hE : 0 ≤ E := (abs_nonneg _).trans (hzw k)
    have hs := (stage_time sc (t := t) hh j).trans c5
    have h1 := hLip (t + sc.cn j * h, y + z) (t + sc.cn j * h, y + w) (hpair _ _ hs (pi_le zero_le_one hz))
      (hpair _ _ hs (pi_le zero_le_one hw))
    rw [Prod.mk_sub_mk, sub_self, norm_pair, add_sub_add_left_eq_sub] at h1
    refine (le_pi (fn.fn (t + sc.cn j * h) (y + z) - fn.fn (t + sc.cn j * h) (y + w)) k).trans (h1.trans ?_)
    exact mul_le_mul_of_nonneg_left (pi_le hE hzw) hL

/-- For every ball there are a length and a speed, as `erk_ball`, for the implicit methods: whatever the Newton options, with or without
convergence of the iteration, the increments are bounded and the matrices regular. -/
theorem irk_ball (hf : ContDiff ℝ 1 fun q : ℝ × Vec ℝ n => fn.fn q.1 q.2) (hjac : Continuous fun q : ℝ × Vec ℝ n => fn.jac q.1 q.2)
    (sc : SolverCoeffs ℝ) (d : Vec ℝ sc.ns) (R : ℝ) :
    ∃ δ B Jb M : ℝ, 0 < δ ∧ δ ≤ 1 ∧ 0 ≤ B ∧ 0 ≤ Jb ∧ 0 ≤ M ∧ ∀ (t0 t : ℝ) (y0 y : Vec ℝ n), |t0| ≤ R → ‖y0‖ ≤ R → t0 ≤ t → t ≤ t0 + δ →
      ‖y - y0‖ ≤ B * (t - t0) →
      (∀ q, ∑ l, |fn.jac t y q l| ≤ Jb) ∧ BoundedNear fn t y 1 1 M ∧ ∀ h, 0 ≤ h → t + h ≤ t0 + δ → RegularAt fn sc t y h ∧
        ∀ (nd : Bool) (la : LinAlg ℝ) (maxit refresh : ℤ) (xtol Rtol : ℝ) (count : IrkCounters) (log : CallLog ℝ n)
          (res : StageResult ℝ (sc.ns * n) n), la.Exact → la.Sound →
          newtonSolveStages nd la fn sc t h y maxit refresh xtol Rtol count log = .ret res →
          ‖(fun k => y k + combineI sc res.Y d k) - y0‖ ≤ B * (t + h - t0) := by
  have hAn := absA_nonneg sc
  obtain ⟨Jb, M, L, h0, hJb, hM, hL, hh0, hh1, H⟩ := ball_bounds hf hjac sc (R + 1)
  have hW : 0 ≤ absW d := Finset.sum_nonneg fun _ _ => abs_nonneg _
  set B := absW d * (4 * (absA sc * M)) with hB
  have hB0 : 0 ≤ B := by positivity
  have hδ : 0 < min h0 (1 / (B + 1)) := lt_min hh0 (by positivity)
  refine ⟨min h0 (1 / (B + 1)), B, Jb, M, hδ, (min_le_left _ _).trans hh1, hB0, hJb, hM, ?_⟩
  intro t0 t y0 y ht0 hy0 ht htδ hy
  have hδ1 : min h0 (1 / (B + 1)) ≤ 1 := (min_le_left _ _).trans hh1
  have hδB : (t - t0) * (B + 1) ≤ 1 := by
    have h1 : t - t0 ≤ 1 / (B + 1) := by linarith [min_le_right h0 (1 / (B + 1))]
    rwa [le_div_iff₀ (by positivity)] at h1
  have hyR : ‖y‖ ≤ R + 1 := by
    have h1 := norm_add_le (y - y0) y0
    rw [sub_add_cancel] at h1
    nlinarith
  have htR : |t| ≤ R + 1 := by
    rw [abs_le] at ht0 ⊢
    constructor <;> linarith
  obtain ⟨b1, b4, b5⟩ := H t y htR hyR
  refine ⟨b1, b4, fun h hh hth => ?_⟩
  obtain ⟨c1, c2, c3, c4, c5, c6⟩ := b5 h hh (by linarith [min_le_left h0 (1 / (B + 1))])
  refine ⟨regular_small hh b1 c2 c6, ?_⟩
  intro nd la maxit refresh xtol Rtol count log res hla hs hr
  obtain ⟨-, m, Ys, dYs, S⟩ := stage_run hr
  obtain ⟨k1, -⟩ := newton_iterates hla hs S hh b1 hM (fun j k => b4 _ _ ((stage_time sc hh j).trans c5) (by simp) k) hL c1 c2 c3 c4
  have hY : ∀ p, |res.Y p| ≤ 4 * (h * absA sc * M) := by
    rw [S.final]; exact fun p => k1 _ le_rfl p
  have h2 : ‖combineI sc res.Y d‖ ≤ absW d * (4 * (h * absA sc * M)) :=
    pi_le (by positivity) fun k => combineI_le res.Y d (by positivity) hY k
  have h3 := norm_add_le (combineI sc res.Y d) (y - y0)
  have e : (fun k => y k + combineI sc res.Y d k) - y0 = combineI sc res.Y d + (y - y0) := by
    funext k
    simp only [Pi.sub_apply, Pi.add_apply]
    ring
  rw [e]
  have h4 : absW d * (4 * (h * absA sc * M)) = B * h := by rw [hB]; ring
  nlinarith

end implicit
end Verif
