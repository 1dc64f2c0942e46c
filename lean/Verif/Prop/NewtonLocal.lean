import Verif.NewtonLocal
import Mathlib.Topology.Algebra.Module.FiniteDimension
import Mathlib.Analysis.Calculus.ContDiff.Operations

/-!
# C80: local convergence of `newton_iterate`
-/

set_option linter.unusedSectionVars false

namespace Verif
open Topology

variable {n : ℕ} {la : LinAlg ℝ} {fn : NFun ℝ n} {x s : Vec ℝ n} {o : NewtonOpts ℝ} {st0 : NewtonStatus ℝ}

/-- `M` as a continuous linear map -/
noncomputable abbrev linOf (M : Mat ℝ n) : (Fin n → ℝ) →L[ℝ] (Fin n → ℝ) :=
  LinearMap.toContinuousLinearMap (Matrix.toLin' (Matrix.of M))

theorem linOf_apply (M : Mat ℝ n) (v : Fin n → ℝ) : linOf M v = (Matrix.of M).mulVec v := rfl

/-- a regular matrix is bounded below -/
theorem regular_bound {M : Mat ℝ n} (h : IsUnit (Matrix.of M).det) :
    ∃ β, 0 < β ∧ ∀ v, ‖v‖ ≤ β * ‖(Matrix.of M).mulVec v‖ := by
  set L : (Fin n → ℝ) →L[ℝ] (Fin n → ℝ) := LinearMap.toContinuousLinearMap (Matrix.toLin' (Matrix.of M)⁻¹) with hL
  refine ⟨‖L‖ + 1, by positivity, fun v => ?_⟩
  have h1 := L.le_opNorm ((Matrix.of M).mulVec v)
  have h2 : L ((Matrix.of M).mulVec v) = v := by
    change ((Matrix.of M)⁻¹).mulVec ((Matrix.of M).mulVec v) = v
    rw [Matrix.mulVec_mulVec, Matrix.nonsing_inv_mul _ h, Matrix.one_mulVec]
  rw [h2] at h1
  nlinarith [norm_nonneg ((Matrix.of M).mulVec v)]

theorem usedJac_cases (z : Vec ℝ n) : usedJac fn o x z = Matrix.of (fn.jac z) ∨ usedJac fn o x z = Matrix.of (fn.jac x) := by
  unfold usedJac; split_ifs
  · exact .inl rfl
  · exact .inr rfl

/-- **C80 (quadratic).**  Let `s` be a root of a function that is twice continuously differentiable at `s`, with the
supplied matrix being the Jacobi matrix near `s` and regular at `s`.  Then there are `r, κ > 0` with `κ r ≤ 1/2` such
that `newton_iterate` with refreshed Jacobi matrices (with or without damping, with or without preconditioning, without
a bound on the step) from every `x` with `‖x - s‖ ≤ r` converges quadratically: on SUCCESS the error is at most
`κ⁻¹ (κ ‖x - s‖)^(2^iters)` and at most `4 κ dx_delta²`; the run ends with SUCCESS after at most `K+1` iterations if
`(3/2) r (1/2)^(2^K - 1) < dx_delta` and `maxit ≥ K+2`. -/
theorem C80_quadratic (hs : fn.fn s = 0) (hf : ContDiffAt ℝ 2 fn.fn s)
    (hj : ∀ᶠ z in 𝓝 s, HasFDerivAt fn.fn (linOf (fn.jac z)) z) (hreg : IsUnit (Matrix.of (fn.jac s)).det) :
    ∃ r κ : ℝ, 0 < r ∧ 0 < κ ∧ κ * r ≤ 1 / 2 ∧
      ∀ (la : LinAlg ℝ) (x : Vec ℝ n) (o : NewtonOpts ℝ) (st0 : NewtonStatus ℝ) (quiet : Bool), la.Exact →
      o.maxStep ≤ 0 → 2 ≤ o.maxit → 0 < o.refreshJac → ‖x - s‖ ≤ r →
      ∃ xr st, newtonIterate la fn x o st0 quiet = some (.ret (xr, st)) ∧
        (st.conv = 0 → κ * ‖xr - s‖ ≤ (κ * ‖x - s‖) ^ 2 ^ st.iters ∧ ‖xr - s‖ ≤ 4 * κ * o.dxDelta ^ 2) ∧
        ∀ K : ℕ, (K : ℤ) + 2 ≤ o.maxit → 3 / 2 * (r * (1 / 2) ^ (2 ^ K - 1)) < o.dxDelta →
          st.conv = 0 ∧ st.iters ≤ K + 1 := by
  obtain ⟨β, hβ, hA⟩ := regular_bound hreg
  obtain ⟨γ, tγ, htγ, hγ⟩ := (hf.fderiv_right (m := 1) (by norm_num)).exists_lipschitzOnWith
  obtain ⟨M, tM, htM, hM⟩ := (hf.of_le (by norm_num : (1 : WithTop ℕ∞) ≤ 2)).exists_lipschitzOnWith
  obtain ⟨ρ, hρ, hball⟩ := Metric.eventually_nhds_iff_ball.1 (hj.and (Filter.inter_mem htγ htM))
  set κ : ℝ := 4 * β * γ + n * (M : ℝ) ^ 2 * ρ + 1 with hκ
  have hκ0 : 0 < κ := by positivity
  set r := min (ρ / 2) (1 / (2 * κ)) with hr
  have hr0 : 0 < r := by rw [hr]; positivity
  have hκr : κ * r ≤ 1 / 2 := by
    calc κ * r ≤ κ * (1 / (2 * κ)) := mul_le_mul_of_nonneg_left (min_le_right _ _) hκ0.le
      _ = 1 / 2 := by field_simp
  have hrρ : r < ρ := (min_le_left _ _).trans_lt (by linarith)
  have hin : ∀ z, ‖z - s‖ ≤ r → z ∈ Metric.ball s ρ := fun z hz => by
    rw [mem_ball_iff_norm]; exact hz.trans_lt hrρ
  have hss : s ∈ Metric.ball s ρ := Metric.mem_ball_self hρ
  have hlip : ∀ z ∈ Metric.ball s ρ, ∀ w ∈ Metric.ball s ρ, ‖linOf (fn.jac z) - linOf (fn.jac w)‖ ≤ γ * ‖z - w‖ := by
    intro z hz w hw
    have := hγ.norm_sub_le (hball z hz).2.1 (hball w hw).2.1
    rwa [(hball z hz).1.fderiv, (hball w hw).1.fderiv] at this
  have h4 : 4 * β * γ * r ≤ 1 / 2 := by
    refine le_trans (mul_le_mul_of_nonneg_right ?_ hr0.le) hκr
    rw [hκ]
    have : 0 ≤ n * (M : ℝ) ^ 2 * ρ := by positivity
    linarith
  refine ⟨r, κ, hr0, hκ0, hκr, ?_⟩
  intro la x o st0 quiet hla hms hmax hjac hx
  obtain ⟨xr, st, hret, h1, h2⟩ := newton_contract (s := s) (st0 := st0) (φ := fun t => κ * t ^ 2) hla hms hmax quiet
    (fun a ha b hb hab => mul_le_mul_of_nonneg_left (pow_le_pow_left₀ ha hab 2) hκ0.le)
    (fun a ha har => by
      have : κ * a ≤ 1 := (mul_le_mul_of_nonneg_left har hκ0.le).trans (hκr.trans (by norm_num))
      nlinarith)
    (fun z hz => by
      have hzb := hin z hz
      have hu : usedJac fn o x z = Matrix.of (fn.jac z) := by unfold usedJac; rw [if_pos hjac]
      have hzs := norm_nonneg (z - s)
      obtain ⟨r1, r2⟩ := regular_near (J := Matrix.of (fn.jac z)) (a := γ * r) hβ hA (fun v => by
          have e1 := (linOf (fn.jac z) - linOf (fn.jac s)).le_opNorm v
          rw [_root_.sub_apply, linOf_apply, linOf_apply] at e1
          refine e1.trans (mul_le_mul_of_nonneg_right ((hlip z hzb s hss).trans ?_) (norm_nonneg _))
          exact mul_le_mul_of_nonneg_left hz (by positivity)) (by linarith [h4, (by positivity : 0 ≤ β * γ * r)])
      rw [hu]
      refine ⟨r1, fun d hd => ?_⟩
      have hres : ‖(Matrix.of (fn.jac z)).mulVec (z - s) - fn.fn z‖ ≤ (γ * (2 * ‖z - s‖)) * ‖z - s‖ := by
        have hsub : Metric.closedBall s ‖z - s‖ ⊆ Metric.ball s ρ := fun w hw => by
          rw [mem_closedBall_iff_norm] at hw; exact hin w (hw.trans hz)
        have := (convex_closedBall s ‖z - s‖).norm_image_sub_le_of_norm_hasFDerivWithin_le' (f := fn.fn)
          (f' := fun w => linOf (fn.jac w)) (φ := linOf (fn.jac z)) (C := γ * (2 * ‖z - s‖)) (x := s) (y := z)
          (fun w hw => (hball w (hsub hw)).1.hasFDerivWithinAt)
          (fun w hw => by
            refine (hlip w (hsub hw) z hzb).trans (mul_le_mul_of_nonneg_left ?_ (by positivity))
            rw [mem_closedBall_iff_norm] at hw
            have : w - z = (w - s) - (z - s) := by abel
            rw [this]
            exact (norm_sub_le _ _).trans (by linarith))
          (Metric.mem_closedBall_self hzs) (by rw [mem_closedBall_iff_norm])
        rw [hs, sub_zero, linOf_apply, ← norm_neg, neg_sub] at this
        exact this
      have hMz : ‖fn.fn z‖ ≤ M * ‖z - s‖ := by
        have := hM.norm_sub_le (hball z hzb).2.2 (hball s hss).2.2
        rwa [hs, sub_zero] at this
      obtain ⟨s1, s2⟩ := step_error (o := o) r2 (by positivity) hd hres hMz hz
      refine ⟨s1.trans (mul_le_mul_of_nonneg_right ?_ hzs), s2.trans ?_⟩
      · calc 2 * β * (γ * (2 * ‖z - s‖)) = 4 * β * γ * ‖z - s‖ := by ring
          _ ≤ 4 * β * γ * r := mul_le_mul_of_nonneg_left hz (by positivity)
          _ ≤ 1 / 2 := h4
      · have e2 : (if o.limitStep then n * (M : ℝ) ^ 2 * (r * ‖z - s‖) else 0) ≤ n * (M : ℝ) ^ 2 * ρ * ‖z - s‖ := by
          split_ifs
          · rw [mul_assoc _ ρ]
            exact mul_le_mul_of_nonneg_left (mul_le_mul_of_nonneg_right hrρ.le hzs) (by positivity)
          · positivity
        calc _ ≤ (2 * β * (γ * (2 * ‖z - s‖)) + n * (M : ℝ) ^ 2 * ρ * ‖z - s‖) * ‖z - s‖ :=
              mul_le_mul_of_nonneg_right (by linarith) hzs
          _ ≤ κ * ‖z - s‖ ^ 2 := by
              rw [hκ]
              nlinarith [sq_nonneg ‖z - s‖])
    hx
  refine ⟨xr, st, hret, ?_, ?_⟩
  · intro hc
    obtain ⟨e1, e2⟩ := h1 hc
    refine ⟨?_, e2.trans (le_of_eq (by ring))⟩
    rw [← iterate_sq]
    exact mul_le_mul_of_nonneg_left e1 hκ0.le
  · intro K hK hlt
    refine h2 K hK (lt_of_le_of_lt ?_ hlt)
    refine mul_le_mul_of_nonneg_left ?_ (by norm_num)
    have e1 := iterate_sq κ ‖x - s‖ K
    have e2 : (κ * ‖x - s‖) ^ 2 ^ K ≤ (κ * r) ^ 2 ^ K :=
      pow_le_pow_left₀ (by positivity) (mul_le_mul_of_nonneg_left hx hκ0.le) _
    have e3 : (κ * r) ^ 2 ^ K ≤ κ * (r * (1 / 2) ^ (2 ^ K - 1)) := by
      have : 2 ^ K = (2 ^ K - 1) + 1 := (Nat.sub_add_cancel Nat.one_le_two_pow).symm
      calc (κ * r) ^ 2 ^ K = (κ * r) ^ (2 ^ K - 1) * (κ * r) := by conv_lhs => rw [this]
                                                                   rw [pow_succ]
        _ ≤ (1 / 2) ^ (2 ^ K - 1) * (κ * r) :=
            mul_le_mul_of_nonneg_right (pow_le_pow_left₀ (by positivity) hκr _) (by positivity)
        _ = _ := by ring
    refine le_of_mul_le_mul_left ?_ hκ0
    rw [e1]
    exact e2.trans e3

/-- **C80 (linear, without refreshing).**  Under the hypotheses of `C80_quadratic` with one derivative less: for every
rate `q ∈ (0,1/2]` there is `r > 0` such that `newton_iterate` from every `x` with `‖x - s‖ ≤ r`, whether or not the
Jacobi matrix is refreshed, converges at least linearly with rate `q`. -/
theorem C80_linear (hs : fn.fn s = 0) (hf : ContDiffAt ℝ 1 fn.fn s)
    (hj : ∀ᶠ z in 𝓝 s, HasFDerivAt fn.fn (linOf (fn.jac z)) z) (hreg : IsUnit (Matrix.of (fn.jac s)).det)
    {q : ℝ} (hq0 : 0 < q) (hq : q ≤ 1 / 2) :
    ∃ r : ℝ, 0 < r ∧
      ∀ (la : LinAlg ℝ) (x : Vec ℝ n) (o : NewtonOpts ℝ) (st0 : NewtonStatus ℝ) (quiet : Bool), la.Exact →
      o.maxStep ≤ 0 → 2 ≤ o.maxit → ‖x - s‖ ≤ r →
      ∃ xr st, newtonIterate la fn x o st0 quiet = some (.ret (xr, st)) ∧
        (st.conv = 0 → ‖xr - s‖ ≤ q ^ st.iters * ‖x - s‖ ∧ ‖xr - s‖ ≤ 2 * q * o.dxDelta) ∧
        ∀ K : ℕ, (K : ℤ) + 2 ≤ o.maxit → 3 / 2 * (q ^ K * ‖x - s‖) < o.dxDelta → st.conv = 0 ∧ st.iters ≤ K + 1 := by
  obtain ⟨β, hβ, hA⟩ := regular_bound hreg
  have hcont : ContinuousAt (fderiv ℝ fn.fn) s := (hf.fderiv_right (m := 0) (by norm_num)).continuousAt
  obtain ⟨M, tM, htM, hM⟩ := hf.exists_lipschitzOnWith
  set ε := q / (8 * β) with hε
  have hε0 : 0 < ε := by rw [hε]; positivity
  have hbε : 8 * β * ε = q := by rw [hε]; field_simp
  have hds : HasFDerivAt fn.fn (linOf (fn.jac s)) s := hj.self_of_nhds
  have hstrict : ∀ᶠ z in 𝓝 s, ‖fn.fn z - fn.fn s - linOf (fn.jac s) (z - s)‖ ≤ ε * ‖z - s‖ :=
    (hasFDerivAt_iff_isLittleO.1 hds).bound hε0
  have hJ : ∀ᶠ z in 𝓝 s, ‖fderiv ℝ fn.fn z - fderiv ℝ fn.fn s‖ < ε := by
    have := Metric.continuousAt_iff.1 hcont ε hε0
    obtain ⟨δ, hδ, h⟩ := this
    filter_upwards [Metric.ball_mem_nhds s hδ] with z hz
    rw [← dist_eq_norm]
    exact h hz
  obtain ⟨ρ, hρ, hball⟩ := Metric.eventually_nhds_iff_ball.1 (hj.and ((hstrict.and hJ).and htM))
  set c : ℝ := n * (M : ℝ) ^ 2 + 1 with hc
  have hc0 : 0 < c := by positivity
  set r := min (min (ρ / 2) 1) (q / (2 * c)) with hr
  have hr0 : 0 < r := by rw [hr]; positivity
  have hr1 : r ≤ 1 := (min_le_left _ _).trans (min_le_right _ _)
  have hrρ : r < ρ := ((min_le_left _ _).trans (min_le_left _ _)).trans_lt (by linarith)
  have hcr : c * r ≤ q / 2 := by
    calc c * r ≤ c * (q / (2 * c)) := mul_le_mul_of_nonneg_left (min_le_right _ _) hc0.le
      _ = q / 2 := by field_simp
  have hin : ∀ z, ‖z - s‖ ≤ r → z ∈ Metric.ball s ρ := fun z hz => by
    rw [mem_ball_iff_norm]; exact hz.trans_lt hrρ
  have hnear : ∀ z, ‖z - s‖ ≤ r → ∀ v, ‖(Matrix.of (fn.jac z)).mulVec v - (Matrix.of (fn.jac s)).mulVec v‖ ≤ ε * ‖v‖ := by
    intro z hz v
    have hz' := hball z (hin z hz)
    have e1 := (linOf (fn.jac z) - linOf (fn.jac s)).le_opNorm v
    rw [_root_.sub_apply, linOf_apply, linOf_apply] at e1
    have e2 := hz'.2.1.2.le
    rw [hz'.1.fderiv, hds.fderiv] at e2
    exact e1.trans (mul_le_mul_of_nonneg_right e2 (norm_nonneg _))
  refine ⟨r, hr0, ?_⟩
  intro la x o st0 quiet hla hms hmax hx
  obtain ⟨xr, st, hret, h1, h2⟩ := newton_contract (s := s) (st0 := st0) (φ := fun t => q * t) hla hms hmax quiet
    (fun a ha b hb hab => mul_le_mul_of_nonneg_left hab hq0.le)
    (fun a ha har => by nlinarith)
    (fun z hz => by
      have hzb := hball z (hin z hz)
      have hzs := norm_nonneg (z - s)
      have hu : ∀ v, ‖(usedJac fn o x z).mulVec v - (Matrix.of (fn.jac s)).mulVec v‖ ≤ ε * ‖v‖ := by
        rcases usedJac_cases (fn := fn) (o := o) (x := x) z with e | e
        · rw [e]; exact hnear z hz
        · rw [e]; exact hnear x hx
      obtain ⟨r1, r2⟩ := regular_near (a := ε) hβ hA hu (by nlinarith)
      refine ⟨r1, fun d hd => ?_⟩
      have hres : ‖(usedJac fn o x z).mulVec (z - s) - fn.fn z‖ ≤ (2 * ε) * ‖z - s‖ := by
        have e1 := hzb.2.1.1
        rw [hs, sub_zero, linOf_apply] at e1
        have e2 := hu (z - s)
        have e3 : (usedJac fn o x z).mulVec (z - s) - fn.fn z =
            ((usedJac fn o x z).mulVec (z - s) - (Matrix.of (fn.jac s)).mulVec (z - s)) -
              (fn.fn z - (Matrix.of (fn.jac s)).mulVec (z - s)) := by abel
        rw [e3]
        exact (norm_sub_le _ _).trans (by linarith)
      have hMz : ‖fn.fn z‖ ≤ M * ‖z - s‖ := by
        have := hM.norm_sub_le hzb.2.2 (hball s (Metric.mem_ball_self hρ)).2.2
        rwa [hs, sub_zero] at this
      obtain ⟨s1, s2⟩ := step_error (o := o) r2 (by positivity) hd hres hMz hz
      refine ⟨s1.trans (mul_le_mul_of_nonneg_right (by nlinarith) hzs), s2.trans (mul_le_mul_of_nonneg_right ?_ hzs)⟩
      have e2 : (if o.limitStep then n * (M : ℝ) ^ 2 * (r * ‖z - s‖) else 0) ≤ c * r := by
        split_ifs
        · have e4 : r * ‖z - s‖ ≤ r := by nlinarith
          calc n * (M : ℝ) ^ 2 * (r * ‖z - s‖) ≤ n * (M : ℝ) ^ 2 * r := mul_le_mul_of_nonneg_left e4 (by positivity)
            _ ≤ c * r := mul_le_mul_of_nonneg_right (by rw [hc]; linarith) hr0.le
        · positivity
      have e5 : 2 * β * (2 * ε) = q / 2 := by linarith
      linarith)
    hx
  refine ⟨xr, st, hret, ?_, ?_⟩
  · intro hc
    obtain ⟨e1, e2⟩ := h1 hc
    rw [iterate_lin] at e1
    exact ⟨e1, e2.trans (le_of_eq (by ring))⟩
  · intro K hK hlt
    exact h2 K hK (by rw [iterate_lin]; exact hlt)

/-- the hypotheses are met by `x² - 2` at `√2` -/
example : ∃ fn : NFun ℝ 1, (∀ z, fn.fn z 0 = z 0 ^ 2 - 2) ∧ fn.fn (fun _ => Real.sqrt 2) = 0 ∧
    ContDiffAt ℝ 2 fn.fn (fun _ => Real.sqrt 2) ∧
    (∀ᶠ z in 𝓝 (fun _ : Fin 1 => Real.sqrt 2), HasFDerivAt fn.fn (linOf (fn.jac z)) z) ∧
    IsUnit (Matrix.of (fn.jac (fun _ => Real.sqrt 2))).det := by
  refine ⟨⟨fun z _ => z 0 ^ 2 - 2, fun z _ _ => 2 * z 0⟩, fun _ => rfl, ?_, ?_, ?_, ?_⟩
  · funext i; simp
  · exact (contDiff_pi.2 fun _ => ((contDiff_apply ℝ ℝ (0 : Fin 1)).pow 2).sub contDiff_const).contDiffAt
  · refine Filter.Eventually.of_forall fun z => ?_
    rw [hasFDerivAt_pi']
    intro i
    have h := ((hasFDerivAt_apply (𝕜 := ℝ) (0 : Fin 1) z).pow 2).sub_const (2 : ℝ)
    refine h.congr_fderiv ?_
    ext v
    simp [linOf, Matrix.mulVec, dotProduct]
  · simp

end Verif
