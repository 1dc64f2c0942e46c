import Verif.Converge
import Mathlib.Topology.MetricSpace.Contracting

/-!
# Convergence of implicit one-step methods whose stage equations are solved up to a residual
-/

namespace Verif
open Spec Asymptotics Filter Set

variable {E : Type} [NormedAddCommGroup E] [NormedSpace ℝ E] {f : E → E} {s : ℕ}

/-- the stage equations of a small step have a solution with small stages -/
theorem implicit_stages_exist [CompleteSpace E] {A : Fin s → Fin s → ℝ} {R M L h : ℝ} {y : E}
    (hfb : ∀ z, ‖z‖ ≤ R + 1 → ‖f z‖ ≤ M) (hLip : ∀ z, ‖z‖ ≤ R + 1 → ∀ w, ‖w‖ ≤ R + 1 → ‖f z - f w‖ ≤ L * ‖z - w‖)
    (hL : 0 ≤ L) (hM : 0 ≤ M) (hy : ‖y‖ ≤ R) (hh : 0 ≤ h) (h1 : h * (absSum A * M) ≤ 1) (h2 : h * (absSum A * L) ≤ 1 / 2) :
    ∃ K : Fin s → E, (∀ i, ‖K i‖ ≤ M) ∧ (∀ i, ‖y + h • ∑ j, A i j • K j‖ ≤ R + 1) ∧ ∀ i, K i = f (y + h • ∑ j, A i j • K j) := by
  let Φ : (Fin s → E) → Fin s → E := fun K i => f (y + h • ∑ j, A i j • K j)
  have hα := absSum_nonneg A
  have harg : ∀ K ∈ Metric.closedBall (0 : Fin s → E) M, ∀ i, ‖y + h • ∑ j, A i j • K j‖ ≤ R + 1 := by
    intro K hK i
    have hK' : ∀ j, ‖K j‖ ≤ M := fun j => (norm_le_pi_norm K j).trans (by simpa using hK)
    refine (norm_add_le _ _).trans (add_le_add hy ?_)
    rw [norm_smul, Real.norm_of_nonneg hh]
    exact (mul_le_mul_of_nonneg_left (row_le A i hM fun j _ => hK' j) hh).trans h1
  have hmaps : MapsTo Φ (Metric.closedBall 0 M) (Metric.closedBall 0 M) := by
    intro K hK
    rw [mem_closedBall_zero_iff, pi_norm_le_iff_of_nonneg hM]
    exact fun i => hfb _ (harg K hK i)
  have hcontr : ContractingWith (1 / 2) (hmaps.restrict Φ (Metric.closedBall 0 M) (Metric.closedBall 0 M)) := by
    refine ⟨by rw [← NNReal.coe_lt_coe]; norm_num, LipschitzWith.of_dist_le_mul ?_⟩
    rintro ⟨K, hK⟩ ⟨K', hK'⟩
    have hd : dist (⟨K, hK⟩ : Metric.closedBall (0 : Fin s → E) M) ⟨K', hK'⟩ = ‖K - K'‖ := dist_eq_norm K K'
    rw [hd]
    change dist (Φ K) (Φ K') ≤ _
    rw [dist_eq_norm, pi_norm_le_iff_of_nonneg (by positivity)]
    intro i
    have h3 := hLip _ (harg K hK i) _ (harg K' hK' i)
    have e : y + h • ∑ j, A i j • K j - (y + h • ∑ j, A i j • K' j) = h • ∑ j, A i j • (K - K') j := by
      simp only [Pi.sub_apply, smul_sub, Finset.sum_sub_distrib]; abel
    rw [e, norm_smul, Real.norm_of_nonneg hh] at h3
    refine h3.trans ?_
    have h4 := row_le A i (norm_nonneg (K - K')) (v := K - K') fun j _ => norm_le_pi_norm (K - K') j
    calc L * (h * ‖∑ j, A i j • (K - K') j‖) ≤ L * (h * (absSum A * ‖K - K'‖)) := by gcongr
      _ = (h * (absSum A * L)) * ‖K - K'‖ := by ring
      _ ≤ 1 / 2 * ‖K - K'‖ := mul_le_mul_of_nonneg_right h2 (norm_nonneg _)
      _ = _ := by norm_num
  obtain ⟨K, hK, hfix, -⟩ := ContractingWith.exists_fixedPoint' (s := Metric.closedBall (0 : Fin s → E) M) (f := Φ)
    Metric.isClosed_closedBall.isComplete hmaps hcontr (x := 0) (by simpa using hM) (edist_ne_top _ _)
  refine ⟨K, fun j => (norm_le_pi_norm K j).trans (by simpa using hK), harg K hK, fun i => ?_⟩
  exact (congrFun hfix i).symm

/-- the discrete Gronwall inequality with a contribution `ζ` of every step -/
theorem chain_error_count {Λ C η ζ t0 t1 : ℝ} (hΛ : 0 ≤ Λ) (hC : 0 ≤ C) (hη : 0 ≤ η) (hζ : 0 ≤ ζ) {ts es : List ℝ}
    (hlen : ts.length = es.length) (hrange : ∀ t ∈ ts, t0 ≤ t ∧ t ≤ t1) (hhead : ts.head? = some t0)
    (he : ∀ e, es.head? = some e → e ≤ 0) {N : ℕ}
    (hsmall : Real.exp (Λ * (t1 - t0)) * ((t1 - t0) * (C * η) + N * ζ) ≤ 1)
    (hstep : ∀ (i : ℕ) (t t' e e' : ℝ), ts[i]? = some t → ts[i + 1]? = some t' → es[i]? = some e → es[i + 1]? = some e' →
      e ≤ 1 → t ≤ t' ∧ e' ≤ (1 + Λ * (t' - t)) * e + C * (t' - t) * η + ζ) :
    ∀ (i : ℕ) (t e : ℝ), i ≤ N → ts[i]? = some t → es[i]? = some e → e ≤ Real.exp (Λ * (t - t0)) * ((t - t0) * (C * η) + i * ζ) := by
  have hCη : 0 ≤ C * η := mul_nonneg hC hη
  intro i
  induction i with
  | zero =>
    intro t e _ ht hee
    have h1 : t = t0 := by rw [List.head?_eq_getElem?] at hhead; rw [hhead] at ht; exact (Option.some.inj ht).symm
    have h2 := he e (by rw [List.head?_eq_getElem?]; exact hee)
    simp [h1, h2]
  | succ i ih =>
    intro t' e' hiN ht' hee'
    have hi : i < ts.length := by have := (List.getElem?_eq_some_iff.mp ht').1; omega
    have hi2 : i < es.length := by omega
    have ht : ts[i]? = some ts[i] := List.getElem?_eq_getElem hi
    have hee : es[i]? = some es[i] := List.getElem?_eq_getElem hi2
    generalize ts[i] = t at ht
    generalize es[i] = e at hee
    have hprev := ih t e (by omega) ht hee
    obtain ⟨r1, r2⟩ := hrange t (List.mem_of_getElem? ht)
    have hexp1 : 1 ≤ Real.exp (Λ * (t - t0)) := Real.one_le_exp (mul_nonneg hΛ (by linarith))
    have hN : (i : ℝ) * ζ ≤ N * ζ := mul_le_mul_of_nonneg_right (by exact_mod_cast (by omega : i ≤ N)) hζ
    have hiz : 0 ≤ (i : ℝ) * ζ := by positivity
    have hone : e ≤ 1 := by
      refine hprev.trans (le_trans ?_ hsmall)
      apply mul_le_mul (Real.exp_le_exp.mpr (mul_le_mul_of_nonneg_left (by linarith) hΛ)) _
        (by have : 0 ≤ (t - t0) * (C * η) := mul_nonneg (by linarith) hCη
            linarith) (Real.exp_pos _).le
      have : (t - t0) * (C * η) ≤ (t1 - t0) * (C * η) := mul_le_mul_of_nonneg_right (by linarith) hCη
      linarith
    obtain ⟨htt, hst⟩ := hstep i t t' e e' ht ht' hee hee' hone
    have hd : 0 ≤ t' - t := by linarith
    have hexp2 : 1 + Λ * (t' - t) ≤ Real.exp (Λ * (t' - t)) := by linarith [Real.add_one_le_exp (Λ * (t' - t))]
    have hexp3 : 1 ≤ Real.exp (Λ * (t' - t0)) := Real.one_le_exp (mul_nonneg hΛ (by linarith))
    have hX : 0 ≤ Real.exp (Λ * (t - t0)) * ((t - t0) * (C * η) + i * ζ) :=
      mul_nonneg (Real.exp_pos _).le (add_nonneg (mul_nonneg (by linarith) hCη) hiz)
    calc e' ≤ (1 + Λ * (t' - t)) * e + C * (t' - t) * η + ζ := hst
      _ ≤ (1 + Λ * (t' - t)) * (Real.exp (Λ * (t - t0)) * ((t - t0) * (C * η) + i * ζ)) + C * (t' - t) * η + ζ := by
          have := mul_le_mul_of_nonneg_left hprev (by nlinarith : 0 ≤ 1 + Λ * (t' - t))
          linarith
      _ ≤ Real.exp (Λ * (t' - t)) * (Real.exp (Λ * (t - t0)) * ((t - t0) * (C * η) + i * ζ)) +
            Real.exp (Λ * (t' - t0)) * ((t' - t) * (C * η) + ζ) := by
          have a1 := mul_le_mul_of_nonneg_right hexp2 hX
          have a2 : 0 ≤ (t' - t) * (C * η) + ζ := add_nonneg (mul_nonneg hd hCη) hζ
          have a3 := mul_le_mul_of_nonneg_right hexp3 a2
          linarith
      _ = Real.exp (Λ * (t' - t0)) * ((t' - t0) * (C * η) + ((i + 1 : ℕ) : ℝ) * ζ) := by
          rw [← mul_assoc, ← Real.exp_add]
          have : Λ * (t' - t) + Λ * (t - t0) = Λ * (t' - t0) := by ring
          rw [this]
          push_cast
          ring

variable [FiniteDimensional ℝ E]

/-- one step of a method of order `p` near the exact solution, the stage equations `Y_i = h Σ a_ij f(y + Y_j)` being solved up to
residuals `r_i`: the residual contributes `h` times its size to the error, apart from its use in the update -/
theorem implicit_step_error {p : ℕ} (hp : 1 ≤ p) (hf : ContDiff ℝ p f) {u : ℝ → E} {t0 t1 : ℝ}
    (hu : ∀ t ∈ Icc t0 t1, HasDerivWithinAt u (f (u t)) (Icc t0 t1) t) {A : Fin s → Fin s → ℝ} {b : Fin s → ℝ} (ho : HasOrder A b p) :
    ∃ Λ C Γ h0 : ℝ, 0 ≤ Λ ∧ 0 ≤ C ∧ 0 ≤ Γ ∧ 0 < h0 ∧ ∀ (t h η : ℝ) (y : E) (K r : Fin s → E), t0 ≤ t → 0 ≤ h → h ≤ h0 → t + h ≤ t1 →
      ‖y - u t‖ ≤ 1 → (∀ i, ‖h • ∑ j, A i j • K j‖ ≤ 2) → (∀ i, ‖h • ∑ j, A i j • K j + r i‖ ≤ 2) → (∀ i, ‖r i‖ ≤ η) →
      (∀ i, K i = f (y + (h • ∑ j, A i j • K j + r i))) →
      ‖y + h • (∑ i, b i • K i) - u (t + h)‖ ≤ (1 + Λ * h) * ‖y - u t‖ + C * h ^ (p + 1) + Γ * h * η := by
  have hcu : ContinuousOn u (Icc t0 t1) := fun t ht => (hu t ht).continuousWithinAt
  obtain ⟨R, hR, hub⟩ := solution_bounded hcu
  obtain ⟨M, hM, hfb⟩ := bounded_deriv hf (Nat.zero_le p) (R + 3)
  have hfb : ∀ z, ‖z‖ ≤ R + 3 → ‖f z‖ ≤ M := fun z hz => by simpa using hfb z hz
  obtain ⟨L, hL, hLip⟩ := lipschitz_ball hp hf (R + 3)
  have hα := absSum_nonneg A
  set β := ∑ i, |b i| with hβ
  have hβ0 : 0 ≤ β := Finset.sum_nonneg fun _ _ => abs_nonneg _
  have hq : 0 < 2 * (absSum A * (M + L) + 1) := by positivity
  set h0 := 1 / (2 * (absSum A * (M + L) + 1)) with hh0
  have h0pos : 0 < h0 := by positivity
  have hsm : ∀ h, 0 ≤ h → h ≤ h0 → h ≤ 1 ∧ h * (absSum A * M) ≤ 1 ∧ h * (absSum A * L) ≤ 1 / 2 := by
    intro h h1 h2
    rw [hh0, le_div_iff₀ hq] at h2
    have e1 : 0 ≤ h * (absSum A * M) := by positivity
    have e2 : 0 ≤ h * (absSum A * L) := by positivity
    refine ⟨?_, ?_, ?_⟩ <;> nlinarith
  -- local errors of exact steps
  let X := {x : ℝ × ℝ × (Fin s → E) // (t0 ≤ x.1 ∧ 0 ≤ x.2.1 ∧ x.2.1 ≤ h0 ∧ x.1 + x.2.1 ≤ t1) ∧ (∀ i, ‖x.2.2 i‖ ≤ M) ∧
    ∀ i, x.2.2 i = f (u x.1 + x.2.1 • ∑ j, A i j • x.2.2 j)}
  have hle := local_error hf hu ho (X := X) (l := ⊤) (t := fun x => x.1.1) (h := fun x => x.1.2.1) (K := fun x => x.1.2.2)
    (Eventually.of_forall fun x => ⟨x.2.1.1, x.2.1.2.1, (hsm _ x.2.1.2.1 x.2.1.2.2.1).1, x.2.1.2.2.2⟩)
    (fun i => isBigO_one_of_bound (R := M) (Eventually.of_forall fun x => x.2.2.1 i)) (Eventually.of_forall fun x => x.2.2.2)
  rw [isBigO_top] at hle
  obtain ⟨C, hC⟩ := hle
  refine ⟨β * (2 * L), max C 0, β * (2 * L), h0, by positivity, le_max_right _ _, by positivity, h0pos, ?_⟩
  intro t h η y K r ht hh hle hth hy hK2 hKr hr hK
  obtain ⟨s1, s2, s3⟩ := hsm h hh hle
  have htm : t ∈ Icc t0 t1 := ⟨ht, by linarith⟩
  obtain ⟨K', hKM, hKb, hK'⟩ := implicit_stages_exist (f := f) (A := A) (R := R) (M := M) (L := L) (h := h) (y := u t)
    (fun z hz => hfb z (by linarith)) (fun z hz w hw => hLip z (by simp; linarith) w (by simp; linarith)) hL hM (hub t htm) hh s2 s3
  have hyR : ‖y‖ ≤ R + 1 := by
    have := norm_add_le (y - u t) (u t)
    rw [sub_add_cancel] at this
    linarith [hub t htm]
  have b1 : ∀ i, y + h • ∑ j, A i j • K j ∈ Metric.closedBall (0 : E) (R + 3) := fun i => by
    rw [mem_closedBall_zero_iff]
    exact (norm_add_le _ _).trans (by linarith [hK2 i])
  have b2 : ∀ i, y + (h • ∑ j, A i j • K j + r i) ∈ Metric.closedBall (0 : E) (R + 3) := fun i => by
    rw [mem_closedBall_zero_iff]
    exact (norm_add_le _ _).trans (by linarith [hKr i])
  have hdiff : ∀ i, ‖K i - K' i‖ ≤ 2 * (L * ‖y - u t‖ + L * η) := by
    intro i
    have hη : 0 ≤ η := (norm_nonneg _).trans (hr i)
    refine stages_diff (S := Metric.closedBall (0 : E) (R + 3)) hL hLip hh (mul_nonneg hL hη) s3 b1
      (fun i => by rw [mem_closedBall_zero_iff]; linarith [hKb i]) (fun i => ?_) hK' i
    have h1 := hLip _ (b2 i) _ (b1 i)
    rw [← hK i] at h1
    refine h1.trans (mul_le_mul_of_nonneg_left ?_ hL)
    rw [show y + (h • ∑ j, A i j • K j + r i) - (y + h • ∑ j, A i j • K j) = r i by abel]
    exact hr i
  have hloc := hC ⟨(t, h, K'), ⟨ht, hh, hle, hth⟩, hKM, hK'⟩
  simp only [Real.norm_of_nonneg (pow_nonneg hh _)] at hloc
  have e : y + h • (∑ i, b i • K i) - u (t + h) = (y - u t) + h • (∑ i, b i • (K i - K' i)) +
      (u t + h • (∑ i, b i • K' i) - u (t + h)) := by
    simp only [smul_sub, Finset.sum_sub_distrib]; abel
  rw [e]
  have n1 := norm_add_le ((y - u t) + h • (∑ i, b i • (K i - K' i))) (u t + h • (∑ i, b i • K' i) - u (t + h))
  have n2 := norm_add_le (y - u t) (h • (∑ i, b i • (K i - K' i)))
  have n3 : ‖h • (∑ i, b i • (K i - K' i))‖ ≤ h * (β * (2 * (L * ‖y - u t‖ + L * η))) := by
    rw [norm_smul, Real.norm_of_nonneg hh]
    exact mul_le_mul_of_nonneg_left (wsum_le b hdiff) hh
  have n4 : C * h ^ (p + 1) ≤ max C 0 * h ^ (p + 1) := mul_le_mul_of_nonneg_right (le_max_left _ _) (pow_nonneg hh _)
  calc _ ≤ ‖y - u t‖ + h * (β * (2 * (L * ‖y - u t‖ + L * η))) + max C 0 * h ^ (p + 1) := by linarith
    _ = _ := by ring

end Verif
