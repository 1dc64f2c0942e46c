import Verif.ErkStepCount
import Verif.Prop.ErkConverge

/-!
# Properties C75 and C76: order of the error estimate, step sizes and number of steps of the adaptive explicit integrator
-/

namespace Verif
open Spec Set
variable {n : ℕ} {f : ℝ → Vec ℝ n → Vec ℝ n} {u : ℝ → Vec ℝ n} {t0 t1 : ℝ} {m : ℤ} {p p2 : ℕ}

/-- **C75.**  Let `p` and `p2` be the declared orders of the method and of its embedded weights.  Near a solution the error estimate
recorded with an accepted step of size `h` is at most `M h^(min p p2 + 1)`; `M` depends on the problem and the method only. -/
theorem C75_estimate_order (hm : m ∈ erkImplemented) (hp : (erkCoeffs m : SolverCoeffs ℝ).order = some (p : ℤ))
    (hp2 : (erkCoeffs m : SolverCoeffs ℝ).order2 = some (p2 : ℤ)) (hb2 : (erkCoeffs m : SolverCoeffs ℝ).b2 ≠ [])
    (hf : ContDiff ℝ p fun q : ℝ × Vec ℝ n => f q.1 q.2) (h01 : t0 < t1)
    (hu : ∀ t ∈ Icc t0 t1, HasDerivWithinAt u (f t (u t)) (Icc t0 t1) t) :
    ∃ M h0 : ℝ, 0 < M ∧ 0 < h0 ∧ ∀ (nd : Bool) (o : ErkOpts ℝ) (oo : OutOpts) (dt : ℝ) (fuel : ℕ) (out : ErkOutput ℝ n),
      o.adaptive = true → 0 < o.absTol → 0 ≤ o.relTol → 0 < o.maxDt → o.maxDt ≤ h0 → 0 < dt → dt ≤ o.maxDt →
      erkOdeint nd f t0 t1 (u t0) o oo m dt fuel = some (.ret out) → ∀ (i : ℕ) (t t' : ℝ), out.tVals[i]? = some t →
      out.tVals[i + 1]? = some t' → ∃ ee, out.errEst[i + 1]? = some ee ∧ ‖ee‖ ≤ M * (t' - t) ^ (min p p2 + 1) := by
  obtain ⟨p2', h2, ho2, hmo, h4⟩ := shipped_embedded hm hp hb2
  obtain rfl : p2 = p2' := by rw [hp2] at h2; exact Int.ofNat.inj (Option.some.inj h2)
  obtain ⟨M, h0, hM, hh0, key⟩ := adaptive_steps (shipped_order_pos hm hp) hf h01 hu hm (shipped_hasOrder hm hp) ho2
    (min_le_left _ _) hb2 hmo h4
  exact ⟨M, h0, hM, hh0, fun nd o oo dt fuel out a1 a2 a3 a4 a5 a6 a7 hr i t t' ht ht' =>
    (key nd o oo dt fuel out a1 a2 a3 a4 a5 a6 a7 hr i t t' ht ht').2⟩

/-- **C76.**  Near a solution every accepted step other than the one ending at `t1` is at least
`min dt (min max_dt (c abs_tol^(1/(q+1))))`, `q` being the smaller declared order, and so the number of samples is at most the length of
the interval divided by that bound, plus two; `c` depends on the problem and the method only. -/
theorem C76_step_count (hm : m ∈ erkImplemented) (hp : (erkCoeffs m : SolverCoeffs ℝ).order = some (p : ℤ))
    (hp2 : (erkCoeffs m : SolverCoeffs ℝ).order2 = some (p2 : ℤ)) (hb2 : (erkCoeffs m : SolverCoeffs ℝ).b2 ≠ [])
    (hf : ContDiff ℝ p fun q : ℝ × Vec ℝ n => f q.1 q.2) (h01 : t0 < t1)
    (hu : ∀ t ∈ Icc t0 t1, HasDerivWithinAt u (f t (u t)) (Icc t0 t1) t) :
    ∃ c h0 : ℝ, 0 < c ∧ 0 < h0 ∧ ∀ (nd : Bool) (o : ErkOpts ℝ) (oo : OutOpts) (dt : ℝ) (fuel : ℕ) (out : ErkOutput ℝ n),
      o.adaptive = true → 0 < o.absTol → 0 ≤ o.relTol → 0 < o.maxDt → o.maxDt ≤ h0 → 0 < dt → dt ≤ o.maxDt →
      erkOdeint nd f t0 t1 (u t0) o oo m dt fuel = some (.ret out) →
      (∀ (i : ℕ) (t t' : ℝ), out.tVals[i]? = some t → out.tVals[i + 1]? = some t' →
        min dt (min o.maxDt (c * o.absTol ^ ((1 : ℝ) / (1 + (min p p2 : ℕ))))) ≤ t' - t ∨ t' = t1) ∧
      (out.tVals.length : ℝ) ≤
        (t1 - t0) / min dt (min o.maxDt (c * o.absTol ^ ((1 : ℝ) / (1 + (min p p2 : ℕ))))) + 2 := by
  obtain ⟨p2', h2, ho2, hmo, h4⟩ := shipped_embedded hm hp hb2
  obtain rfl : p2 = p2' := by rw [hp2] at h2; exact Int.ofNat.inj (Option.some.inj h2)
  obtain ⟨M, h0, hM, hh0, key⟩ := adaptive_steps (shipped_order_pos hm hp) hf h01 hu hm (shipped_hasOrder hm hp) ho2
    (min_le_left _ _) hb2 hmo h4
  set e : ℝ := (1 : ℝ) / (1 + (min p p2 : ℕ)) with he
  have hc : 0 < 9 / 10 * (1 / M) ^ e := mul_pos (by norm_num) (Real.rpow_pos_of_pos (by positivity) _)
  refine ⟨9 / 10 * (1 / M) ^ e, h0, hc, hh0, ?_⟩
  intro nd o oo dt fuel out a1 a2 a3 a4 a5 a6 a7 hr
  have hfl : stepFloor (min p p2) M o dt = min dt (min o.maxDt (9 / 10 * (1 / M) ^ e * o.absTol ^ e)) := by
    unfold stepFloor critStep
    rw [mul_assoc, ← Real.mul_rpow (by positivity) a2.le, one_div_mul_eq_div]
  have hsteps := fun i t t' ht ht' => (key nd o oo dt fuel out a1 a2 a3 a4 a5 a6 a7 hr i t t' ht ht').1
  rw [hfl] at hsteps
  refine ⟨hsteps, ?_⟩
  obtain ⟨hmono, hrange, -⟩ := C11_odeint hr (Or.inr ⟨a6, h01⟩)
  exact length_of_gaps (lt_min a6 (lt_min a4 (mul_pos hc (Real.rpow_pos_of_pos a2 _)))) hmono hrange hsteps h01.le

/-- hypotheses met by `y' = y²`, `y(0) = 1` on `[0, 9/10]` and Dormand–Prince (orders 5 and 4): the estimate is of order five -/
example : ∃ M h0 : ℝ, 0 < M ∧ 0 < h0 ∧ ∀ (nd : Bool) (o : ErkOpts ℝ) (oo : OutOpts) (dt : ℝ) (fuel : ℕ) (out : ErkOutput ℝ 1),
    o.adaptive = true → 0 < o.absTol → 0 ≤ o.relTol → 0 < o.maxDt → o.maxDt ≤ h0 → 0 < dt → dt ≤ o.maxDt →
    erkOdeint nd (fun _ y i => y i ^ 2) 0 (9 / 10) (fun _ => 1 / (1 - 0)) o oo 131 dt fuel = some (.ret out) →
    ∀ (i : ℕ) (t t' : ℝ), out.tVals[i]? = some t → out.tVals[i + 1]? = some t' →
      ∃ ee, out.errEst[i + 1]? = some ee ∧ ‖ee‖ ≤ M * (t' - t) ^ (min 5 4 + 1) :=
  C75_estimate_order (u := fun t _ => 1 / (1 - t)) (by decide) (by simp [erkCoeffs, dormandPrince54]) (by simp [erkCoeffs, dormandPrince54])
    (by simp [erkCoeffs, dormandPrince54]) (contDiff_pi.mpr fun i => ((contDiff_apply ℝ ℝ i).comp contDiff_snd).pow 2) (by norm_num)
    blowup_solution

/-- and with Cash–Karp the number of samples is of the order of `abs_tol^(-1/5)` -/
example : ∃ c h0 : ℝ, 0 < c ∧ 0 < h0 ∧ ∀ (nd : Bool) (o : ErkOpts ℝ) (oo : OutOpts) (dt : ℝ) (fuel : ℕ) (out : ErkOutput ℝ 1),
    o.adaptive = true → 0 < o.absTol → 0 ≤ o.relTol → 0 < o.maxDt → o.maxDt ≤ h0 → 0 < dt → dt ≤ o.maxDt →
    erkOdeint nd (fun _ y i => y i ^ 2) 0 (9 / 10) (fun _ => 1 / (1 - 0)) o oo 130 dt fuel = some (.ret out) →
    (out.tVals.length : ℝ) ≤ (9 / 10 - 0) / min dt (min o.maxDt (c * o.absTol ^ ((1 : ℝ) / (1 + (min 5 4 : ℕ))))) + 2 := by
  obtain ⟨c, h0, hc, hh0, key⟩ := C76_step_count (n := 1) (m := 130) (p := 5) (p2 := 4) (f := fun _ y i => y i ^ 2)
    (u := fun t _ => 1 / (1 - t)) (t0 := 0) (t1 := 9 / 10) (by decide) (by simp [erkCoeffs, cashKarp54]) (by simp [erkCoeffs, cashKarp54])
    (by simp [erkCoeffs, cashKarp54]) (contDiff_pi.mpr fun i => ((contDiff_apply ℝ ℝ i).comp contDiff_snd).pow 2) (by norm_num)
    blowup_solution
  exact ⟨c, h0, hc, hh0, fun nd o oo dt fuel out a1 a2 a3 a4 a5 a6 a7 hr => (key nd o oo dt fuel out a1 a2 a3 a4 a5 a6 a7 hr).2⟩

end Verif
