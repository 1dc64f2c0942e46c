import Verif.ErkQuiet
import Verif.Prop.ErkConverge

/-!
# Property C98: does tightening the tolerances make an adaptive run converge?
-/

namespace Verif
open Spec Set

variable {n : ℕ}

/-- The full statement: for every smooth problem with a solution on the whole interval and every initial step and `max_dt`, the final value of
an adaptive explicit run is as close to the solution as wanted once `abs_tol` and `rel_tol` are small enough. -/
def C98_claim (m : ℤ) : Prop :=
  ∀ (n : ℕ) (f : ℝ → Vec ℝ n → Vec ℝ n) (u : ℝ → Vec ℝ n) (t0 t1 dt maxDt : ℝ), t0 < t1 → 0 < dt →
    ContDiff ℝ (⊤ : ℕ∞) (fun q : ℝ × Vec ℝ n => f q.1 q.2) → (∀ t ∈ Icc t0 t1, HasDerivWithinAt u (f t (u t)) (Icc t0 t1) t) →
    ∀ ε > 0, ∃ τ > 0, ∀ (nd : Bool) (absTol relTol : ℝ) (oo : OutOpts) (fuel : ℕ) (out : ErkOutput ℝ n) (y : Vec ℝ n),
      0 < absTol → absTol ≤ τ → 0 ≤ relTol → relTol ≤ τ →
      erkOdeint nd f t0 t1 (u t0) ⟨true, relTol, absTol, maxDt, -1⟩ oo m dt fuel = some (.ret out) →
      out.yVals.getLast? = some y → ‖y - u t1‖ ≤ ε

/-- **C98, what actually happens.**  For every method with an embedded formula, every interval, every initial step, every `max_dt` and every
starting value there is a smooth right-hand side, depending on time only, whose solution moves by one over the interval, while for *every*
choice of positive `abs_tol` and nonnegative `rel_tol` the adaptive run returns SUCCESS at `t1` with nothing but the starting value recorded:
the right-hand side vanishes wherever the run looks. -/
theorem C98_blind {m : ℤ} (hm : m ∈ erkImplemented) (hb2 : (erkCoeffs m : SolverCoeffs ℝ).b2 ≠ []) {t0 t1 dt : ℝ} (maxDt : ℝ) (h01 : t0 < t1)
    (hdt : 0 < dt) (y0 : Vec ℝ n) :
    ∃ (g : ℝ → ℝ) (u : ℝ → Vec ℝ n), ContDiff ℝ (⊤ : ℕ∞) g ∧ u t0 = y0 ∧ (∀ t, HasDerivAt u (fun _ => g t) t) ∧ (∀ k, u t1 k = y0 k + 1) ∧
      ∀ (nd : Bool) (absTol relTol : ℝ) (oo : OutOpts), StreamOK oo → 0 < absTol → 0 ≤ relTol →
        ∃ fuel out, erkOdeint nd (fun t (_ : Vec ℝ n) _ => g t) t0 t1 y0 ⟨true, relTol, absTol, maxDt, -1⟩ oo m dt fuel = some (.ret out) ∧
          out.status = 0 ∧ out.tVals.getLast? = some t1 ∧ out.yVals.getLast? = some y0 ∧ ∀ y ∈ out.yVals, y = y0 := by
  obtain ⟨mo, -, hmo⟩ := shipped_order hm
  obtain ⟨K, hK⟩ := quiet_end (maxDt := maxDt) hm hb2 hdt h01 hmo
  obtain ⟨-, -, hns, -⟩ := shipped_facts hm
  obtain ⟨g, hsm, hg0, hgS, hgI⟩ := hidden_exists
    (insert t0 (quietNodes maxDt mo t0 t1 (clipDt t0 t1 dt) (erkCoeffs m : SolverCoeffs ℝ) K)) h01
  refine ⟨g, fun t k => y0 k + ∫ s in t0..t, g s, hsm, by simp, fun t => ?_, fun k => by simp only [hgI], ?_⟩
  · rw [hasDerivAt_pi]
    exact fun k => ((intervalIntegral.integral_hasDerivAt_right (hsm.continuous.intervalIntegrable _ _)
      (hsm.continuous.stronglyMeasurableAtFilter _ _) hsm.continuous.continuousAt).const_add (y0 k))
  intro nd absTol relTol oo hs ha hr
  set o : ErkOpts ℝ := ⟨true, relTol, absTol, maxDt, -1⟩ with ho
  obtain ⟨M, hM⟩ : ∃ M, ∀ t ∈ Icc t0 t1, ‖g t‖ ≤ M := isCompact_Icc.exists_bound_of_continuousOn hsm.continuous.continuousOn
  obtain ⟨fuel, out, hrun, hst⟩ := C20_adaptive_terminates (nd := nd) (f := fun t (_ : Vec ℝ n) _ => g t) (y0 := y0) (o := o) (oo := oo) (M := M) hm hs
    rfl hb2 ha hr (fun t _ _ h0 h1 => hM t ⟨h0, h1⟩) hdt h01
  have hst := hst (by simp [ho])
  obtain ⟨f1, f2, f3, f4⟩ := effOpts_fields o (erkCoeffs m : SolverCoeffs ℝ)
  have had : (effOpts o (erkCoeffs m : SolverCoeffs ℝ)).adaptive = true :=
    effOpts_adaptive.mpr ⟨rfl, fun h => hb2 (List.length_eq_zero_iff.mp h)⟩
  obtain ⟨mo', s, hmo', -, hreach, hout⟩ := erkGuts_ret (erkOdeint_ret hrun).2
  obtain rfl : mo' = mo := by rw [hmo] at hmo'; exact (Option.some.inj hmo').symm
  obtain ⟨k, -, hq⟩ := quiet_reach (K := K) had hns (fun _ => by funext k; exact hgS _ (Finset.mem_insert_self _ _)) (by rw [f3]; exact hK)
    (fun t ht y => by funext k; exact hgS _ (Finset.mem_insert_of_mem (by rw [f3] at ht; exact ht))) hreach
  have hall : ∀ y ∈ out.yVals, y = y0 := by
    rcases hout with ⟨-, rfl⟩ | ⟨-, h0, -⟩
    · exact hq.vals
    · rw [f4] at h0
      exact absurd h0 (by simp [ho])
  obtain ⟨-, -, -, tl, htl, hend⟩ := C11_odeint hrun (Or.inr ⟨hdt, h01⟩)
  have htl' : tl = t1 := by
    rcases hend with h | h
    · exact h.2
    · rw [hst] at h; exact absurd h.1 (by decide)
  have hpar := C10_odeint hrun
  refine ⟨fuel, out, hrun, hst, htl' ▸ htl, ?_, hall⟩
  cases h : out.yVals.getLast? with
  | some y => rw [hall y (List.mem_of_getLast? h)]
  | none =>
    rw [List.getLast?_eq_none_iff] at h
    rw [h] at hpar
    simp at hpar

/-- Dormand–Prince with the default initial step `1e-6` and no `max_dt` over `[0, 1]`: a solution that climbs from 0 to 1 is returned as
constant 0 whatever the tolerances. -/
example : ∃ (g : ℝ → ℝ) (u : ℝ → Vec ℝ 1), ContDiff ℝ (⊤ : ℕ∞) g ∧ u 0 = 0 ∧ (∀ t, HasDerivAt u (fun _ => g t) t) ∧ (∀ k, u 1 k = 0 + 1) ∧
      ∀ (nd : Bool) (absTol relTol : ℝ) (oo : OutOpts), StreamOK oo → 0 < absTol → 0 ≤ relTol →
        ∃ fuel out, erkOdeint nd (fun t (_ : Vec ℝ 1) _ => g t) 0 1 0 ⟨true, relTol, absTol, 0, -1⟩ oo 131 (1 / 10 ^ 6) fuel = some (.ret out) ∧
          out.status = 0 ∧ out.tVals.getLast? = some 1 ∧ out.yVals.getLast? = some 0 ∧ ∀ y ∈ out.yVals, y = 0 :=
  C98_blind (by decide) (by simp [erkCoeffs, dormandPrince54]) 0 one_pos (by positivity) 0

/-- **C98 is false** for every method with an embedded formula: the tolerances alone do not control the error. -/
theorem C98_refuted {m : ℤ} (hm : m ∈ erkImplemented) (hb2 : (erkCoeffs m : SolverCoeffs ℝ).b2 ≠ []) : ¬ C98_claim m := by
  intro hc
  obtain ⟨g, u, hsm, hu0, hu, hu1, hrun⟩ := C98_blind (n := 1) (dt := 1 / 10 ^ 6) hm hb2 0 one_pos (by positivity) 0
  obtain ⟨τ, hτ, key⟩ := hc 1 (fun t _ _ => g t) u 0 1 (1 / 10 ^ 6) 0 one_pos (by positivity)
    (contDiff_pi.mpr fun _ => hsm.comp contDiff_fst) (fun t _ => (hu t).hasDerivWithinAt) (1 / 2) (by norm_num)
  obtain ⟨fuel, out, h1, -, -, h4, -⟩ := hrun true τ 0 OutOpts.dflt (fun h => by revert h; decide) hτ le_rfl
  have h := key true τ 0 OutOpts.dflt fuel out 0 hτ le_rfl le_rfl hτ.le (by rw [hu0]; exact h1) h4
  have h' : ‖((0 : Vec ℝ 1) - u 1) 0‖ ≤ 1 / 2 := (norm_le_pi_norm _ _).trans h
  rw [Pi.sub_apply, hu1] at h'
  norm_num at h'

example : ¬ C98_claim 120 ∧ ¬ C98_claim 130 ∧ ¬ C98_claim 131 ∧ ¬ C98_claim 132 :=
  ⟨C98_refuted (by decide) (by simp [erkCoeffs, bogackiShampine32]), C98_refuted (by decide) (by simp [erkCoeffs, cashKarp54]),
    C98_refuted (by decide) (by simp [erkCoeffs, dormandPrince54]), C98_refuted (by decide) (by simp [erkCoeffs, fehlberg54])⟩

/-- **C98, what remains true.**  If `max_dt` and the initial step are tightened along with the tolerances, the adaptive run completes and its
final value converges to the solution.  Missing from the full statement: convergence when only the tolerances are tightened, which is false. -/
theorem C98_max_dt_partial {m : ℤ} {p : ℕ} (hm : m ∈ erkImplemented) (hp : (erkCoeffs m : SolverCoeffs ℝ).order = some (p : ℤ))
    (hb2 : (erkCoeffs m : SolverCoeffs ℝ).b2 ≠ []) {f : ℝ → Vec ℝ n → Vec ℝ n} {u : ℝ → Vec ℝ n} {t0 t1 : ℝ} (h01 : t0 < t1)
    (hf : ContDiff ℝ (⊤ : ℕ∞) fun q : ℝ × Vec ℝ n => f q.1 q.2)
    (hu : ∀ t ∈ Icc t0 t1, HasDerivWithinAt u (f t (u t)) (Icc t0 t1) t) :
    ∀ ε > 0, ∃ τ > 0, ∀ (nd : Bool) (absTol relTol maxDt dt : ℝ) (oo : OutOpts), StreamOK oo → 0 < absTol → 0 ≤ relTol → 0 < maxDt →
      maxDt ≤ τ → 0 < dt → dt ≤ maxDt →
      ∃ fuel out y, erkOdeint nd f t0 t1 (u t0) ⟨true, relTol, absTol, maxDt, -1⟩ oo m dt fuel = some (.ret out) ∧ out.status = 0 ∧
        out.tVals.getLast? = some t1 ∧ out.yVals.getLast? = some y ∧ ‖y - u t1‖ ≤ ε := by
  intro ε hε
  obtain ⟨C, h0, hC, hh0, key⟩ := C74_adaptive_completes hm hp (hf.of_le (by exact_mod_cast le_top)) h01 hu hb2
  have hp0 : p ≠ 0 := Nat.one_le_iff_ne_zero.mp (shipped_order_pos hm hp)
  refine ⟨min h0 (min 1 (ε / (C + 1))), by positivity, ?_⟩
  intro nd absTol relTol maxDt dt oo hs ha hr hmx hle hdt hdle
  obtain ⟨fuel, out, y, h1, h2, h3, h4, h5⟩ := key nd ⟨true, relTol, absTol, maxDt, -1⟩ oo dt hs rfl ha hr (by simp) hmx
    (hle.trans (min_le_left _ _)) hdt hdle
  refine ⟨fuel, out, y, h1, h2, h3, h4, h5.trans ?_⟩
  have e1 : maxDt ≤ 1 := hle.trans ((min_le_right _ _).trans (min_le_left _ _))
  have e2 : maxDt ≤ ε / (C + 1) := hle.trans ((min_le_right _ _).trans (min_le_right _ _))
  have e3 : maxDt ^ p ≤ maxDt := pow_le_of_le_one hmx.le e1 hp0
  have e4 : (C + 1) * maxDt ≤ ε := by rwa [le_div_iff₀' (by positivity)] at e2
  calc C * maxDt ^ p ≤ C * maxDt := mul_le_mul_of_nonneg_left e3 hC
    _ ≤ (C + 1) * maxDt := by nlinarith
    _ ≤ ε := e4

/-- `y' = y²` on `[0, 9/10]`, whose right-hand side is not bounded: the Dormand–Prince run completes and comes within any wanted distance. -/
example : ∀ ε > 0, ∃ τ > 0, ∀ (nd : Bool) (absTol relTol maxDt dt : ℝ) (oo : OutOpts), StreamOK oo → 0 < absTol → 0 ≤ relTol → 0 < maxDt →
      maxDt ≤ τ → 0 < dt → dt ≤ maxDt →
      ∃ fuel out y, erkOdeint nd (fun (_ : ℝ) (y : Vec ℝ 1) (i : Fin 1) => y i ^ 2) 0 (9 / 10) (fun _ => 1 / (1 - 0)) ⟨true, relTol, absTol, maxDt, -1⟩ oo 131 dt fuel
        = some (.ret out) ∧ out.status = 0 ∧
        out.tVals.getLast? = some (9 / 10) ∧ out.yVals.getLast? = some y ∧ ‖y - (fun _ => 1 / (1 - 9 / 10))‖ ≤ ε :=
  C98_max_dt_partial (p := 5) (u := fun (t : ℝ) (_ : Fin 1) => 1 / (1 - t)) (by decide) (by simp [erkCoeffs, dormandPrince54]) (by simp [erkCoeffs, dormandPrince54])
    (by norm_num) (by fun_prop) blowup_solution

end Verif
