import Verif.IrkQuiet
import Verif.Prop.ErkTolerance

/-!
# Property C98 for the implicit integrator
-/

namespace Verif
open Spec Set

variable {n : ℕ}

/-- the options of an adaptive implicit run without step limit -/
def adaptiveI (relTol absTol maxDt : ℝ) (no : NewtonOpts ℝ) : IrkOpts ℝ := ⟨true, relTol, absTol, maxDt, -1, some no⟩

/-- The full statement for the implicit methods: the final value is as close to the solution as wanted once `abs_tol`, `rel_tol` and the two
tolerances of Newton's method are small enough. -/
def C98_implicit_claim (m : ℤ) : Prop :=
  ∀ (n : ℕ) (fn : OdeFun ℝ n) (u : ℝ → Vec ℝ n) (t0 t1 dt maxDt : ℝ) (maxit : ℤ), t0 < t1 → 0 < dt → 2 ≤ maxit →
    ContDiff ℝ (⊤ : ℕ∞) (fun q : ℝ × Vec ℝ n => fn.fn q.1 q.2) →
    (∀ t y, HasFDerivAt (fn.fn t) (Matrix.mulVecLin (Matrix.of (fn.jac t y))).toContinuousLinearMap y) →
    (∀ t ∈ Icc t0 t1, HasDerivWithinAt u (fn.fn t (u t)) (Icc t0 t1) t) →
    ∀ ε > 0, ∃ τ > 0, ∀ (absTol relTol : ℝ) (no : NewtonOpts ℝ) (fuel : ℕ)
      (out : IrkOutput ℝ ((irkCoeffs m : SolverCoeffs ℝ).ns * n) n) (y : Vec ℝ n),
      0 < absTol → absTol ≤ τ → 0 ≤ relTol → relTol ≤ τ → 0 < no.tol → no.tol ≤ τ → 0 < no.dxDelta → no.dxDelta ≤ τ → no.maxit = maxit →
      irkOdeint false laReal fn t0 t1 (u t0) (adaptiveI relTol absTol maxDt no) OutOpts.dflt m dt fuel = some (.ret out) →
      out.yVals.getLast? = some y → ‖y - u t1‖ ≤ ε

/-- **C98, implicit methods.**  For every implicit method that can be run, every interval, initial step, `max_dt`, Newton limit of at least two
and starting value there is a smooth right-hand side, depending on time only, whose solution moves by one over the interval, while for every choice
of the tolerances, those of Newton's method included, the adaptive run returns SUCCESS with nothing but the starting value recorded. -/
theorem C98_implicit_blind {m : ℤ} (hm : m ∈ ([210, 211, 212, 213, 230, 231, 232] : List ℤ)) (hn : 0 < n) {t0 t1 dt : ℝ} (maxDt : ℝ) {maxit : ℤ}
    (hmax : 2 ≤ maxit) (h01 : t0 < t1) (hdt : 0 < dt) (y0 : Vec ℝ n) :
    ∃ (g : ℝ → ℝ) (u : ℝ → Vec ℝ n), ContDiff ℝ (⊤ : ℕ∞) g ∧ u t0 = y0 ∧ (∀ t, HasDerivAt u (fun _ => g t) t) ∧ (∀ k, u t1 k = y0 k + 1) ∧
      ∀ (absTol relTol : ℝ) (no : NewtonOpts ℝ) (oo : OutOpts), 0 < absTol → 0 ≤ relTol → no.tol ≠ 0 → no.refreshJac ≠ 0 → no.maxit = maxit →
        oo.interval.toNat ≠ 0 → (oo.writeToFile = true → oo.streamSet = true) →
        ∃ fuel out, irkOdeint false laReal ⟨fun t _ _ => g t, fun _ _ _ _ => 0⟩ t0 t1 y0 (adaptiveI relTol absTol maxDt no) oo m dt fuel
            = some (.ret out) ∧ out.status = 0 ∧ (oo.storeInVectors = true → oo.interval.toNat = 1 → out.tVals.getLast? = some t1) ∧
          out.yVals.getLast? = some y0 ∧ ∀ y ∈ out.yVals, y = y0 := by
  have hm' : m ∈ irkUsable := hm
  -- the run of the zero right-hand side fixes the nodes
  set no1 : NewtonOpts ℝ := { (NewtonOpts.dflt : NewtonOpts ℝ) with maxit := maxit } with hno1
  obtain ⟨fuel1, out1, -, hg1, hst1, -⟩ := timeFun_completes (n := n) (g := fun _ => 0) (t0 := t0) (t1 := t1) (dt := dt) (y0 := y0)
    (o := adaptiveI 1 1 maxDt no1) (no := no1) (oo := OutOpts.dflt) hm' (fun _ => ⟨0, by simp⟩) hn h01 hdt rfl (by simp [adaptiveI]) rfl hmax
    (by simp [hno1, NewtonOpts.dflt]) (by simp [hno1, NewtonOpts.dflt]) (by simp [adaptiveI]) (by simp [adaptiveI]) (by decide) (by decide)
  obtain ⟨no', mo, Ai, s, hno', hmo, -, -, -, hreach, hdone⟩ := irkGuts_ret hg1
  obtain rfl : no' = no1 := (Option.some.inj hno').symm
  obtain ⟨K, hK⟩ : ∃ K, ¬ (quietI maxDt maxit mo t0 t1 (clipDt t0 t1 dt) K).t < t1 := by
    obtain ⟨k, hq⟩ : ∃ k, QuietI maxDt maxit mo t0 t1 (clipDt t0 t1 dt) y0 s k := by
      refine hreach.inv (Inv := fun s => ∃ k, QuietI maxDt maxit mo t0 t1 (clipDt t0 t1 dt) y0 s k) ⟨0, quietI_init⟩ ?_
      rintro a b ⟨k, hq⟩ hb
      exact ⟨k + 1, quietI_next (K := k + 1) (o := adaptiveI 1 1 maxDt no1) (no := no1) (show 1 < maxit by omega)
        (by simp [hno1, NewtonOpts.dflt]) (Nat.lt_succ_self k) (fun _ _ => rfl) hq hb⟩
    refine ⟨k, fun hlt => ?_⟩
    rw [← hq.t] at hlt
    have hc := bodyCaseI false laReal (timeFun fun _ => 0) t1 (adaptiveI 1 1 maxDt no1) no1 OutOpts.dflt (irkCoeffs m) mo
      (dWeights Ai fun i => (irkCoeffs m : SolverCoeffs ℝ).bw i) (dWeights Ai fun i => (irkCoeffs m : SolverCoeffs ℝ).bw2 i) s
    rw [hdone] at hc
    cases hc with
    | finished hf => rw [(ltb_real _ _).mpr hlt] at hf; cases hf
    | limit hl hm => exact absurd hm.1 (by simp [adaptiveI])
    | general hl hm r hr hs had' => cases had'
    | stop r hr => exact absurd rfl (hr out1)
  obtain ⟨g, hsm, hg0, hgS, hgI⟩ := hidden_exists
    (quietNodesI maxDt maxit mo t0 t1 (clipDt t0 t1 dt) (irkCoeffs m : SolverCoeffs ℝ) K) h01
  refine ⟨g, fun t k => y0 k + ∫ s in t0..t, g s, hsm, by simp, fun t => ?_, fun k => by simp only [hgI], ?_⟩
  · rw [hasDerivAt_pi]
    exact fun k => ((intervalIntegral.integral_hasDerivAt_right (hsm.continuous.intervalIntegrable _ _)
      (hsm.continuous.stronglyMeasurableAtFilter _ _) hsm.continuous.continuousAt).const_add (y0 k))
  intro absTol relTol no oo ha hr htol href hmx hi hw
  have hbd : TimeBounded (fun t (_ : Fin n) => g t) := by
    intro R
    obtain ⟨M, hM⟩ : ∃ M, ∀ t ∈ Icc (-R) R, ‖g t‖ ≤ M := isCompact_Icc.exists_bound_of_continuousOn hsm.continuous.continuousOn
    exact ⟨M, fun t ht _ => hM t (abs_le.mp ht)⟩
  obtain ⟨fuel, out, hrun, hguts, hst, -, hhead, hlast⟩ := timeFun_completes (n := n) (g := fun t _ => g t) (t0 := t0) (t1 := t1) (dt := dt) (y0 := y0)
    (o := adaptiveI relTol absTol maxDt no) (no := no) (oo := oo) hm' hbd hn h01 hdt rfl (by simp [adaptiveI]) rfl (by omega) htol href ha hr hi hw
  obtain ⟨no', mo', Ai', s', hno'', hmo', -, -, -, hreach', hdone'⟩ := irkGuts_ret hguts
  obtain rfl : no' = no := (Option.some.inj hno'').symm
  obtain rfl : mo' = mo := by rw [hmo] at hmo'; exact (Option.some.inj hmo').symm
  subst hmx
  obtain ⟨k, -, hq⟩ : ∃ k ≤ K, QuietI maxDt no'.maxit mo' t0 t1 (clipDt t0 t1 dt) y0 s' k := by
    refine hreach'.inv (Inv := fun s => ∃ k ≤ K, QuietI maxDt no'.maxit mo' t0 t1 (clipDt t0 t1 dt) y0 s k) ⟨0, Nat.zero_le _, quietI_init⟩ ?_
    rintro a b ⟨k, hk, hq⟩ hb
    have hkK : k < K := lt_of_le_of_ne hk fun e => by subst e; exact hK (hq.t ▸ irkBody_lt hb)
    exact ⟨k + 1, hkK, quietI_next (o := adaptiveI relTol absTol maxDt no') (show 1 < no'.maxit by omega) htol hkK
      (fun t ht => by funext k; exact hgS t ht) hq hb⟩
  have hall : ∀ y ∈ out.yVals, y = y0 := by
    have hc := bodyCaseI false laReal (timeFun fun t _ => g t) t1 (adaptiveI relTol absTol maxDt no') no' oo (irkCoeffs m) mo'
      (dWeights Ai' fun i => (irkCoeffs m : SolverCoeffs ℝ).bw i) (dWeights Ai' fun i => (irkCoeffs m : SolverCoeffs ℝ).bw2 i) s'
    rw [hdone'] at hc
    cases hc with
    | finished hf => exact hq.vals
    | limit hl hm => exact absurd hm.1 (by simp [adaptiveI])
    | general hl hm r hr hs had' => cases had'
    | stop r hr => exact absurd rfl (hr out)
  refine ⟨fuel, out, hrun, hst, hlast, ?_, hall⟩
  cases h : out.yVals.getLast? with
  | some y => rw [hall y (List.mem_of_getLast? h)]
  | none =>
    rw [List.getLast?_eq_none_iff] at h
    rw [h] at hhead
    simp at hhead

/-- RADAU_IIA_53 with the default initial step and default Newton limit over `[0, 1]`: a solution that climbs from 0 to 1 is returned as constant 0
whatever the tolerances. -/
example : ∃ (g : ℝ → ℝ) (u : ℝ → Vec ℝ 1), ContDiff ℝ (⊤ : ℕ∞) g ∧ u 0 = 0 ∧ (∀ t, HasDerivAt u (fun _ => g t) t) ∧ (∀ k, u 1 k = 0 + 1) ∧
      ∀ (absTol relTol : ℝ) (no : NewtonOpts ℝ) (oo : OutOpts), 0 < absTol → 0 ≤ relTol → no.tol ≠ 0 → no.refreshJac ≠ 0 → no.maxit = 5000 →
        oo.interval.toNat ≠ 0 → (oo.writeToFile = true → oo.streamSet = true) →
        ∃ fuel out, irkOdeint (n := 1) false laReal ⟨fun t _ _ => g t, fun _ _ _ _ => 0⟩ 0 1 0 (adaptiveI relTol absTol 0 no) oo 211 (1 / 10 ^ 6) fuel
            = some (.ret out) ∧ out.status = 0 ∧ (oo.storeInVectors = true → oo.interval.toNat = 1 → out.tVals.getLast? = some 1) ∧
          out.yVals.getLast? = some 0 ∧ ∀ y ∈ out.yVals, y = 0 :=
  C98_implicit_blind (by decide) one_pos 0 (by norm_num) one_pos (by positivity) 0

/-- **C98 is false** for the implicit methods too. -/
theorem C98_implicit_refuted {m : ℤ} (hm : m ∈ ([210, 211, 212, 213, 230, 231, 232] : List ℤ)) : ¬ C98_implicit_claim m := by
  intro hc
  obtain ⟨g, u, hsm, hu0, hu, hu1, hrun⟩ := C98_implicit_blind (n := 1) (dt := 1 / 10 ^ 6) (maxit := 5000) hm one_pos 0 (by norm_num) one_pos
    (by positivity) 0
  obtain ⟨τ, hτ, key⟩ := hc 1 ⟨fun t _ _ => g t, fun _ _ _ _ => 0⟩ u 0 1 (1 / 10 ^ 6) 0 5000 one_pos (by positivity) (by norm_num)
    (contDiff_pi.mpr fun _ => hsm.comp contDiff_fst)
    (fun t y => by
      have : (Matrix.mulVecLin (Matrix.of (fun _ _ => 0 : Mat ℝ 1))).toContinuousLinearMap = 0 := by
        ext v i
        simp [Matrix.mulVec, dotProduct]
      rw [this]
      exact hasFDerivAt_const _ _)
    (fun t _ => (hu t).hasDerivWithinAt) (1 / 2) (by norm_num)
  set no : NewtonOpts ℝ := { (NewtonOpts.dflt : NewtonOpts ℝ) with tol := τ, dxDelta := τ } with hno
  obtain ⟨fuel, out, h1, -, -, h4, -⟩ := hrun τ 0 no OutOpts.dflt hτ le_rfl hτ.ne' (by simp [hno, NewtonOpts.dflt]) rfl (by decide) (by decide)
  have h := key τ 0 no fuel out 0 hτ le_rfl le_rfl hτ.le hτ le_rfl hτ le_rfl rfl (by rw [hu0]; exact h1) h4
  have h' : ‖((0 : Vec ℝ 1) - u 1) 0‖ ≤ 1 / 2 := (norm_le_pi_norm _ _).trans h
  rw [Pi.sub_apply, hu1] at h'
  norm_num at h'

example : ¬ C98_implicit_claim 211 := C98_implicit_refuted (by decide)

end Verif
