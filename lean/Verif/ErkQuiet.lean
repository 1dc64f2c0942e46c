import Verif.Prop.ErkTerm
import Mathlib.MeasureTheory.Integral.IntervalIntegral.FundThmCalculus
import Mathlib.Analysis.Calculus.ContDiff.Operations

/-!
# Adaptive explicit runs that see a right-hand side only where it vanishes
-/

namespace Verif
open Spec Set

variable {n : ℕ}

/-- A smooth nonnegative function with integral one over a given interval that vanishes on a given finite set. -/
theorem hidden_exists (S : Finset ℝ) {t0 t1 : ℝ} (h01 : t0 < t1) :
    ∃ g : ℝ → ℝ, ContDiff ℝ (⊤ : ℕ∞) g ∧ (∀ t, 0 ≤ g t) ∧ (∀ t ∈ S, g t = 0) ∧ ∫ t in t0..t1, g t = 1 := by
  set p : ℝ → ℝ := fun t => ∏ s ∈ S, (t - s) ^ 2 with hp
  have hsm : ContDiff ℝ (⊤ : ℕ∞) p := by
    rw [hp]
    exact contDiff_prod fun s _ => (contDiff_id.sub contDiff_const).pow 2
  have h0 : ∀ t, 0 ≤ p t := fun t => Finset.prod_nonneg fun s _ => sq_nonneg _
  have hz : ∀ t ∈ S, p t = 0 := fun t ht => Finset.prod_eq_zero ht (by simp)
  obtain ⟨c, hc, hcS⟩ : ∃ c ∈ Icc t0 t1, c ∉ S := by
    by_contra h
    push Not at h
    exact (Icc_infinite h01) (S.finite_toSet.subset fun c hc => h c hc)
  have hI : 0 < ∫ t in t0..t1, p t :=
    intervalIntegral.integral_pos h01 hsm.continuous.continuousOn (fun t _ => h0 t)
      ⟨c, hc, Finset.prod_pos fun s hs => by
        have : c - s ≠ 0 := sub_ne_zero.mpr fun e => hcS (e ▸ hs)
        positivity⟩
  refine ⟨fun t => (∫ t in t0..t1, p t)⁻¹ * p t, contDiff_const.mul hsm, fun t => mul_nonneg (inv_nonneg.mpr hI.le) (h0 t),
    fun t ht => by simp only [hz t ht, mul_zero], ?_⟩
  rw [intervalIntegral.integral_const_mul, inv_mul_cancel₀ hI.ne']

/-- the times and proposed steps of a run all of whose error estimates vanish -/
noncomputable def quiet (maxDt : ℝ) (mo : ℕ) (t0 t1 d : ℝ) : ℕ → ℝ × ℝ
  | 0 => (t0, d)
  | k + 1 =>
    let q := quiet maxDt mo t0 t1 d k
    (q.1 + clipDt q.1 t1 q.2, newDt (⟨true, 0, 0, maxDt, -1⟩ : ErkOpts ℝ) mo (clipDt q.1 t1 q.2) machinePrecision)

/-- the times at which the first `K` steps of such a run evaluate the right-hand side -/
noncomputable def quietNodes (maxDt : ℝ) (mo : ℕ) (t0 t1 d : ℝ) (sc : SolverCoeffs ℝ) (K : ℕ) : Finset ℝ :=
  (Finset.range K ×ˢ Finset.range sc.ns).image fun p =>
    (quiet maxDt mo t0 t1 d p.1).1 + sc.cn p.2 * clipDt (quiet maxDt mo t0 t1 d p.1).1 t1 (quiet maxDt mo t0 t1 d p.1).2

/-- state of a run that has seen nothing so far -/
structure Quiet (maxDt : ℝ) (mo : ℕ) (t0 t1 d : ℝ) (sc : SolverCoeffs ℝ) (y0 : Vec ℝ n) (s : ErkState ℝ n) (k : ℕ) : Prop where
  t : s.t = (quiet maxDt mo t0 t1 d k).1
  dt : s.dt = (quiet maxDt mo t0 t1 d k).2
  y : s.y = y0
  ks : ∀ i < stageStart sc, s.Ks i = 0
  vals : ∀ y ∈ s.sol.yVals, y = y0

theorem quiet_attempt {f : ℝ → Vec ℝ n → Vec ℝ n} {o : ErkOpts ℝ} {sc : SolverCoeffs ℝ} {mo : ℕ} {s : ErkState ℝ n} {dt : ℝ}
    {sol : ErkOutput ℝ n} (had : o.adaptive = true) (hk0 : ∀ i < stageStart sc, s.Ks i = 0)
    (hf : ∀ i < sc.ns, ∀ y, f (s.t + sc.cn i * dt) y = 0) :
    let a := attempt f o sc mo s dt sol
    (∀ i < sc.ns, a.Ks i = 0) ∧ a.yn = s.y ∧ a.reject = false ∧ a.newDt = newDt o mo dt machinePrecision := by
  intro a
  obtain ⟨L, -, -, -, -, hlo, hhi, hyn, -⟩ := attempt_sol f o sc mo s dt sol
  have hK : ∀ i < sc.ns, a.Ks i = 0 := by
    intro i hi
    by_cases h : i < stageStart sc
    · exact (hlo i h).trans (hk0 i h)
    · exact (hhi i (not_lt.mp h) hi).trans (hf i hi _)
  have hc : ∀ w k, combine sc a.Ks w k = 0 := by
    intro w k
    rw [combine_real]
    exact Finset.sum_eq_zero fun j hj => by rw [hK j (Finset.mem_range.mp hj)]; simp
  have hy : a.yn = s.y := by
    rw [show a.yn = _ from hyn]
    funext k
    show s.y k + dt * combine sc a.Ks sc.bw k = s.y k
    rw [hc, mul_zero, add_zero]
  have he : a.err = machinePrecision := by
    have h1 : a.err = errNorm n (errTot o s.y a.yn (fun k => dt * (combine sc a.Ks sc.bw2 k - combine sc a.Ks sc.bw k))) := by
      simp only [a, attempt, had, if_true]
    rw [h1]
    have : errTot o s.y a.yn (fun k => dt * (combine sc a.Ks sc.bw2 k - combine sc a.Ks sc.bw k)) = 0 := by
      rw [errTot_real]
      exact Finset.sum_eq_zero fun i _ => by rw [hc, hc]; simp
    rw [this, errNorm_real, zero_div, Real.sqrt_zero, max_eq_right mp_pos.le]
  have hr : a.reject = leb (lit 1) a.err := by simp only [a, attempt, had, if_true]
  have hn : a.newDt = newDt o mo dt a.err := by simp only [a, attempt, had, if_true]
  refine ⟨hK, hy, ?_, by rw [hn, he]⟩
  rw [hr, he]
  have := mp_lt_one
  simpa [lit_real] using this

theorem newDt_congr {o o' : ErkOpts ℝ} (h : o.maxDt = o'.maxDt) (mo : ℕ) (dt err : ℝ) : newDt o mo dt err = newDt o' mo dt err := by
  simp only [newDt, h]

theorem quiet_next {nd : Bool} {f : ℝ → Vec ℝ n → Vec ℝ n} {t0 t1 d : ℝ} {o : ErkOpts ℝ} {oo : OutOpts} {sc : SolverCoeffs ℝ} {mo K k : ℕ}
    {y0 : Vec ℝ n} {s s' : ErkState ℝ n} (had : o.adaptive = true) (hns : 0 < sc.ns) (hk : k < K)
    (hf : ∀ t ∈ quietNodes o.maxDt mo t0 t1 d sc K, ∀ y, f t y = 0)
    (hq : Quiet o.maxDt mo t0 t1 d sc y0 s k) (hb : erkBody nd f t1 o oo sc mo s = .next s') :
    Quiet o.maxDt mo t0 t1 d sc y0 s' (k + 1) := by
  have hcase := bodyCase nd f t1 o oo sc mo s
  rw [hb] at hcase
  have hnodes : ∀ i < sc.ns, ∀ y, f (s.t + sc.cn i * clipDt s.t t1 s.dt) y = 0 := by
    intro i hi y
    refine hf _ ?_ y
    rw [quietNodes, Finset.mem_image]
    exact ⟨(k, i), by simp [hk, hi], by rw [hq.t, hq.dt]⟩
  obtain ⟨hK, hy, hr, hn⟩ := quiet_attempt (mo := mo) (sol := s.sol.bump) had hq.ks hnodes
  obtain ⟨L, e, -⟩ := attempt_sol f o sc mo s (clipDt s.t t1 s.dt) s.sol.bump
  have hadt : (attempt f o sc mo s (clipDt s.t t1 s.dt) s.sol.bump).dt = clipDt s.t t1 s.dt := by simp [attempt, had]
  cases hcase with
  | accepted h hm hb2 a hA hE _ =>
    rw [attemptAt] at hA
    rw [← hA] at hK hy hr hn hadt e
    refine ⟨?_, ?_, ?_, ?_, ?_⟩
    · simp only [accept, quiet, hadt, hq.t, hq.dt]
    · simp only [accept, quiet, hn, hq.t, hq.dt]
      exact newDt_congr rfl _ _ _
    · simp only [accept, hy, hq.y]
    · intro i hi
      simp only [accept, fsalHook]
      rcases Bool.eq_false_or_eq_true sc.fsal with hs | hs
      · simp only [stageStart, hs, if_true] at hi
        obtain rfl : i = 0 := by omega
        simp only [hs, if_true, Function.update_self]
        exact hK _ (by omega)
      · simp [stageStart, hs] at hi
    · intro y hmem
      have hv : a.sol.yVals = s.sol.yVals := by rw [e]; rfl
      have hl : (a.sol.line oo s.t a.yn).yVals = a.sol.yVals := by unfold ErkOutput.line; split <;> rfl
      simp only [accept, hl, hv, List.mem_append, List.mem_singleton] at hmem
      rcases hmem with hmem | rfl
      · exact hq.vals y hmem
      · rw [hy, hq.y]
  | rejected h hm hb2 a hA hE _ hr' =>
    rw [attemptAt] at hA
    rw [← hA, hr'] at hr
    exact absurd hr (by decide)

theorem quiet_init {f : ℝ → Vec ℝ n → Vec ℝ n} {t0 t1 d : ℝ} {maxDt : ℝ} {sc : SolverCoeffs ℝ} {mo : ℕ} {y0 : Vec ℝ n}
    (hf : sc.fsal = true → f t0 y0 = 0) : Quiet maxDt mo t0 t1 d sc y0 (erkInit f t0 y0 d sc) 0 := by
  rcases Bool.eq_false_or_eq_true sc.fsal with hs | hs
  · refine ⟨?_, ?_, ?_, ?_, ?_⟩ <;> simp [erkInit, hs, quiet, evalFun, stageStart, hf hs]
  · refine ⟨?_, ?_, ?_, ?_, ?_⟩ <;> simp [erkInit, hs, quiet, stageStart]

/-- every state of a run is quiet as long as the right-hand side vanishes at the nodes -/
theorem quiet_reach {nd : Bool} {f : ℝ → Vec ℝ n → Vec ℝ n} {t0 t1 d : ℝ} {o : ErkOpts ℝ} {oo : OutOpts} {sc : SolverCoeffs ℝ} {mo : ℕ}
    {y0 : Vec ℝ n} {s : ErkState ℝ n} (had : o.adaptive = true) (hns : 0 < sc.ns) {K : ℕ} (hf0 : sc.fsal = true → f t0 y0 = 0)
    (hK : ¬ (quiet o.maxDt mo t0 t1 d K).1 < t1)
    (hf : ∀ t ∈ quietNodes o.maxDt mo t0 t1 d sc K, ∀ y, f t y = 0)
    (hr : Reach (erkBody nd f t1 o oo sc mo) (erkInit f t0 y0 d sc) s) :
    ∃ k ≤ K, Quiet o.maxDt mo t0 t1 d sc y0 s k := by
  refine hr.inv (Inv := fun s => ∃ k ≤ K, Quiet o.maxDt mo t0 t1 d sc y0 s k) ⟨0, Nat.zero_le _, quiet_init hf0⟩ ?_
  rintro a b ⟨k, hk, hq⟩ hb
  have hlt : a.t < t1 := by
    by_contra h
    have : ltb a.t t1 = false := by
      by_contra h'
      exact h ((ltb_real _ _).mp (by simpa using h'))
    unfold erkBody at hb
    rw [this] at hb
    simp at hb
  have hkK : k < K := lt_of_le_of_ne hk fun e => by subst e; exact hK (hq.t ▸ hlt)
  exact ⟨k + 1, hkK, quiet_next had hns hkK hf hq hb⟩

/-- a run of the zero right-hand side reaches the end of the interval -/
theorem quiet_end {m : ℤ} (hm : m ∈ erkImplemented) (hb2 : (erkCoeffs m : SolverCoeffs ℝ).b2 ≠ []) {t0 t1 dt maxDt : ℝ} (hdt : 0 < dt)
    (h01 : t0 < t1) {mo : ℕ} (hmo : minOrder (erkCoeffs m : SolverCoeffs ℝ) = some mo) :
    ∃ K, ¬ (quiet maxDt mo t0 t1 (clipDt t0 t1 dt) K).1 < t1 := by
  by_contra hcon
  push Not at hcon
  set o : ErkOpts ℝ := ⟨true, 1, 1, maxDt, -1⟩ with ho
  obtain ⟨fuel, out, hrun, -⟩ := C20_adaptive_terminates (n := 1) (nd := true) (f := fun _ _ => 0) (y0 := 0) (o := o) (oo := OutOpts.dflt) (M := 0) hm
    (fun h => by revert h; decide) rfl hb2 (by simp [ho]) (by simp [ho]) (by simp) hdt h01
  obtain ⟨f1, f2, f3, f4⟩ := effOpts_fields o (erkCoeffs m : SolverCoeffs ℝ)
  have had : (effOpts o (erkCoeffs m : SolverCoeffs ℝ)).adaptive = true :=
    effOpts_adaptive.mpr ⟨rfl, fun h => hb2 (List.length_eq_zero_iff.mp h)⟩
  obtain ⟨mo', s, hmo', -, hreach, hout⟩ := erkGuts_ret (erkOdeint_ret hrun).2
  obtain rfl : mo' = mo := by rw [hmo] at hmo'; exact (Option.some.inj hmo').symm
  obtain ⟨-, -, hns, -⟩ := shipped_facts hm
  have hinv : ∃ k, Quiet maxDt mo' t0 t1 (clipDt t0 t1 dt) (erkCoeffs m) 0 s k := by
    refine hreach.inv (Inv := fun s => ∃ k, Quiet maxDt mo' t0 t1 (clipDt t0 t1 dt) (erkCoeffs m) 0 s k) ⟨0, quiet_init fun _ => rfl⟩ ?_
    rintro a b ⟨k, hq⟩ hb
    have hq' : Quiet (effOpts o (erkCoeffs m : SolverCoeffs ℝ)).maxDt mo' t0 t1 (clipDt t0 t1 dt) (erkCoeffs m) 0 a k := by rw [f3]; exact hq
    have := quiet_next had hns (Nat.lt_succ_self k) (fun _ _ _ => rfl) hq' hb
    rw [f3] at this
    exact ⟨k + 1, this⟩
  obtain ⟨k, hq⟩ := hinv
  rcases hout with ⟨h, -⟩ | ⟨-, h0, -⟩
  · have := (ltb_real s.t t1).mpr (hq.t ▸ hcon k)
    rw [h] at this
    exact absurd this (by decide)
  · rw [f4] at h0
    exact absurd h0 (by simp [ho])

end Verif
