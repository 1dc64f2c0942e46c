import Verif.IrkLoop
import Verif.Prop.IrkTerm
import Verif.Prop.TestEq

/-!
# Property C67: termination of the adaptive implicit integrator (and what of C63 holds for it)

In exact arithmetic, with exact linear algebra.  `C63_irk_refuted` shows that an iteration limit below 2 or a zero
tolerance makes the integrator run forever; here these are the only obstacles.
-/

set_option linter.unusedSectionVars false

namespace Verif
open Spec

variable {n : ℕ} {nd : Bool} {la : LinAlg ℝ} {fn : OdeFun ℝ n} {t0 t1 : ℝ} {y0 : Vec ℝ n} {o : IrkOpts ℝ}
  {no : NewtonOpts ℝ} {dt : ℝ} {sc : SolverCoeffs ℝ} {oo : OutOpts} {mo : ℕ} {d d2 : Vec ℝ sc.ns}

/-! ### helper lemmas -/

theorem guts_ends (hpos : nd = false ∨ (0 < dt ∧ t0 < t1))
    (hloop : ∀ no mo Ai, o.newtonOpts = some no → minOrder sc = some mo → la.inv sc.mat = some Ai →
      0 < clipDt t0 t1 dt → t0 < t1 →
      ∃ fuel r, runLoop (irkBody nd la fn t1 o no oo sc mo (dWeights Ai fun i => sc.bw i) (dWeights Ai fun i => sc.bw2 i))
        fuel (irkInit (sc.ns * n) t0 y0 (clipDt t0 t1 dt) no.maxit) = some r) :
    ∃ fuel r, irkGuts nd la fn t0 t1 y0 o dt sc oo fuel = some r := by
  unfold irkGuts
  simp only
  cases hno : o.newtonOpts with
  | none => exact ⟨0, _, rfl⟩
  | some no =>
    simp only
    by_cases hA : (!nd && !ltb (lit 0) (clipDt t0 t1 dt)) = true
    · exact ⟨0, .assertFail, by rw [if_pos hA]⟩
    have hv : 0 < clipDt t0 t1 dt ∧ t0 < t1 := by
      rcases hpos with h | ⟨h1, h2⟩
      · rw [h] at hA
        have hc : 0 < clipDt t0 t1 dt := by simpa using hA
        refine ⟨hc, ?_⟩
        rw [clipDt_real, lt_min_iff] at hc
        linarith [hc.2]
      · exact ⟨by rw [clipDt_real]; exact lt_min h1 (by linarith), h2⟩
    cases hmo : minOrder sc with
    | none => exact ⟨0, .ub, by rw [if_neg hA]⟩
    | some mo =>
      by_cases hB : sc.nRows ≠ sc.ns ∨ sc.nCols ≠ sc.ns
      · exact ⟨0, .throws, by rw [if_neg hA]; exact if_pos hB⟩
      cases hAi : la.inv sc.mat with
      | none => exact ⟨0, .throws, by rw [if_neg hA]; exact if_neg hB⟩
      | some Ai =>
        by_cases hC : sc.b2.length ≠ sc.ns
        · exact ⟨0, .throws, by rw [if_neg hA]; exact (if_neg hB).trans (if_pos hC)⟩
        obtain ⟨fuel, r, h⟩ := hloop no mo Ai hno hmo hAi hv.1 hv.2
        exact ⟨fuel, r, by rw [if_neg hA]; exact (if_neg hB).trans ((if_neg hC).trans h)⟩

theorem goodI_init (h01 : t0 ≤ t1) (hdt : 0 < dt) {mx : ℤ} (hmx : 2 ≤ mx) :
    GoodI (sc := sc) t0 t1 (irkInit (sc.ns * n) t0 y0 dt mx) := ⟨timeInvI_init h01 hdt mx, hmx⟩

/-- steps small enough for everything -/
theorem small_exists (sc : SolverCoeffs ℝ) (d d2 : Vec ℝ sc.ns) (n : ℕ) {Jb M ρ tol c : ℝ} (hJb : 0 ≤ Jb) (hM : 0 ≤ M)
    (hρ : 0 < ρ) (htol : tol ≠ 0) (hc : 0 ≤ c) :
    ∃ h0 > 0, ∀ h, 0 ≤ h → h ≤ h0 → h * absA sc * Jb ≤ 1 / 2 ∧ h * |sc.gamma| * Jb ≤ 1 / 2 ∧
      2 * (h * absA sc * M) ≤ ρ ∧ 2 * errC sc d d2 * M * h ^ 2 ≤ ρ ∧
      (sc.ns * n) * (3 * (h * absA sc * M)) ^ 2 < tol ^ 2 ∧ absC sc * h ≤ ρ ∧ c * h ^ 2 ≤ 1 := by
  have hA := absA_nonneg sc
  have hC := absC_nonneg sc
  have hE := errC_nonneg sc d d2
  have hT : 0 < tol ^ 2 := by positivity
  set K : ℝ := absA sc * Jb + |sc.gamma| * Jb + 2 * absA sc * M + 2 * errC sc d d2 * M +
    (sc.ns * n) * (3 * (absA sc * M)) ^ 2 + absC sc + c with hK
  have k1 : 0 ≤ absA sc * Jb := by positivity
  have k2 : 0 ≤ |sc.gamma| * Jb := by positivity
  have k3 : 0 ≤ 2 * absA sc * M := by positivity
  have k4 : 0 ≤ 2 * errC sc d d2 * M := by positivity
  have k5 : 0 ≤ (sc.ns * n : ℝ) * (3 * (absA sc * M)) ^ 2 := by positivity
  have hK0 : 0 ≤ K := by positivity
  set ε : ℝ := min (1 / 2) (min ρ (tol ^ 2)) with hε
  have hε0 : 0 < ε := lt_min (by norm_num) (lt_min hρ hT)
  refine ⟨min 1 (ε / (K + 1)), lt_min one_pos (by positivity), ?_⟩
  intro h hh hle
  have h1 : h ≤ 1 := hle.trans (min_le_left _ _)
  have h2 : h ≤ ε / (K + 1) := hle.trans (min_le_right _ _)
  rw [le_div_iff₀ (by linarith)] at h2
  have hsq : h ^ 2 ≤ h := by nlinarith
  have e1 : ε ≤ 1 / 2 := min_le_left _ _
  have e2 : ε ≤ ρ := (min_le_right _ _).trans (min_le_left _ _)
  have e3 : ε ≤ tol ^ 2 := (min_le_right _ _).trans (min_le_right _ _)
  have hb : ∀ x, 0 ≤ x → x ≤ K → h * x ≤ ε := by
    intro x hx hxK
    have := mul_le_mul_of_nonneg_left hxK hh
    nlinarith
  have hb2 : ∀ x, 0 ≤ x → x ≤ K → x * h ^ 2 ≤ ε := by
    intro x hx hxK
    have := mul_le_mul_of_nonneg_left hsq hx
    have := hb x hx hxK
    linarith
  refine ⟨?_, ?_, ?_, ?_, ?_, ?_, ?_⟩
  · have := hb (absA sc * Jb) k1 (by rw [hK]; linarith)
    linarith
  · have := hb (|sc.gamma| * Jb) k2 (by rw [hK]; linarith)
    linarith
  · have := hb (2 * absA sc * M) k3 (by rw [hK]; linarith)
    linarith
  · have := hb2 (2 * errC sc d d2 * M) k4 (by rw [hK]; linarith)
    linarith
  · rcases eq_or_lt_of_le hh with h3 | h3
    · rw [← h3]; simpa using hT
    · have h4 : ((sc.ns * n : ℝ) * (3 * (absA sc * M)) ^ 2) * h ^ 2 < tol ^ 2 := by
        have h5 : (sc.ns * n : ℝ) * (3 * (absA sc * M)) ^ 2 ≤ K := by rw [hK]; linarith
        have h6 := mul_le_mul_of_nonneg_left hsq k5
        have h7 := mul_le_mul_of_nonneg_left h5 hh
        nlinarith
      calc (sc.ns * n : ℝ) * (3 * (h * absA sc * M)) ^ 2 = ((sc.ns * n : ℝ) * (3 * (absA sc * M)) ^ 2) * h ^ 2 := by ring
        _ < tol ^ 2 := h4
  · have := hb (absC sc) hC (by rw [hK]; linarith)
    linarith
  · have := hb2 c hc (by rw [hK]; linarith)
    linarith

/-- bounds near a state make it tame for small steps -/
theorem tame_of_bounded (hla : la.Exact) (hs : la.Sound) (hat : 0 < o.absTol) (hrt : 0 ≤ o.relTol) (htol : no.tol ≠ 0)
    (d d2 : Vec ℝ sc.ns) (mo : ℕ) {Jb M ρ : ℝ} (hJb : 0 ≤ Jb) (hM : 0 ≤ M) (hρ : 0 < ρ) :
    ∃ h0 > 0, ∃ C ≥ 0, (∀ h, 0 ≤ h → h ≤ h0 → C * h ^ 2 ≤ 1) ∧ ∀ s : IrkState ℝ (sc.ns * n) n, GoodI t0 t1 s → s.t < t1 →
      (∀ q, ∑ l, |fn.jac s.t s.y q l| ≤ Jb) → BoundedNear fn s.t s.y (min ρ (absC sc * clipDt s.t t1 s.dt)) ρ M →
      clipDt s.t t1 s.dt ≤ h0 → TameI nd la fn t1 o no sc mo d d2 C s := by
  have hE := errC_nonneg sc d d2
  have hC : 0 ≤ 2 * errC sc d d2 * M / o.absTol := by positivity
  obtain ⟨h0, hh0, H⟩ := small_exists sc d d2 n hJb hM hρ htol hC
  refine ⟨h0, hh0, _, hC, fun h h1 h2 => (H h h1 h2).2.2.2.2.2.2, ?_⟩
  intro s hg hlt hJ hb hle r hr
  have hp := (clip_factsI hg.time hlt).1.le
  obtain ⟨c1, c2, c3, c4, c5, c6, -⟩ := H _ hp hle
  rw [min_eq_right c6] at hb
  obtain ⟨g1, g2, g3, g4⟩ := small_stage hla hs hr hg.maxit hp hJ hM hρ.le hb c1 c3 c5
  refine ⟨g1, g2, fun a ha => ?_⟩
  refine small_attempt hla hat hrt ha hp (Jb := Jb) (ρ := ρ) (fun q => ?_) hM hρ.le ?_ g4 c2 c4
  · change ∑ l, |r.J q l| ≤ Jb
    rw [g3]; exact hJ q
  · intro t' y' h1 h2
    exact hb t' y' (h1.trans (mul_nonneg (absC_nonneg sc) hp)) h2

/-! ### C63 for the implicit integrator: runs with a step limit -/

/-- every point has a neighbourhood on which the right-hand side is bounded -/
def LocallyBounded (f : ℝ → Vec ℝ n → Vec ℝ n) : Prop :=
  ∀ (t : ℝ) (y : Vec ℝ n), ∃ ρ > 0, ∃ M : ℝ, ∀ (t' : ℝ) (y' : Vec ℝ n), |t' - t| ≤ ρ → (∀ k, |y' k - y k| ≤ ρ) → ∀ k, |f t' y' k| ≤ M

/-- continuous right-hand sides are locally bounded -/
theorem locallyBounded_of_continuous {f : ℝ → (Fin n → ℝ) → (Fin n → ℝ)} (hf : Continuous fun p : ℝ × (Fin n → ℝ) => f p.1 p.2) :
    LocallyBounded f := by
  intro t y
  obtain ⟨ρ, hρ, H⟩ := Metric.continuousAt_iff.mp (hf.continuousAt (x := (t, y))) 1 one_pos
  refine ⟨ρ / 2, by positivity, ‖f t y‖ + 1, fun t' y' h1 h2 k => ?_⟩
  have hd : dist (t', y') (t, y) < ρ := by
    rw [Prod.dist_eq, max_lt_iff]
    constructor
    · rw [Real.dist_eq]; linarith
    · have : dist y' y ≤ ρ / 2 := (dist_pi_le_iff (by positivity)).mpr fun k => by rw [Real.dist_eq]; exact h2 k
      change dist y' y < ρ
      linarith
  have h3 := H hd
  rw [dist_eq_norm] at h3
  have h4 := norm_le_pi_norm (f t' y') k
  rw [Real.norm_eq_abs] at h4
  have h5 : ‖f t' y'‖ ≤ ‖f t' y' - f t y‖ + ‖f t y‖ := by
    have := norm_add_le (f t' y' - f t y) (f t y)
    rwa [sub_add_cancel] at this
  simp only at h3
  linarith

/-- **C63 (implicit), what holds.**  With `max_steps ≥ 0`, a Newton iteration limit of at least 2, a non-zero Newton
tolerance, `abs_tol > 0` and `rel_tol ≥ 0` a run on any locally bounded right-hand side ends, for any tableau, any
Jacobi matrix function and with or without assertions.  Missing from the claim: limits below 2 and tolerances equal to
zero, for which it is false (`C63_irk_diverges`). -/
theorem C63_irk_terminates_partial (hla : la.Exact) (hs : la.Sound) (hpos : nd = false ∨ (0 < dt ∧ t0 < t1))
    (hms : 0 ≤ o.maxSteps) (hno : o.newtonOpts = some no) (hmax : 2 ≤ no.maxit) (htol : no.tol ≠ 0)
    (hat : 0 < o.absTol) (hrt : 0 ≤ o.relTol) (hf : LocallyBounded fn.fn) :
    ∃ fuel r, irkGuts nd la fn t0 t1 y0 o dt sc oo fuel = some r := by
  refine guts_ends hpos fun no' mo Ai hno' hmo hAi hc h01 => ?_
  rw [hno] at hno'
  cases hno'
  refine loop_ends_limit hms (by omega) (fun t y => ?_) _ (goodI_init h01.le hc hmax)
  obtain ⟨ρ, hρ, M, hM⟩ := hf t y
  obtain ⟨h0, hh0, C, hC, hC1, H⟩ := tame_of_bounded (t0 := t0) (t1 := t1) (nd := nd) (fn := fn) (sc := sc) hla hs hat hrt htol
    (dWeights Ai fun i => sc.bw i) (dWeights Ai fun i => sc.bw2 i) mo
    (Jb := ∑ q, ∑ l, |fn.jac t y q l|) (M := max M 0) (ρ := ρ)
    (Finset.sum_nonneg fun _ _ => Finset.sum_nonneg fun _ _ => abs_nonneg _) (le_max_right _ _) hρ
  refine ⟨h0, hh0, fun s s' hg e1 e2 hle hb => ?_⟩
  have hlt := (next_cases hg hb).1
  have hT := H s hg hlt (fun q => by
      rw [e1, e2]
      exact Finset.single_le_sum (f := fun q => ∑ l, |fn.jac t y q l|)
        (fun _ _ => Finset.sum_nonneg fun _ _ => abs_nonneg _) (Finset.mem_univ q))
    (fun t' y' h1 h2 k => by
      rw [e1] at h1
      rw [e2] at h2
      exact (hM t' y' (h1.trans (min_le_left _ _)) h2 k).trans (le_max_left _ _)) hle
  obtain ⟨-, ⟨-, -, -, -, ⟨r, hr, hst⟩ | ⟨r, a, hr, hst, ha, he⟩⟩ | ⟨-, f2, -⟩⟩ := next_cases hg hb
  · exact absurd (hT r hr).1 hst
  · exfalso
    have h1 := (hT r hr).2.2 a ha
    have h2 := hC1 _ (clip_factsI hg.time hlt).1.le hle
    have := max_le h2 mp_lt_one.le
    linarith
  · exact f2

/-! ### C67: runs without a step limit -/

/-- **C67 (bounded right-hand sides).**  With a bounded right-hand side and a bounded Jacobi matrix the adaptive
implicit integrator ends whatever `max_steps` is, for every interval, initial step, `max_dt` and initial value.  (The
minimal order of the pair must be below 371; it is at most 5 for the shipped ones.) -/
theorem C67_bounded (hla : la.Exact) (hs : la.Sound) (hpos : nd = false ∨ (0 < dt ∧ t0 < t1))
    (hno : o.newtonOpts = some no) (hmax : 2 ≤ no.maxit) (htol : no.tol ≠ 0)
    (hat : 0 < o.absTol) (hrt : 0 ≤ o.relTol)
    (hmo : ∀ mo, minOrder sc = some mo → (machinePrecision : ℝ) < (9 / 10) ^ (1 + mo))
    {M Jb : ℝ} (hf : ∀ t y k, |fn.fn t y k| ≤ M) (hJ : ∀ t y k l, |fn.jac t y k l| ≤ Jb) :
    ∃ fuel r, irkGuts nd la fn t0 t1 y0 o dt sc oo fuel = some r := by
  refine guts_ends hpos fun no' mo Ai hno' hmo' hAi hc h01 => ?_
  rw [hno] at hno'
  cases hno'
  refine loop_ends_tame (by omega) (hmo mo hmo') one_pos (fun s _ => ⟨fun _ => True, trivial, by simp, ?_⟩) _
    (goodI_init h01.le hc hmax)
  obtain ⟨h0, hh0, C, hC, hC1, H⟩ := tame_of_bounded (t0 := t0) (t1 := t1) (nd := nd) (fn := fn) (sc := sc) hla hs hat hrt htol
    (dWeights Ai fun i => sc.bw i) (dWeights Ai fun i => sc.bw2 i) mo
    (Jb := n * max Jb 0) (M := max M 0) (ρ := 1) (by positivity) (le_max_right _ _) one_pos
  refine ⟨h0, hh0, C, hC, fun s hg hlt _ hle => H s hg hlt (fun q => ?_) (fun t' y' _ _ k => ?_) hle⟩
  · calc ∑ l, |fn.jac s.t s.y q l| ≤ ∑ _l : Fin n, max Jb 0 :=
          Finset.sum_le_sum fun l _ => (hJ _ _ _ _).trans (le_max_left _ _)
      _ = n * max Jb 0 := by simp
  · exact (hf t' y' k).trans (le_max_left _ _)

/-- bounded on bounded time intervals -/
def TimeBounded (g : ℝ → Vec ℝ n) : Prop := ∀ R, ∃ G, ∀ t, |t| ≤ R → ∀ k, |g t k| ≤ G

/-- **C67 (linear systems).**  For `y' = J y + g(t)` with `g` bounded on bounded time intervals the adaptive implicit
integrator ends whatever `max_steps` is. -/
theorem C67_affine (hla : la.Exact) (hs : la.Sound) (hpos : nd = false ∨ (0 < dt ∧ t0 < t1))
    (hno : o.newtonOpts = some no) (hmax : 2 ≤ no.maxit) (htol : no.tol ≠ 0)
    (hat : 0 < o.absTol) (hrt : 0 ≤ o.relTol)
    (hmo : ∀ mo, minOrder sc = some mo → (machinePrecision : ℝ) < (9 / 10) ^ (1 + mo))
    {J : Matrix (Fin n) (Fin n) ℝ} {g : ℝ → Vec ℝ n} (hf : ∀ t y, fn.fn t y = J.mulVec y + g t)
    (hJ : ∀ t y i j, fn.jac t y i j = J i j) (hg : TimeBounded g) :
    ∃ fuel r, irkGuts nd la fn t0 t1 y0 o dt sc oo fuel = some r := by
  refine guts_ends hpos fun no' mo Ai hno' hmo' hAi hc h01 => ?_
  rw [hno] at hno'
  cases hno'
  set d := dWeights Ai fun i => sc.bw i with hd
  set d2 := dWeights Ai fun i => sc.bw2 i with hd2
  have hA := absA_nonneg sc
  have hCn := absC_nonneg sc
  obtain ⟨G, hG⟩ := hg (|t0| + |t1| + absC sc * (t1 - t0))
  set Jb : ℝ := ∑ q, ∑ l, |J q l| with hJb
  have hJb0 : 0 ≤ Jb := Finset.sum_nonneg fun _ _ => Finset.sum_nonneg fun _ _ => abs_nonneg _
  have hrow : ∀ q, ∑ l, |J q l| ≤ Jb := fun q => Finset.single_le_sum (f := fun q => ∑ l, |J q l|)
    (fun _ _ => Finset.sum_nonneg fun _ _ => abs_nonneg _) (Finset.mem_univ q)
  have hjac : ∀ t y q, ∑ l, |fn.jac t y q l| ≤ Jb := fun t y q => by simpa only [hJ] using hrow q
  set G' : ℝ := max G 0 with hG'
  have hG0 : 0 ≤ G' := le_max_right _ _
  have hfb : ∀ t t' (y : Vec ℝ n) (B : ℝ), t0 ≤ t → t ≤ t1 → |t' - t| ≤ absC sc * (t1 - t0) → 0 ≤ B → (∀ k, |y k| ≤ B) →
      ∀ k, |fn.fn t' y k| ≤ Jb * B + G' := by
    intro t t' y B h1 h2 h3 hB hy k
    rw [hf]
    refine (abs_add_le _ _).trans (add_le_add ?_ ?_)
    · exact abs_sum_mul_le _ _ (hrow k) hy hB
    · refine (hG t' ?_ k).trans (le_max_left _ _)
      have h4 : |t| ≤ |t0| + |t1| := by
        rw [abs_le]
        constructor
        · linarith [neg_abs_le t0, abs_nonneg t1]
        · linarith [le_abs_self t1, abs_nonneg t0]
      have h5 : |t'| ≤ |t' - t| + |t| := by
        have := abs_add_le (t' - t) t
        rwa [sub_add_cancel] at this
      linarith
  have hclip : ∀ s : IrkState ℝ (sc.ns * n) n, GoodI t0 t1 s → clipDt s.t t1 s.dt ≤ t1 - t0 := by
    intro s h
    rw [clipDt_real]
    exact (min_le_right _ _).trans (by linarith [h.time.lo])
  have hAW := absW_nonneg d
  set K : ℝ := absW d * (2 * absA sc * (Jb + G')) with hK
  have hK0 : 0 ≤ K := by positivity
  obtain ⟨h1, hh1, hsm1⟩ : ∃ h1 > 0, h1 * absA sc * Jb ≤ 1 / 2 := by
    refine ⟨1 / (2 * (absA sc * Jb + 1)), by positivity, ?_⟩
    have : 0 ≤ absA sc * Jb := by positivity
    rw [mul_assoc, div_mul_eq_mul_div, div_le_iff₀ (by positivity)]
    linarith
  refine loop_ends_tame (by omega) (hmo mo hmo') hh1 (fun s0 hs0 => ?_) _ (goodI_init h01.le hc hmax)
  refine ⟨fun s => ∀ k, |s.y k| + 1 ≤ (∑ l, |s0.y l| + 1) * Real.exp (K * (s.t - s0.t)), ?_, ?_, ?_⟩
  · intro k
    rw [sub_self, mul_zero, Real.exp_zero, mul_one]
    have := Finset.single_le_sum (f := fun l => |s0.y l|) (fun _ _ => abs_nonneg _) (Finset.mem_univ k)
    linarith
  · intro s s' hg hP hb hle k
    obtain ⟨hlt, ⟨f1, f2, -⟩ | ⟨f1, -, r, a, e, hr, hst, ha⟩⟩ := next_cases hg hb
    · rw [f1, f2]; exact hP k
    · set h := clipDt s.t t1 s.dt with hh
      have hp : 0 ≤ h := (clip_factsI hg.time hlt).1.le
      have hle' : h ≤ h1 := by rw [f1] at hle; linarith
      set B : ℝ := (∑ l, |s0.y l| + 1) * Real.exp (K * (s.t - s0.t)) with hB
      have hB1 : 1 ≤ B := by
        have := hP k
        linarith [abs_nonneg (s.y k)]
      have hM : ∀ (j : Fin sc.ns) q, |fn.fn (s.t + sc.cn j * h) s.y q| ≤ (Jb + G') * B := by
        intro j q
        have h2 := hfb s.t (s.t + sc.cn j * h) s.y B hg.time.lo hg.time.hi
          ((stage_time sc hp j).trans (mul_le_mul_of_nonneg_left (hclip s hg) hCn)) (by linarith)
          (fun k => by linarith [hP k]) q
        nlinarith
      obtain ⟨-, -, -, g4⟩ := small_stage_affine hla hs ⟨J, g, hf, hJ⟩ hr hg.maxit htol hp (hjac _ _)
        (by nlinarith : 0 ≤ (Jb + G') * B) hM (by
          have : h * (absA sc * Jb) ≤ h1 * (absA sc * Jb) := mul_le_mul_of_nonneg_right hle' (by positivity)
          linarith)
      have hy : s'.y k = s.y k + combineI sc r.Y d k := by
        rw [e]
        change a.yn k = _
        rw [(attemptI_spec ha).2.1]
        rfl
      have hB0 : 0 ≤ B := by linarith
      have g5 := combineI_le r.Y d (by positivity : 0 ≤ 2 * (h * absA sc * ((Jb + G') * B))) g4 k
      have g6 : |s'.y k| + 1 ≤ (1 + K * h) * B := by
        rw [hy]
        have := abs_add_le (s.y k) (combineI sc r.Y d k)
        have := hP k
        rw [hK]
        nlinarith
      refine g6.trans ?_
      have e1 : s'.t - s0.t = h + (s.t - s0.t) := by rw [f1]; ring
      rw [e1, mul_add, Real.exp_add]
      have := Real.add_one_le_exp (K * h)
      calc (1 + K * h) * B ≤ Real.exp (K * h) * B := mul_le_mul_of_nonneg_right (by linarith) (by linarith)
        _ = _ := by rw [hB]; ring
  · set B : ℝ := (∑ l, |s0.y l| + 1) * Real.exp (K * (t1 - t0)) with hB
    have hs00 : 0 ≤ ∑ l, |s0.y l| := Finset.sum_nonneg fun _ _ => abs_nonneg _
    have hB0 : 0 ≤ B := by positivity
    obtain ⟨h0, hh0, C, hC, hC1, H⟩ := tame_of_bounded (t0 := t0) (t1 := t1) (nd := nd) (fn := fn) (sc := sc) hla hs hat hrt htol
      d d2 mo (Jb := Jb) (M := Jb * (B + 1) + G') (ρ := 1) hJb0 (by positivity) one_pos
    refine ⟨h0, hh0, C, hC, fun s hg hlt hP hle => H s hg hlt (hjac _ _) (fun t' y' h2 h3 => ?_) hle⟩
    refine hfb s.t t' y' (B + 1) hg.time.lo hg.time.hi ?_ (by linarith) ?_
    · exact (h2.trans (min_le_right _ _)).trans (mul_le_mul_of_nonneg_left (hclip s hg) hCn)
    · intro k
      have h4 := hP k
      have h5 : Real.exp (K * (s.t - s0.t)) ≤ Real.exp (K * (t1 - t0)) := by
        apply Real.exp_le_exp.mpr
        apply mul_le_mul_of_nonneg_left _ hK0
        linarith [hg.time.hi, hs0.time.lo]
      have h6 := mul_le_mul_of_nonneg_left h5 (by linarith : 0 ≤ ∑ l, |s0.y l| + 1)
      have h7 : |y' k| ≤ |y' k - s.y k| + |s.y k| := by
        have := abs_add_le (y' k - s.y k) (s.y k)
        rwa [sub_add_cancel] at this
      linarith [h3 k]

end Verif
