import Verif.ErkGrowth
import Verif.Prop.ErkTerm

/-!
# Property C73: adaptive explicit integration of problems of linear growth
-/

namespace Verif
open Spec

section
variable {n : ℕ} {nd : Bool} {f : ℝ → Vec ℝ n → Vec ℝ n} {t0 t1 : ℝ} {y0 : Vec ℝ n}
  {o : ErkOpts ℝ} {dt : ℝ} {oo : OutOpts} {fuel : ℕ} {out : ErkOutput ℝ n} {m : ℤ} {α β : ℝ}

/-- **C73.**  If `‖f(t,y)‖ ≤ α + β ‖y‖` for `t ∈ [t0,t1]` (maximum norm), `abs_tol > 0` and `rel_tol ≥ 0`, then the
adaptive integrator with an embedded method returns, from every initial value and step size, with any `max_dt` and any
`max_steps`; without a step limit the status is SUCCESS. -/
theorem C73_adaptive_terminates (hm : m ∈ erkImplemented) (hs : StreamOK oo)
    (had : o.adaptive = true) (hb2 : (erkCoeffs m : SolverCoeffs ℝ).b2 ≠ [])
    (ha : 0 < o.absTol) (hr : 0 ≤ o.relTol)
    (hf : ∀ t y, t0 ≤ t → t ≤ t1 → ‖f t y‖ ≤ α + β * ‖y‖) (hdt : 0 < dt) (h01 : t0 < t1) :
    ∃ fuel out, erkOdeint nd f t0 t1 y0 o oo m dt fuel = some (.ret out) ∧
      (o.maxSteps < 0 → out.status = 0) := by
  obtain ⟨k, out, h⟩ := adaptive_run_growth (nd := nd) (y0 := y0) hm hs had hb2 ha hr hf hdt h01
  refine ⟨k, out, h, ?_⟩
  intro hneg
  have hG := (erkOdeint_ret h).2
  obtain ⟨f1, f2, f3, f4⟩ := effOpts_fields o (erkCoeffs m : SolverCoeffs ℝ)
  obtain ⟨mo', s, -, -, hreach, hout⟩ := erkGuts_ret hG
  rcases hout with ⟨-, rfl⟩ | ⟨-, h0, -⟩
  · obtain ⟨recs, -, -, -, -, h3⟩ := erk_out_facts hG
    rcases h3 with h3 | h3
    · exact h3.1
    · simp at h3
  · rw [f4] at h0; omega

/-- **C73 for Lipschitz problems**: `f(t,·)` Lipschitz with one constant on the interval, `f(·,0)` bounded there -/
theorem C73_lipschitz (hm : m ∈ erkImplemented) (hs : StreamOK oo)
    (had : o.adaptive = true) (hb2 : (erkCoeffs m : SolverCoeffs ℝ).b2 ≠ [])
    (ha : 0 < o.absTol) (hr : 0 ≤ o.relTol) {K C : ℝ}
    (hK : ∀ t, t0 ≤ t → t ≤ t1 → ∀ y z, ‖f t y - f t z‖ ≤ K * ‖y - z‖)
    (hC : ∀ t, t0 ≤ t → t ≤ t1 → ‖f t 0‖ ≤ C) (hdt : 0 < dt) (h01 : t0 < t1) :
    ∃ fuel out, erkOdeint nd f t0 t1 y0 o oo m dt fuel = some (.ret out) ∧
      (o.maxSteps < 0 → out.status = 0) := by
  refine C73_adaptive_terminates (α := C) (β := K) hm hs had hb2 ha hr (fun t y h1 h2 => ?_) hdt h01
  have h3 := hK t h1 h2 y 0
  rw [sub_zero] at h3
  calc ‖f t y‖ = ‖f t 0 + (f t y - f t 0)‖ := by congr 1; abel
    _ ≤ ‖f t 0‖ + ‖f t y - f t 0‖ := norm_add_le _ _
    _ ≤ C + K * ‖y‖ := add_le_add (hC t h1 h2) h3

end

/-- an unbounded right-hand side that is not affine: `y₀' = y₁ + sin y₀, y₁' = t y₀` over `[0, 10]` -/
example : ∃ fuel out, erkOdeint (F := ℝ) (n := 2) false (fun t y => ![y 1 + Real.sin (y 0), t * y 0]) 0 10
    (fun _ => 1) { adaptive := true, relTol := 1 / 10 ^ 4, absTol := 1 / 10 ^ 3, maxDt := 0, maxSteps := -1 }
    OutOpts.dflt 130 1 fuel = some (.ret out) ∧ ((-1 : ℤ) < 0 → out.status = 0) := by
  refine C73_adaptive_terminates (α := 1) (β := 10) (by decide) (fun h => by revert h; decide) rfl
    (by simp [erkCoeffs, cashKarp54]) (by norm_num) (by norm_num) (fun t y h1 h2 => ?_) one_pos (by norm_num)
  have hy := norm_nonneg y
  rw [pi_norm_le_iff_of_nonneg (by positivity)]
  intro i
  have n0 := norm_le_pi_norm y 0
  have n1 := norm_le_pi_norm y 1
  rw [Real.norm_eq_abs] at n0 n1 ⊢
  fin_cases i
  · change |y 1 + Real.sin (y 0)| ≤ _
    have := Real.abs_sin_le_one (y 0)
    have := abs_add_le (y 1) (Real.sin (y 0))
    linarith
  · change |t * y 0| ≤ _
    rw [abs_mul, abs_of_nonneg h1]
    have := mul_le_mul h2 n0 (abs_nonneg _) (by norm_num)
    linarith

/-- `C73_lipschitz`: `y' = -3 y + cos t` -/
example : ∃ fuel out, erkOdeint (F := ℝ) (n := 1) true (fun t y k => -3 * y k + Real.cos t) 0 10
    (fun _ => 7) { adaptive := true, relTol := 0, absTol := 1 / 10 ^ 3, maxDt := 2, maxSteps := -1 }
    OutOpts.dflt 131 1 fuel = some (.ret out) ∧ ((-1 : ℤ) < 0 → out.status = 0) := by
  refine C73_lipschitz (K := 3) (C := 1) (by decide) (fun h => by revert h; decide) rfl
    (by simp [erkCoeffs, dormandPrince54]) (by norm_num) (by norm_num) (fun t _ _ y z => ?_) (fun t _ _ => ?_) one_pos
    (by norm_num)
  · have hy := norm_nonneg (y - z)
    rw [pi_norm_le_iff_of_nonneg (by positivity)]
    intro k
    have := norm_le_pi_norm (y - z) k
    rw [Pi.sub_apply, show -3 * y k + Real.cos t - (-3 * z k + Real.cos t) = -3 * (y k - z k) by ring, norm_mul]
    rw [Pi.sub_apply] at this
    norm_num
    exact this
  · rw [pi_norm_le_iff_of_nonneg (by norm_num)]
    intro k
    simpa using Real.abs_cos_le_one t

end Verif
