import Verif.BStableRun
import Verif.Prop.MsConverge
import Verif.Prop.MsLinear
import Verif.Prop.IrkStiff
import Verif.Prop.BStable
import Mathlib.Analysis.Complex.Norm

/-!
# Lemmas on the stability of the BDF formulas
-/

namespace Verif
set_option autoImplicit false
open Spec
open scoped RealInnerProductSpace

section energy
variable {V : Type} [NormedAddCommGroup V] [InnerProductSpace ℝ V]

/-- implicit Euler: one step -/
theorem bdf1_step {a b : V} {δ : ℝ} (h : ⟪a - b, a⟫ ≤ δ * ‖a‖) (hδ : 0 ≤ δ) : ‖a‖ ≤ ‖b‖ + δ := by
  rw [inner_sub_left, real_inner_self_eq_norm_sq] at h
  have h1 := real_inner_le_norm b a
  by_contra hc
  have hc := not_le.1 hc
  have := norm_nonneg b
  nlinarith [norm_nonneg a]

/-- Dahlquist's G-norm of BDF2, `a` newer than `b` -/
noncomputable def gNorm (a b : V) : ℝ := Real.sqrt (‖a‖ ^ 2 + ‖(2 : ℝ) • a - b‖ ^ 2)

theorem gNorm_sq (a b : V) : gNorm a b ^ 2 = ‖a‖ ^ 2 + ‖(2 : ℝ) • a - b‖ ^ 2 := Real.sq_sqrt (by positivity)

theorem gNorm_nonneg (a b : V) : 0 ≤ gNorm a b := Real.sqrt_nonneg _

theorem le_gNorm (a b : V) : ‖a‖ ≤ gNorm a b :=
  Real.le_sqrt_of_sq_le (by nlinarith [sq_nonneg ‖(2 : ℝ) • a - b‖])

theorem gNorm_self (a : V) : gNorm a a = Real.sqrt 2 * ‖a‖ := by
  have h : (2 : ℝ) • a - a = a := by rw [two_smul, add_sub_cancel_right]
  rw [gNorm, h, ← two_mul, Real.sqrt_mul (by norm_num), Real.sqrt_sq (norm_nonneg a)]

/-- the identity behind the G-stability of BDF2 -/
theorem bdf2_identity (a b c : V) : 2 * ⟪(3 : ℝ) • a - (4 : ℝ) • b + c, a⟫ =
    gNorm a b ^ 2 - gNorm b c ^ 2 + ‖a - (2 : ℝ) • b + c‖ ^ 2 := by
  rw [gNorm_sq, gNorm_sq]
  simp only [← real_inner_self_eq_norm_sq, inner_sub_left, inner_add_left, inner_sub_right, inner_add_right, inner_smul_left,
    inner_smul_right, RCLike.conj_to_real]
  rw [real_inner_comm a b, real_inner_comm a c, real_inner_comm b c]
  ring

/-- BDF2: one step -/
theorem bdf2_step {a b c : V} {δ : ℝ} (h : ⟪(3 : ℝ) • a - (4 : ℝ) • b + c, a⟫ ≤ 3 * δ * ‖a‖) (hδ : 0 ≤ δ) :
    gNorm a b ≤ gNorm b c + 6 * δ := by
  have h1 := bdf2_identity a b c
  have h2 := le_gNorm a b
  have h3 := gNorm_nonneg a b
  have h4 := gNorm_nonneg b c
  by_contra hc
  have hc := not_le.1 hc
  have h5 : δ * ‖a‖ ≤ δ * gNorm a b := mul_le_mul_of_nonneg_left h2 hδ
  nlinarith [sq_nonneg ‖a - (2 : ℝ) • b + c‖]

end energy

section growth

/-- **Growth.**  If `ζ` is a root of `Σ p_i x^i` and `Y` satisfies the recurrence with coefficients `p` from `n0` on, the combination of `Y`
with the coefficients of `Σ p_i x^i / (x - ζ)` is multiplied by `ζ` in every step. -/
theorem root_growth {p0 p1 p2 p3 p4 p5 p6 ζ : ℂ} (h : p0 + p1 * ζ + p2 * ζ ^ 2 + p3 * ζ ^ 3 + p4 * ζ ^ 4 + p5 * ζ ^ 5 + p6 * ζ ^ 6 = 0) :
    ∃ q0 q1 q2 q3 q4 q5 : ℂ, (1 - ζ) * (q0 + q1 + q2 + q3 + q4 + q5) = p0 + p1 + p2 + p3 + p4 + p5 + p6 ∧
      ∀ a0 a1 a2 a3 a4 a5 a6 : ℂ, p0 * a0 + p1 * a1 + p2 * a2 + p3 * a3 + p4 * a4 + p5 * a5 + p6 * a6 = 0 →
        q0 * a1 + q1 * a2 + q2 * a3 + q3 * a4 + q4 * a5 + q5 * a6 =
          ζ * (q0 * a0 + q1 * a1 + q2 * a2 + q3 * a3 + q4 * a4 + q5 * a5) := by
  refine ⟨p1 + ζ * (p2 + ζ * (p3 + ζ * (p4 + ζ * (p5 + ζ * p6)))), p2 + ζ * (p3 + ζ * (p4 + ζ * (p5 + ζ * p6))),
    p3 + ζ * (p4 + ζ * (p5 + ζ * p6)), p4 + ζ * (p5 + ζ * p6), p5 + ζ * p6, p6, ?_, ?_⟩
  · linear_combination -h
  · intro a0 a1 a2 a3 a4 a5 a6 ha
    linear_combination ha - a0 * h

theorem root_unbounded {p0 p1 p2 p3 p4 p5 p6 ζ : ℂ}
    (h : p0 + p1 * ζ + p2 * ζ ^ 2 + p3 * ζ ^ 3 + p4 * ζ ^ 4 + p5 * ζ ^ 5 + p6 * ζ ^ 6 = 0) (hζ : 1 < ‖ζ‖)
    (h1 : p0 + p1 + p2 + p3 + p4 + p5 + p6 ≠ 0) (C : ℝ) : ∃ N : ℕ, ∀ Y : ℕ → ℂ, (∀ i < 6, Y i = 1) →
      (∀ n < N, p0 * Y n + p1 * Y (n + 1) + p2 * Y (n + 2) + p3 * Y (n + 3) + p4 * Y (n + 4) + p5 * Y (n + 5) + p6 * Y (n + 6) = 0) →
      ∃ i < N + 6, C < ‖Y i‖ := by
  obtain ⟨q0, q1, q2, q3, q4, q5, hq1, hq⟩ := root_growth h
  have hQ : q0 + q1 + q2 + q3 + q4 + q5 ≠ 0 := fun e => h1 (by rw [← hq1, e, mul_zero])
  have hQ' : 0 < ‖q0 + q1 + q2 + q3 + q4 + q5‖ := norm_pos_iff.2 hQ
  obtain ⟨N, hN⟩ := pow_unbounded_of_one_lt
    (|C| * (‖q0‖ + ‖q1‖ + ‖q2‖ + ‖q3‖ + ‖q4‖ + ‖q5‖) / ‖q0 + q1 + q2 + q3 + q4 + q5‖) hζ
  refine ⟨N, fun Y hY hrec => ?_⟩
  by_contra hc
  push Not at hc
  have key : ∀ n ≤ N, q0 * Y n + q1 * Y (n + 1) + q2 * Y (n + 2) + q3 * Y (n + 3) + q4 * Y (n + 4) + q5 * Y (n + 5) =
      ζ ^ n * (q0 + q1 + q2 + q3 + q4 + q5) := by
    intro n
    induction n with
    | zero =>
      intro _
      simp only [zero_add, pow_zero, one_mul]
      rw [hY 0 (by norm_num), hY 1 (by norm_num), hY 2 (by norm_num), hY 3 (by norm_num), hY 4 (by norm_num), hY 5 (by norm_num)]
      ring
    | succ n ih =>
      intro hn
      have e1 := ih (by omega)
      have e2 := hq _ _ _ _ _ _ _ (hrec n (by omega))
      rw [e1] at e2
      rw [pow_succ]
      linear_combination e2
  have hb := congrArg norm (key N le_rfl)
  rw [norm_mul, norm_pow] at hb
  rw [div_lt_iff₀ hQ'] at hN
  have hCY : ∀ i < 6, ‖Y (N + i)‖ ≤ |C| := fun i hi => (hc (N + i) (by omega)).trans (le_abs_self C)
  have hle : ‖q0 * Y N + q1 * Y (N + 1) + q2 * Y (N + 2) + q3 * Y (N + 3) + q4 * Y (N + 4) + q5 * Y (N + 5)‖ ≤
      ‖q0‖ * |C| + ‖q1‖ * |C| + ‖q2‖ * |C| + ‖q3‖ * |C| + ‖q4‖ * |C| + ‖q5‖ * |C| := by
    have hm : ∀ (q : ℂ) (i : ℕ), i < 6 → ‖q * Y (N + i)‖ ≤ ‖q‖ * |C| := fun q i hi => by
      rw [norm_mul]; exact mul_le_mul_of_nonneg_left (hCY i hi) (norm_nonneg q)
    have h0 := hm q0 0 (by norm_num)
    have h5 := hm q5 5 (by norm_num)
    have h2 := hm q2 2 (by norm_num)
    have h3 := hm q3 3 (by norm_num)
    have h4 := hm q4 4 (by norm_num)
    have h1 := hm q1 1 (by norm_num)
    rw [add_zero] at h0
    refine (norm_add_le _ _).trans (add_le_add ?_ h5)
    refine (norm_add_le _ _).trans (add_le_add ?_ h4)
    refine (norm_add_le _ _).trans (add_le_add ?_ h3)
    refine (norm_add_le _ _).trans (add_le_add ?_ h2)
    exact (norm_add_le _ _).trans (add_le_add h0 h1)
  rw [hb] at hle
  linarith

end growth

section newton
variable {n : ℕ} {la : LinAlg ℝ} {fn : OdeFun ℝ n} {order : ℤ}

/-- what a successful solve of the BDF equation leaves -/
theorem bdf_residual {h t' Λ : ℝ} {v : ℕ → Vec ℝ n} {x y' : Vec ℝ n} {st st' : NewtonStatus ℝ} (hh : 0 ≤ h * bdfW order)
    (hM : SolvesNewton la fn (h * bdfW order)) (hΛ : 0 ≤ Λ) (hL : LipschitzE fn.fn Λ)
    (hJ : ∀ t y v, eucl ((Matrix.of (fn.jac t y)).mulVec v) ≤ Λ * eucl v)
    (hN : newtonIterate la (bdfEq fn order h t' v) x bdfNewton st true = some (.ret (y', st'))) (hc : st'.conv = 0) :
    eucl (y' + ∑ j ∈ Finset.range order.toNat, (bdfC order j : ℝ) • v j - (h * bdfW order) • fn.fn t' y') ≤
      2 * (h * bdfW order) * Λ * (Real.sqrt n / 10 ^ 10) := by
  obtain ⟨xs, ds, e0, hupd, -, hok, -⟩ := C27_success (by simp) (by decide) hN
  obtain ⟨hpos, -, hsmall, -, hxr, -⟩ := hok hc
  obtain ⟨k, hk⟩ : ∃ k, st'.iters = k + 1 := ⟨st'.iters - 1, by omega⟩
  obtain ⟨z, S, -, -, hz, hd, hx⟩ := hupd k (by omega)
  have hd' : ds k = fun i => - z i := by
    rcases hd with hd | ⟨hd, -⟩
    · exact hd
    · simp [bdfNewton, NewtonOpts.dflt] at hd; linarith
  have hr : (0 < (bdfNewton : NewtonOpts ℝ).refreshJac) := by decide
  have hp : (bdfNewton : NewtonOpts ℝ).precondition = false := rfl
  have hls : (bdfNewton : NewtonOpts ℝ).limitStep = false := rfl
  rw [if_pos hr, hp] at hz
  simp only [Bool.false_eq_true, if_false] at hz
  rw [hls] at hx
  simp only [Bool.false_eq_true, if_false, lit_real, Rat.cast_one, one_mul] at hx
  have hz2 := hM _ _ _ _ hz
  rw [Matrix.sub_mulVec, Matrix.one_mulVec, Matrix.smul_mulVec] at hz2
  rw [hk, Nat.add_sub_cancel] at hsmall
  rw [hk] at hxr
  have hy : y' = xs k - z := by rw [hxr, hx, hd']; funext i; simp [sub_eq_add_neg]
  have hval : (bdfEq fn order h t' v).fn (xs k) =
      xs k + ∑ j ∈ Finset.range order.toNat, (bdfC order j : ℝ) • v j - (h * bdfW order) • fn.fn t' (xs k) := by
    funext i
    simp only [bdfEq, foldl_linComb (bdfC order) (fun j => v j i), lit_real, Rat.cast_zero, zero_add, Pi.sub_apply, Pi.add_apply,
      Pi.smul_apply, smul_eq_mul, Finset.sum_apply]
  rw [hval] at hz2
  have e : y' + ∑ j ∈ Finset.range order.toNat, (bdfC order j : ℝ) • v j - (h * bdfW order) • fn.fn t' y' =
      (h * bdfW order) • ((fn.fn t' (xs k) - fn.fn t' y') - (Matrix.of (fn.jac t' (xs k))).mulVec z) := by
    rw [hy] at *
    rw [smul_sub, smul_sub]
    linear_combination (norm := module) (-1 : ℝ) • hz2
  have hzn : eucl z ≤ Real.sqrt n / 10 ^ 10 := by
    have hdx : (bdfNewton : NewtonOpts ℝ).dxDelta = 1 / 10 ^ 10 := by simp [bdfNewton]
    rw [hdx] at hsmall
    have hzi : ∀ i, z i ^ 2 ≤ (1 / 10 ^ 10) ^ 2 := by
      intro i
      have h1 : ‖ds k‖ < 1 / 10 ^ 10 := by rw [← normInf_real]; exact (ltb_real _ _).1 hsmall
      have h1 := (norm_le_pi_norm (ds k) i).trans_lt h1
      rw [hd', norm_neg, Real.norm_eq_abs] at h1
      rw [← sq_abs]
      exact pow_le_pow_left₀ (abs_nonneg _) h1.le 2
    have h2 : ∑ i, z i ^ 2 ≤ (Real.sqrt n / 10 ^ 10) ^ 2 := by
      refine (Finset.sum_le_sum fun i _ => hzi i).trans ?_
      rw [Finset.sum_const, Finset.card_univ, Fintype.card_fin, nsmul_eq_mul, div_pow, div_pow, one_pow, Real.sq_sqrt (Nat.cast_nonneg n),
        mul_one_div]
    have := eucl_le_of h2
    rwa [abs_of_nonneg (by positivity)] at this
  have hdy : eucl (fn.fn t' (xs k) - fn.fn t' y') ≤ Λ * eucl z := by
    have := hL t' (xs k) y'
    have ez : (fun i => xs k i - y' i) = z := by rw [hy]; funext i; simp
    rw [ez] at this
    exact this
  rw [e, eucl_smul, abs_of_nonneg hh]
  have h3 := (eucl_sub (fn.fn t' (xs k) - fn.fn t' y') ((Matrix.of (fn.jac t' (xs k))).mulVec z)).trans
    (add_le_add hdy (hJ t' (xs k) z))
  have h4 : Λ * eucl z ≤ Λ * (Real.sqrt n / 10 ^ 10) := mul_le_mul_of_nonneg_left hzn hΛ
  calc (h * bdfW order) * _ ≤ (h * bdfW order) * (2 * (Λ * (Real.sqrt n / 10 ^ 10))) := mul_le_mul_of_nonneg_left (by linarith) hh
    _ = _ := by ring

end newton

/-- the value `y'` follows the values `v 0` (newest), `v 1`, … by the BDF formula with step `h` up to `ρ` -/
def BdfStep {n : ℕ} (fn : OdeFun ℝ n) (order : ℤ) (h t' : ℝ) (v : ℕ → Vec ℝ n) (y' ρ : Vec ℝ n) : Prop :=
  y' + ∑ j ∈ Finset.range order.toNat, (bdfC order j : ℝ) • v j = (h * bdfW order) • fn.fn t' y' + ρ

section chain
variable {n : ℕ} {fn : OdeFun ℝ n} {h : ℝ}

theorem bdfW_pos (order : ℤ) (h0 : 0 < order) (h6 : order ≤ 6) : (0 : ℝ) < bdfW order := by
  have : order = 1 ∨ order = 2 ∨ order = 3 ∨ order = 4 ∨ order = 5 ∨ order = 6 := by omega
  rcases this with rfl | rfl | rfl | rfl | rfl | rfl <;> simp [bdfW, q]

/-- two sequences that satisfy the formula of order 1 up to `ρ`, `σ` -/
theorem bdf1_chain {y z : ℕ → Vec ℝ n} {N : ℕ} {t' : ℕ → ℝ} {δ : ℝ} (hδ : 0 ≤ δ) (hh : 0 ≤ h) (hf : Contractive fn.fn)
    (hstep : ∀ i, 1 ≤ i → i < N → ∃ ρ σ, BdfStep fn 1 h (t' i) (fun j => y (i - 1 - j)) (y i) ρ ∧
      BdfStep fn 1 h (t' i) (fun j => z (i - 1 - j)) (z i) σ ∧ eucl (ρ - σ) ≤ δ) :
    ∀ i < N, eucl (y i - z i) ≤ eucl (y 0 - z 0) + i * δ := by
  intro i
  induction i with
  | zero => intro _; simp
  | succ i ih =>
    intro hi
    obtain ⟨ρ, σ, h1, h2, h3⟩ := hstep (i + 1) (by omega) hi
    have hC : (bdfC 1 0 : ℝ) = -1 := by simp [bdfC, bdfRow]
    have hW : (bdfW 1 : ℝ) = 1 := by simp [bdfW]
    simp only [BdfStep, show (1 : ℤ).toNat = 1 from rfl, Finset.sum_range_one, hC, hW, Nat.sub_zero, Nat.add_sub_cancel, mul_one] at h1 h2
    have e : toE (y (i + 1) - z (i + 1)) - toE (y i - z i) = h • toE (fn.fn (t' (i + 1)) (y (i + 1)) - fn.fn (t' (i + 1)) (z (i + 1))) +
        toE (ρ - σ) := by
      rw [← map_smul, ← map_sub, ← map_add]
      congr 1
      linear_combination (norm := module) h1 - h2
    have hin : ⟪toE (y (i + 1) - z (i + 1)) - toE (y i - z i), toE (y (i + 1) - z (i + 1))⟫ ≤ δ * ‖toE (y (i + 1) - z (i + 1))‖ := by
      rw [e, inner_add_left, inner_smul_left]
      simp only [RCLike.conj_to_real]
      have g1 := mul_nonpos_of_nonneg_of_nonpos hh (Contractive.mono hf (t' (i + 1)) (y (i + 1)) (z (i + 1)))
      have g2 := (real_inner_le_norm (toE (ρ - σ)) (toE (y (i + 1) - z (i + 1)))).trans
        (mul_le_mul_of_nonneg_right ((norm_toE _).le.trans h3) (norm_nonneg _))
      linarith
    have := bdf1_step hin hδ
    rw [norm_toE, norm_toE] at this
    have hi' := ih (by omega)
    push_cast
    linarith

/-- two sequences that satisfy the formula of order 2 up to `ρ`, `σ` -/
theorem bdf2_chain {y z : ℕ → Vec ℝ n} {N : ℕ} {t' : ℕ → ℝ} {δ : ℝ} (hδ : 0 ≤ δ) (hh : 0 ≤ h) (hf : Contractive fn.fn)
    (hstep : ∀ i, 2 ≤ i → i < N → ∃ ρ σ, BdfStep fn 2 h (t' i) (fun j => y (i - 1 - j)) (y i) ρ ∧
      BdfStep fn 2 h (t' i) (fun j => z (i - 1 - j)) (z i) σ ∧ eucl (ρ - σ) ≤ δ) :
    ∀ i, i + 1 < N → gNorm (toE (y (i + 1) - z (i + 1))) (toE (y i - z i)) ≤
      gNorm (toE (y 1 - z 1)) (toE (y 0 - z 0)) + i * (6 * δ) := by
  intro i
  induction i with
  | zero => intro _; simp
  | succ i ih =>
    intro hi
    obtain ⟨ρ, σ, h1, h2, h3⟩ := hstep (i + 2) (by omega) hi
    have hC : (bdfC 2 0 : ℝ) = -(4 / 3) := by norm_num [bdfC, bdfRow, nq]
    have hC1 : (bdfC 2 1 : ℝ) = 1 / 3 := by simp [bdfC, bdfRow, q]
    have hW : (bdfW 2 : ℝ) = 2 / 3 := by simp [bdfW, q]
    have hs : i + 2 - 1 = i + 1 := rfl
    simp only [BdfStep, show (2 : ℤ).toNat = 2 from rfl, Finset.sum_range_succ, Finset.sum_range_zero, zero_add, hC, hC1, hW, Nat.sub_zero,
      hs, Nat.add_sub_cancel] at h1 h2
    obtain ⟨a, ha⟩ : ∃ a, a = y (i + 2) - z (i + 2) := ⟨_, rfl⟩
    have e : (3 : ℝ) • toE (y (i + 2) - z (i + 2)) - (4 : ℝ) • toE (y (i + 1) - z (i + 1)) + toE (y i - z i) =
        (2 * h) • toE (fn.fn (t' (i + 2)) (y (i + 2)) - fn.fn (t' (i + 2)) (z (i + 2))) + (3 : ℝ) • toE (ρ - σ) := by
      simp only [← map_smul, ← map_sub, ← map_add]
      congr 1
      linear_combination (norm := module) (3 : ℝ) • (h1 - h2)
    have hin : ⟪(3 : ℝ) • toE (y (i + 2) - z (i + 2)) - (4 : ℝ) • toE (y (i + 1) - z (i + 1)) + toE (y i - z i),
        toE (y (i + 2) - z (i + 2))⟫ ≤ 3 * δ * ‖toE (y (i + 2) - z (i + 2))‖ := by
      rw [e, inner_add_left, inner_smul_left, inner_smul_left]
      simp only [RCLike.conj_to_real]
      have g1 := mul_nonpos_of_nonneg_of_nonpos (show 0 ≤ 2 * h by linarith) (Contractive.mono hf (t' (i + 2)) (y (i + 2)) (z (i + 2)))
      have g2 := (real_inner_le_norm (toE (ρ - σ)) (toE (y (i + 2) - z (i + 2)))).trans
        (mul_le_mul_of_nonneg_right ((norm_toE _).le.trans h3) (norm_nonneg _))
      linarith
    have := bdf2_step hin hδ
    have hi' := ih (by omega)
    push_cast
    linarith

end chain

section boot
variable {n : ℕ} {nd : Bool} {la : LinAlg ℝ} {fn : OdeFun ℝ n}

theorem irkOdeint_mono {t0 t1 dt : ℝ} {y0 : Vec ℝ n} {o : IrkOpts ℝ} {oo : OutOpts} {m : ℤ} {fuel : ℕ}
    {r : Outcome (IrkOutput ℝ ((irkCoeffs m : SolverCoeffs ℝ).ns * n) n)} (k : ℕ)
    (h : irkOdeint nd la fn t0 t1 y0 o oo m dt fuel = some r) : irkOdeint nd la fn t0 t1 y0 o oo m dt (fuel + k) = some r := by
  unfold irkOdeint at h ⊢
  simp only at h ⊢
  generalize (if o.adaptive && (irkCoeffs m : SolverCoeffs ℝ).b2.length == 0 then { o with adaptive := false } else o : IrkOpts ℝ) = o' at h ⊢
  by_cases hc : (!nd && !irkVerify (irkCoeffs m : SolverCoeffs ℝ)) = true
  · rw [if_pos hc] at h ⊢; exact h
  · rw [if_neg hc] at h ⊢
    unfold irkGuts at h ⊢
    simp only at h ⊢
    rcases e1 : o'.newtonOpts with _ | no
    · simp only [e1] at h ⊢; exact h
    · simp only [e1] at h ⊢
      by_cases hd : (!nd && !ltb (lit 0) (clipDt t0 t1 dt)) = true
      · rw [if_pos hd] at h ⊢; exact h
      · rw [if_neg hd] at h ⊢
        rcases e2 : minOrder (irkCoeffs m : SolverCoeffs ℝ) with _ | mo
        · simp only [e2] at h ⊢; exact h
        · simp only [e2] at h ⊢
          by_cases hs : (irkCoeffs m : SolverCoeffs ℝ).nRows ≠ (irkCoeffs m : SolverCoeffs ℝ).ns ∨
              (irkCoeffs m : SolverCoeffs ℝ).nCols ≠ (irkCoeffs m : SolverCoeffs ℝ).ns
          · rw [if_pos hs] at h ⊢; exact h
          · rw [if_neg hs] at h ⊢
            rcases e3 : la.inv (irkCoeffs m : SolverCoeffs ℝ).mat with _ | Ai
            · simp only [e3] at h ⊢; exact h
            · simp only [e3] at h ⊢
              by_cases hb : (irkCoeffs m : SolverCoeffs ℝ).b2.length ≠ (irkCoeffs m : SolverCoeffs ℝ).ns
              · rw [if_pos hb] at h ⊢; exact h
              · rw [if_neg hb] at h ⊢; exact runLoop_mono k h

/-- the bootstrap returns when the runs it consists of do -/
theorem bootstrap_of_runs {dt : ℝ} {y : Vec ℝ n} (H : ∀ t, ∃ fuel out, bootRun nd la fn fuel bootOut t dt y = some (.ret out)) (order : ℤ)
    (t : ℝ) : ∃ fuel l, bootstrap nd la fn fuel order y t dt = some (.ret l) := by
  have hmono : ∀ (k : ℕ) t fuel r, bootRun nd la fn fuel bootOut t dt y = some r → bootRun nd la fn (fuel + k) bootOut t dt y = some r :=
    fun k t fuel r h => irkOdeint_mono k h
  have key : ∀ k t, ∃ fuel, ∀ m, ∃ l, bootIter nd la fn (fuel + m) dt k t y = some (.ret l) := by
    intro k
    induction k with
    | zero => intro t; exact ⟨0, fun m => ⟨[], rfl⟩⟩
    | succ k ih =>
      intro t
      obtain ⟨f1, out, h1⟩ := H t
      obtain ⟨f2, h2⟩ := ih (t + dt)
      refine ⟨f1 + f2, fun m => ?_⟩
      obtain ⟨l, hl⟩ := h2 (f1 + m)
      have e1 := hmono (f2 + m) _ _ _ h1
      rw [← add_assoc] at e1
      have e2 : f2 + (f1 + m) = f1 + f2 + m := by omega
      rw [e2] at hl
      obtain ⟨g1, g2⟩ := bootRun_first e1
      refine ⟨(t + dt, y) :: l, ?_⟩
      rw [bootIter, e1]
      simp only [g1, g2]
      simp [hl]
  obtain ⟨fuel, h⟩ := key (order - 1).toNat t
  obtain ⟨l, hl⟩ := h 0
  exact ⟨fuel, (t, y) :: l, by unfold bootstrap; rw [add_zero] at hl; rw [hl]⟩

/-- the bootstrap completes on contractive linear systems -/
theorem bootstrap_contractive {J : Matrix (Fin n) (Fin n) ℝ} {g : ℝ → Vec ℝ n} (hfn : ∀ t y, fn.fn t y = J.mulVec y + g t)
    (hJ : ∀ t y i j, fn.jac t y i j = J i j) (hf : Contractive fn.fn) (hg : TimeBounded g) (hn : 0 < n) {dt : ℝ} (hdt : 0 < dt)
    (order : ℤ) (t : ℝ) (y : Vec ℝ n) : ∃ fuel l, bootstrap false laReal fn fuel order y t dt = some (.ret l) := by
  refine bootstrap_of_runs (fun t => ?_) order t
  obtain ⟨fuel, out, h1, -⟩ := C67_stiff_success (m := 232) (t0 := t) (t1 := t + dt) (y0 := y) (oo := bootOut) (o := bootOpts)
    (dt := lit (1 / 10 ^ 6)) (no := NewtonOpts.dflt) (by decide) hfn hJ hg (dissipative_of_contractive hfn hf) hn (by linarith)
    (by norm_num) rfl (by norm_num [bootOpts, IrkOpts.dflt]) rfl (by norm_num [NewtonOpts.dflt]) (by norm_num [NewtonOpts.dflt])
    (by norm_num [NewtonOpts.dflt]) (by norm_num [bootOpts]) (by norm_num [bootOpts]) (by decide) (fun h => absurd h (by decide))
  exact ⟨fuel, out, h1⟩

end boot

section runs
variable {n : ℕ} {nd : Bool} {la : LinAlg ℝ} {fn : OdeFun ℝ n} {t0 t1 dt : ℝ} {y0 : Vec ℝ n} {order : ℤ} {st0 : NewtonStatus ℝ}
  {fuelB fuel : ℕ} {out : MsOutput ℝ n}

/-- the values of a run as a sequence, when every successful solve leaves a residual with the property `P` -/
theorem bdf_steps (h0 : 0 < order) (h6 : order ≤ 6)
    (h : bdf nd la fn t0 t1 y0 order dt st0 fuelB fuel = some (.ret out)) {P : Vec ℝ n → Prop}
    (hP : ∀ t' (v : ℕ → Vec ℝ n) x y' st st',
      newtonIterate la (bdfEq fn order (min dt (t1 - t0)) t' v) x bdfNewton st true = some (.ret (y', st')) → st'.conv = 0 →
      ∃ ρ, P ρ ∧ BdfStep fn order (min dt (t1 - t0)) t' v y' ρ) :
    ∃ y : ℕ → Vec ℝ n, (∀ (i : ℕ) y', out.yVals[i]? = some y' → y' = y i) ∧ (∀ i < order.toNat + 1, y i = y0) ∧
      ∀ i, order.toNat + 1 ≤ i → i < out.yVals.length → ∃ ρ, P ρ ∧
        BdfStep fn order (min dt (t1 - t0)) (t0 + i * min dt (t1 - t0)) (fun j => y (i - 1 - j)) (y i) ρ := by
  obtain ⟨y, hy1, hy2, -, -⟩ := bdf_values h0 h6 h
  refine ⟨y, hy1, hy2, fun i hi hlt => ?_⟩
  obtain ⟨v, st, st', e1, e2, e3⟩ := C54_samples h0 h6 h (i := i) (by omega) (List.getElem?_eq_getElem hlt)
  rw [clipDt_real, gridPt_real] at e2
  obtain ⟨ρ, hρ, hs⟩ := hP _ _ _ _ _ _ e2 e3
  refine ⟨ρ, hρ, ?_⟩
  rw [hy1 i _ (List.getElem?_eq_getElem hlt)] at hs
  unfold BdfStep at hs ⊢
  rw [← hs]
  refine congrArg (fun s => y i + s) (Finset.sum_congr rfl fun j hj => ?_)
  rw [hy1 _ _ (e1 j (by have := Finset.mem_range.1 hj; omega))]

/-- two runs of order 1 or 2 on the same grid -/
theorem bdf_two (ho : order = 1 ∨ order = 2) {h δ : ℝ} {y z : ℕ → Vec ℝ n} {y0 z0 : Vec ℝ n} {N : ℕ} {t' : ℕ → ℝ} (hδ : 0 ≤ δ) (hh : 0 ≤ h)
    (hf : Contractive fn.fn) (hy0 : ∀ i < order.toNat + 1, y i = y0) (hz0 : ∀ i < order.toNat + 1, z i = z0)
    (hstep : ∀ i, order.toNat + 1 ≤ i → i < N → ∃ ρ σ, BdfStep fn order h (t' i) (fun j => y (i - 1 - j)) (y i) ρ ∧
      BdfStep fn order h (t' i) (fun j => z (i - 1 - j)) (z i) σ ∧ eucl (ρ - σ) ≤ δ) :
    ∀ i < N, eucl (y i - z i) ≤ (if order = 1 then 1 else Real.sqrt 2) * eucl (y0 - z0) + (if order = 1 then 1 else 6) * (i * δ) := by
  have hshift : ∀ (w : ℕ → Vec ℝ n) i ρ, order.toNat ≤ i → BdfStep fn order h (t' (i + 1)) (fun j => w (i + 1 - 1 - j)) (w (i + 1)) ρ →
      BdfStep fn order h (t' (i + 1)) (fun j => w (i - 1 - j + 1)) (w (i + 1)) ρ := by
    intro w i ρ hi H
    unfold BdfStep at H ⊢
    rw [← H]
    refine congrArg (fun s => w (i + 1) + s) (Finset.sum_congr rfl fun j hj => ?_)
    have := Finset.mem_range.1 hj
    beta_reduce
    rw [show i - 1 - j + 1 = i + 1 - 1 - j by omega]
  have hst2 : ∀ i, order.toNat ≤ i → i < N - 1 → ∃ ρ σ,
      BdfStep fn order h (t' (i + 1)) (fun j => y (i - 1 - j + 1)) (y (i + 1)) ρ ∧
      BdfStep fn order h (t' (i + 1)) (fun j => z (i - 1 - j + 1)) (z (i + 1)) σ ∧ eucl (ρ - σ) ≤ δ := by
    intro i hi hiN
    obtain ⟨ρ, σ, a1, a2, a3⟩ := hstep (i + 1) (by omega) (by omega)
    exact ⟨ρ, σ, hshift y i ρ hi a1, hshift z i σ hi a2, a3⟩
  intro i hi
  rcases ho with rfl | rfl
  · simp only [if_true, one_mul]
    rcases Nat.eq_zero_or_pos i with rfl | hpos
    · rw [hy0 0 (by decide), hz0 0 (by decide)]; simp
    · obtain ⟨k, rfl⟩ : ∃ k, i = k + 1 := ⟨i - 1, by omega⟩
      have := bdf1_chain (y := fun i => y (i + 1)) (z := fun i => z (i + 1)) (t' := fun i => t' (i + 1)) (N := N - 1) hδ hh hf hst2 k (by omega)
      simp only [zero_add] at this
      rw [hy0 1 (by decide), hz0 1 (by decide)] at this
      push_cast
      nlinarith
  · simp only [show ¬ (2 : ℤ) = 1 by decide, if_false]
    have hs2 : 1 ≤ Real.sqrt 2 := by rw [Real.one_le_sqrt]; norm_num
    have hbase : eucl (y0 - z0) ≤ Real.sqrt 2 * eucl (y0 - z0) := le_mul_of_one_le_left (eucl_nonneg _) hs2
    by_cases hi2 : i ≤ 2
    · rw [hy0 i (by simp; omega), hz0 i (by simp; omega)]
      have : (0 : ℝ) ≤ 6 * (i * δ) := by positivity
      linarith
    · obtain ⟨k, rfl⟩ : ∃ k, i = k + 2 := ⟨i - 2, by omega⟩
      have := bdf2_chain (y := fun i => y (i + 1)) (z := fun i => z (i + 1)) (t' := fun i => t' (i + 1)) (N := N - 1) hδ hh hf hst2 k (by omega)
      simp only [zero_add, show (1 : ℕ) + 1 = 2 from rfl] at this
      rw [hy0 2 (by decide), hz0 2 (by decide), hy0 1 (by decide), hz0 1 (by decide), gNorm_self, norm_toE] at this
      have h1 := (le_gNorm _ _).trans this
      rw [norm_toE, show k + 1 + 1 = k + 2 from rfl] at h1
      push_cast
      nlinarith

end runs

end Verif
