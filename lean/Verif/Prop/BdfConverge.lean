import Verif.Prop.BdfStable
import Verif.Prop.BConverge

/-!
# C97: the error of `bdf` of order 1 and 2 does not depend on the stiffness

On contractive systems the error is `O(h)` with a constant that depends on the first two derivatives of the solution only.  (A higher order is
not reached even without stiffness, `C79_refuted`: the starting values are all the initial value.)
-/

namespace Verif
set_option autoImplicit false
open Spec Set

section chain
variable {n : ℕ} {fn : OdeFun ℝ n} {t0 T M1 M2 h : ℝ} {u : ℝ → Vec ℝ n} {v : ℕ → ℝ → Vec ℝ n} {order : ℤ}

/-- the solution satisfies the formulas of order 1 and 2 up to `8 M2 h²` -/
theorem bdf_defect (ho : order = 1 ∨ order = 2) (hM : 0 ≤ M2) (hv : Derivatives t0 T 1 u v) (hb : ∀ t ∈ Icc t0 T, eucl (v 2 t) ≤ M2)
    (hu : ∀ t ∈ Icc t0 T, v 1 t = fn.fn t (u t)) (hh : 0 ≤ h) {i : ℕ} (hi : order.toNat ≤ i) (hiT : t0 + i * h ≤ T) :
    ∃ σ, BdfStep fn order h (t0 + i * h) (fun j => u (t0 + (i - 1 - j : ℕ) * h)) (u (t0 + i * h)) σ ∧ eucl σ ≤ 8 * M2 * h ^ 2 := by
  obtain ⟨hv0, hd⟩ := hv
  have tb := fun q k hk a x ha hax hx => taylor_bound hM hd hb q k hk a x ha hax hx
  refine ⟨_, (add_sub_cancel _ _).symm, ?_⟩
  have hmem : ∀ k : ℕ, k ≤ i → t0 + k * h ∈ Icc t0 T := by
    intro k hk
    have h1 : (k : ℝ) * h ≤ i * h := mul_le_mul_of_nonneg_right (by exact_mod_cast hk) hh
    have h2 : 0 ≤ (k : ℝ) * h := by positivity
    exact ⟨by linarith, by linarith⟩
  rcases ho with rfl | rfl
  · have hC : (bdfC 1 0 : ℝ) = -1 := by simp [bdfC, bdfRow]
    have hW : (bdfW 1 : ℝ) = 1 := by simp [bdfW]
    obtain ⟨k, rfl⟩ : ∃ k, i = k + 1 := ⟨i - 1, by have : (1 : ℤ).toNat = 1 := rfl; omega⟩
    simp only [show (1 : ℤ).toNat = 1 from rfl, Finset.sum_range_one, hC, hW, Nat.sub_zero, Nat.add_sub_cancel, mul_one]
    have ha := (hmem k (by omega)).1
    have e1 : t0 + ((k + 1 : ℕ) : ℝ) * h = t0 + k * h + h := by push_cast; ring
    have hT := (hmem (k + 1) le_rfl).2
    rw [e1] at hT ⊢
    have b1 := tb 1 0 rfl (t0 + k * h) (t0 + k * h + h) ha (by linarith) hT
    have b2 := tb 0 1 rfl (t0 + k * h) (t0 + k * h + h) ha (by linarith) hT
    simp only [taylorP, Finset.sum_range_succ, Finset.sum_range_zero, zero_add, add_sub_cancel_left, pow_zero, Nat.factorial_zero,
      Nat.factorial_one, Nat.cast_one, div_one, one_smul, pow_one, hv0, add_zero] at b1 b2
    rw [← hu _ ⟨by linarith, hT⟩]
    have e : u (t0 + k * h + h) + (-1 : ℝ) • u (t0 + k * h) - h • v 1 (t0 + k * h + h) =
        (u (t0 + k * h + h) - (u (t0 + k * h) + h • v 1 (t0 + k * h))) - h • (v 1 (t0 + k * h + h) - v 1 (t0 + k * h)) := by module
    rw [e]
    refine (eucl_sub _ _).trans ?_
    rw [eucl_smul, abs_of_nonneg hh]
    have := mul_le_mul_of_nonneg_left b2 hh
    have h0 : 0 ≤ M2 * h ^ 2 := by positivity
    rw [show (1 + 1 : ℕ) = 2 from rfl] at b1
    nlinarith
  · have hC : (bdfC 2 0 : ℝ) = -(4 / 3) := by norm_num [bdfC, bdfRow, nq]
    have hC1 : (bdfC 2 1 : ℝ) = 1 / 3 := by simp [bdfC, bdfRow, q]
    have hW : (bdfW 2 : ℝ) = 2 / 3 := by simp [bdfW, q]
    obtain ⟨k, rfl⟩ : ∃ k, i = k + 2 := ⟨i - 2, by have : (2 : ℤ).toNat = 2 := rfl; omega⟩
    have hs : k + 2 - 1 = k + 1 := rfl
    simp only [show (2 : ℤ).toNat = 2 from rfl, Finset.sum_range_succ, Finset.sum_range_zero, zero_add, hC, hC1, hW, Nat.sub_zero, hs,
      Nat.add_sub_cancel]
    have ha := (hmem k (by omega)).1
    have e1 : t0 + ((k + 1 : ℕ) : ℝ) * h = t0 + k * h + h := by push_cast; ring
    have e2 : t0 + ((k + 2 : ℕ) : ℝ) * h = t0 + k * h + 2 * h := by push_cast; ring
    have hT := (hmem (k + 2) le_rfl).2
    rw [e2] at hT
    rw [e1, e2]
    have b0 := tb 1 0 rfl (t0 + k * h) (t0 + k * h + h) ha (by linarith) (by linarith)
    have b1 := tb 1 0 rfl (t0 + k * h) (t0 + k * h + 2 * h) ha (by linarith) hT
    have b2 := tb 0 1 rfl (t0 + k * h) (t0 + k * h + 2 * h) ha (by linarith) hT
    simp only [taylorP, Finset.sum_range_succ, Finset.sum_range_zero, zero_add, add_sub_cancel_left, pow_zero, Nat.factorial_zero,
      Nat.factorial_one, Nat.cast_one, div_one, one_smul, pow_one, hv0, add_zero] at b0 b1 b2
    rw [← hu _ ⟨by linarith, hT⟩]
    have e : u (t0 + k * h + 2 * h) + (-(4 / 3 : ℝ) • u (t0 + k * h + h) + (1 / 3 : ℝ) • u (t0 + k * h)) -
        (h * (2 / 3)) • v 1 (t0 + k * h + 2 * h) =
        ((u (t0 + k * h + 2 * h) - (u (t0 + k * h) + (2 * h) • v 1 (t0 + k * h))) -
          (4 / 3 : ℝ) • (u (t0 + k * h + h) - (u (t0 + k * h) + h • v 1 (t0 + k * h)))) -
        (h * (2 / 3)) • (v 1 (t0 + k * h + 2 * h) - v 1 (t0 + k * h)) := by module
    rw [e]
    have g1 := eucl_sub ((u (t0 + k * h + 2 * h) - (u (t0 + k * h) + (2 * h) • v 1 (t0 + k * h))) -
          (4 / 3 : ℝ) • (u (t0 + k * h + h) - (u (t0 + k * h) + h • v 1 (t0 + k * h))))
        ((h * (2 / 3)) • (v 1 (t0 + k * h + 2 * h) - v 1 (t0 + k * h)))
    have g2 := eucl_sub (u (t0 + k * h + 2 * h) - (u (t0 + k * h) + (2 * h) • v 1 (t0 + k * h)))
          ((4 / 3 : ℝ) • (u (t0 + k * h + h) - (u (t0 + k * h) + h • v 1 (t0 + k * h))))
    rw [eucl_smul, abs_of_nonneg (show (0 : ℝ) ≤ h * (2 / 3) by positivity)] at g1
    rw [eucl_smul, abs_of_nonneg (show (0 : ℝ) ≤ 4 / 3 by norm_num)] at g2
    have g3 := mul_le_mul_of_nonneg_left b2 (show (0 : ℝ) ≤ h * (2 / 3) by positivity)
    rw [show (1 + 1 : ℕ) = 2 from rfl] at b0 b1
    have h0 : 0 ≤ M2 * h ^ 2 := by positivity
    nlinarith

/-- the solution moves by at most `M1 h` per step -/
theorem slow (hv : Derivatives t0 T 1 u v) (hM : 0 ≤ M1) (hb : ∀ t ∈ Icc t0 T, eucl (v 1 t) ≤ M1) {a : ℝ} (ha : t0 ≤ a) (haT : a ≤ T) :
    eucl (u a - u t0) ≤ M1 * (a - t0) := by
  have := taylor_bound (p := 0) hM (fun k hk => hv.2 k (by omega)) hb 0 0 rfl t0 a le_rfl ha haT
  simpa [taylorP, hv.1] using this

/-- a sequence that satisfies the formula of order 1 or 2 up to `δ`, compared with the solution -/
theorem bdf_error (ho : order = 1 ∨ order = 2) {δ : ℝ} {y : ℕ → Vec ℝ n} {y0 : Vec ℝ n} {N : ℕ} (hδ : 0 ≤ δ) (hh : 0 ≤ h) (hM1 : 0 ≤ M1)
    (hM2 : 0 ≤ M2) (hf : Contractive fn.fn) (hv : Derivatives t0 T 1 u v) (hb1 : ∀ t ∈ Icc t0 T, eucl (v 1 t) ≤ M1)
    (hb2 : ∀ t ∈ Icc t0 T, eucl (v 2 t) ≤ M2) (hu : ∀ t ∈ Icc t0 T, v 1 t = fn.fn t (u t)) (hy0 : ∀ i < order.toNat + 1, y i = y0)
    (hstep : ∀ i, order.toNat + 1 ≤ i → i < N → ∃ ρ, eucl ρ ≤ δ ∧
      BdfStep fn order h (t0 + i * h) (fun j => y (i - 1 - j)) (y i) ρ) :
    ∀ i < N, t0 + i * h ≤ T → eucl (y i - u (t0 + i * h)) ≤ 4 * (eucl (y0 - u t0) + 2 * h * M1) + 6 * (i * (δ + 8 * M2 * h ^ 2)) := by
  have hε : 0 ≤ δ + 8 * M2 * h ^ 2 := by positivity
  intro i hi hiT
  have hpos : ∀ k : ℕ, t0 ≤ t0 + k * h := fun k => by
    have : (0 : ℝ) ≤ (k : ℝ) * h := by positivity
    linarith
  have hle : ∀ k : ℕ, k ≤ i → t0 + k * h ≤ T := fun k hk => by
    have : (k : ℝ) * h ≤ i * h := mul_le_mul_of_nonneg_right (by exact_mod_cast hk) hh
    linarith
  have hstart : ∀ k : ℕ, k ≤ i → k ≤ 2 → eucl (y0 - u (t0 + k * h)) ≤ eucl (y0 - u t0) + 2 * h * M1 := by
    intro k hk hk2
    have h1 := slow hv hM1 hb1 (hpos k) (hle k hk)
    rw [add_sub_cancel_left] at h1
    have h2 := eucl_sub (y0 - u t0) (u (t0 + k * h) - u t0)
    rw [sub_sub_sub_cancel_right] at h2
    have h3 : (k : ℝ) ≤ 2 := by exact_mod_cast hk2
    nlinarith [mul_le_mul_of_nonneg_right h3 (mul_nonneg hM1 hh)]
  have hS : 0 ≤ eucl (y0 - u t0) + 2 * h * M1 := add_nonneg (eucl_nonneg _) (by positivity)
  have hstep' : ∀ j, order.toNat ≤ j → j < i → ∃ ρ σ,
      BdfStep fn order h (t0 + (j + 1 : ℕ) * h) (fun l => y (j - 1 - l + 1)) (y (j + 1)) ρ ∧
      BdfStep fn order h (t0 + (j + 1 : ℕ) * h) (fun l => u (t0 + (j - 1 - l + 1 : ℕ) * h)) (u (t0 + (j + 1 : ℕ) * h)) σ ∧
        eucl (ρ - σ) ≤ δ + 8 * M2 * h ^ 2 := by
    intro j hj hji
    obtain ⟨ρ, h1, h2⟩ := hstep (j + 1) (by omega) (by omega)
    obtain ⟨σ, h3, h4⟩ := bdf_defect ho hM2 hv hb2 hu hh (i := j + 1) (by omega) (hle (j + 1) (by omega))
    refine ⟨ρ, σ, ?_, ?_, (eucl_sub ρ σ).trans (add_le_add h1 h4)⟩
    · unfold BdfStep at h2 ⊢
      rw [← h2]
      refine congrArg (fun s => y (j + 1) + s) (Finset.sum_congr rfl fun l hl => ?_)
      have := Finset.mem_range.1 hl
      beta_reduce
      rw [show j - 1 - l + 1 = j + 1 - 1 - l by omega]
    · unfold BdfStep at h3 ⊢
      rw [← h3]
      refine congrArg (fun s => u (t0 + (j + 1 : ℕ) * h) + s) (Finset.sum_congr rfl fun l hl => ?_)
      have := Finset.mem_range.1 hl
      beta_reduce
      rw [show j - 1 - l + 1 = j + 1 - 1 - l by omega]
  by_cases hi2 : i < order.toNat + 1
  · rw [hy0 i hi2]
    have := hstart i le_rfl (by rcases ho with rfl | rfl <;> simp at hi2 <;> omega)
    have : (0 : ℝ) ≤ i * (δ + 8 * M2 * h ^ 2) := by positivity
    linarith
  rcases ho with rfl | rfl
  · obtain ⟨k, rfl⟩ : ∃ k, i = k + 1 := ⟨i - 1, by simp at hi2; omega⟩
    have := bdf1_chain (y := fun i => y (i + 1)) (z := fun i => u (t0 + (i + 1 : ℕ) * h)) (t' := fun i => t0 + (i + 1 : ℕ) * h) (N := k + 1) hε hh
      hf (fun j hj hjk => hstep' j hj hjk) k (by omega)
    simp only [zero_add] at this
    rw [hy0 1 (by decide)] at this
    have h1 := hstart 1 (by omega) (by norm_num)
    have h2 : (0 : ℝ) ≤ k * (δ + 8 * M2 * h ^ 2) := by positivity
    push_cast at this h1 ⊢
    nlinarith
  · obtain ⟨k, rfl⟩ : ∃ k, i = k + 2 := ⟨i - 2, by simp at hi2; omega⟩
    have := bdf2_chain (y := fun i => y (i + 1)) (z := fun i => u (t0 + (i + 1 : ℕ) * h)) (t' := fun i => t0 + (i + 1 : ℕ) * h) (N := k + 2) hε hh
      hf (fun j hj hjk => hstep' j hj hjk) k (by omega)
    simp only [zero_add, show (1 : ℕ) + 1 = 2 from rfl] at this
    rw [hy0 2 (by decide), hy0 1 (by decide)] at this
    have h0 := (le_gNorm _ _).trans this
    have h1 := hstart 1 (by omega) (by norm_num)
    have h2 := hstart 2 (by omega) (by norm_num)
    have h3 : gNorm (toE (y0 - u (t0 + (2 : ℕ) * h))) (toE (y0 - u (t0 + (1 : ℕ) * h))) ≤ 4 * (eucl (y0 - u t0) + 2 * h * M1) := by
      obtain ⟨a, ha⟩ : ∃ a, a = toE (y0 - u (t0 + (2 : ℕ) * h)) := ⟨_, rfl⟩
      obtain ⟨b, hb⟩ : ∃ b, b = toE (y0 - u (t0 + (1 : ℕ) * h)) := ⟨_, rfl⟩
      rw [← norm_toE, ← ha] at h2
      rw [← norm_toE, ← hb] at h1
      rw [← ha, ← hb, gNorm]
      have h4 : ‖(2 : ℝ) • a - b‖ ≤ 3 * (eucl (y0 - u t0) + 2 * h * M1) := by
        refine (norm_sub_le _ _).trans ?_
        rw [norm_smul, Real.norm_eq_abs, abs_of_pos (by norm_num)]
        linarith
      refine Real.sqrt_le_iff.2 ⟨by linarith, ?_⟩
      nlinarith [norm_nonneg a, norm_nonneg ((2 : ℝ) • a - b)]
    rw [norm_toE, show k + 1 + 1 = k + 2 from rfl] at h0
    push_cast at h0 h3 ⊢
    nlinarith

end chain

section run
variable {n : ℕ} {fn : OdeFun ℝ n} {la : LinAlg ℝ} {nd : Bool} {t0 t1 dt T M1 M2 δ : ℝ} {y0 : Vec ℝ n} {order : ℤ} {u : ℝ → Vec ℝ n}
  {v : ℕ → ℝ → Vec ℝ n} {st0 : NewtonStatus ℝ} {fuelB fuel : ℕ} {out : MsOutput ℝ n}

/-- What the solver of `bdf` may leave of the BDF equation: nothing for linear systems, otherwise the step size times the Lipschitz constant times
the increment tolerance `10⁻¹⁰`. -/
def BdfDefect (fn : OdeFun ℝ n) (la : LinAlg ℝ) (h δ : ℝ) (order : ℤ) : Prop :=
  (la.Exact ∧ IsLinear fn ∧ δ = 0) ∨
    ∃ Λ, 0 ≤ Λ ∧ LipschitzE fn.fn Λ ∧ (∀ t y v, eucl ((Matrix.of (fn.jac t y)).mulVec v) ≤ Λ * eucl v) ∧ SolvesNewton la fn (h * bdfW order) ∧
      δ = 2 * h * Λ * (Real.sqrt n / 10 ^ 10)

/-- **C97.**  `bdf` of order 1 or 2 on a contractive system with a solution `u` on `[t0,T]` whose first two derivatives are bounded by `M1` and
`M2`: the error of every sample at a time up to `T` is at most `4 |y0 - u(t0)| + 8 M1 h + 48 (T - t0) M2 h` plus six times the number of steps
times what the solver leaves (nothing for linear systems), `h = min dt (t1 - t0)`.  No bound on the derivatives of `f`, no limit on `h`. -/
theorem C97_convergence (ho : order = 1 ∨ order = 2) (hf : Contractive fn.fn) (hdt : 0 < dt) (ht : t0 < t1)
    (hd : BdfDefect fn la (min dt (t1 - t0)) δ order) (hM1 : 0 ≤ M1) (hM2 : 0 ≤ M2) (hv : Derivatives t0 T 1 u v)
    (hb1 : ∀ t ∈ Icc t0 T, eucl (v 1 t) ≤ M1) (hb2 : ∀ t ∈ Icc t0 T, eucl (v 2 t) ≤ M2) (hu : ∀ t ∈ Icc t0 T, v 1 t = fn.fn t (u t))
    (h : bdf nd la fn t0 t1 y0 order dt st0 fuelB fuel = some (.ret out)) {i : ℕ} {t : ℝ} {y : Vec ℝ n} (hti : out.tVals[i]? = some t)
    (hyi : out.yVals[i]? = some y) (htT : t ≤ T) :
    eucl (y - u t) ≤ 4 * eucl (y0 - u t0) + 8 * M1 * min dt (t1 - t0) + 48 * (T - t0) * M2 * min dt (t1 - t0) + 6 * (i * δ) := by
  have h0 : 0 < order := by omega
  have h6 : order ≤ 6 := by omega
  have hm : 0 < min dt (t1 - t0) := lt_min hdt (by linarith)
  have key : ∃ ys : ℕ → Vec ℝ n, (∀ (i : ℕ) y', out.yVals[i]? = some y' → y' = ys i) ∧ (∀ i < order.toNat + 1, ys i = y0) ∧ 0 ≤ δ ∧
      ∀ i, order.toNat + 1 ≤ i → i < out.yVals.length → ∃ ρ, eucl ρ ≤ δ ∧
        BdfStep fn order (min dt (t1 - t0)) (t0 + i * min dt (t1 - t0)) (fun j => ys (i - 1 - j)) (ys i) ρ := by
    rcases hd with ⟨hla, hlin, rfl⟩ | ⟨Λ, hΛ, hL, hJ, hM, rfl⟩
    · obtain ⟨ys, a1, a2, a3⟩ := linear_steps h0 h6 hla hlin hf hdt ht h
      exact ⟨ys, a1, a2, le_rfl, fun i hi hlt => ⟨0, by rw [eucl_zero], a3 i hi hlt⟩⟩
    · have hW : (bdfW order : ℝ) ≤ 1 := by rcases ho with rfl | rfl <;> norm_num [bdfW, q]
      obtain ⟨ys, a1, a2, a3⟩ := bdf_steps (P := fun ρ => eucl ρ ≤ 2 * min dt (t1 - t0) * Λ * (Real.sqrt n / 10 ^ 10)) h0 h6 h (by
        intro t' w x y' st st' hN hc
        refine ⟨_, (bdf_residual (mul_nonneg hm.le (bdfW_pos order h0 h6).le) hM hΛ hL hJ hN hc).trans ?_, ?_⟩
        · have : min dt (t1 - t0) * bdfW order * (Λ * (Real.sqrt n / 10 ^ 10)) ≤ min dt (t1 - t0) * 1 * (Λ * (Real.sqrt n / 10 ^ 10)) :=
            mul_le_mul_of_nonneg_right (mul_le_mul_of_nonneg_left hW hm.le) (by positivity)
          linarith
        · unfold BdfStep
          rw [add_sub_cancel])
      exact ⟨ys, a1, a2, by positivity, a3⟩
  obtain ⟨ys, a1, a2, hδ, a3⟩ := key
  obtain ⟨N, hN1, hN2, -, hN4, -⟩ := C53_bdf h0 h6 h
  have hiN : i < N := by rw [← hN1]; exact (List.getElem?_eq_some_iff.1 hti).1
  have ht' : t = t0 + i * min dt (t1 - t0) := by
    have := hN4 i hiN
    rw [hti] at this
    simpa using this
  have := bdf_error ho hδ hm.le hM1 hM2 hf hv hb1 hb2 hu a2 a3 i (by omega) (by rw [← ht']; exact htT)
  rw [a1 i y hyi, ht']
  refine this.trans ?_
  have h7 : (i : ℝ) * min dt (t1 - t0) ≤ T - t0 := by rw [ht'] at htT; linarith
  have h8 : (i : ℝ) * min dt (t1 - t0) * (M2 * min dt (t1 - t0)) ≤ (T - t0) * (M2 * min dt (t1 - t0)) :=
    mul_le_mul_of_nonneg_right h7 (by positivity)
  nlinarith

end run

/-- `C97_convergence`, `C96_completes`: order 2 on the Prothero–Robinson equation `y' = λ (y - cos t) - sin t`, from 0 to 1; one bound on the error
serves all `λ ≤ 0` and all step sizes -/
example (l dt : ℝ) (hl : l ≤ 0) (hdt : 0 < dt) : ∃ fuelB fuel out,
    bdf false laReal (prothero l) 0 1 (fun _ => Real.cos 0) 2 dt nStat fuelB fuel = some (.ret out) ∧ out.status = 0 ∧
    ∀ (i : ℕ) t y, out.tVals[i]? = some t → out.yVals[i]? = some y → t ≤ 1 → |y 0 - Real.cos t| ≤ 56 * dt := by
  obtain ⟨f1, f2, f3, f4⟩ := prothero_facts hl 0 1 1
  obtain ⟨-, -, -, g4⟩ := prothero_facts hl 0 1 0
  have hfn : ∀ t y, (prothero l).fn t y = (Matrix.of fun _ _ => l : Matrix (Fin 1) (Fin 1) ℝ).mulVec y +
      (fun t _ => -l * Real.cos t - Real.sin t : ℝ → Vec ℝ 1) t := fun t y => by
    funext k
    have : k = 0 := Subsingleton.elim _ _
    subst this
    simp only [prothero, Pi.add_apply, Matrix.mulVec, dotProduct, Matrix.of_apply, Fin.sum_univ_one]
    ring
  obtain ⟨fuelB, fuel, out, h1, h2, -⟩ := C96_completes (st0 := nStat) (y0 := fun _ => Real.cos 0) (t0 := 0) (t1 := 1) (dt := dt) (order := 2)
    (by norm_num) (by norm_num) hfn (fun _ _ _ _ => rfl)
    (fun R => ⟨|l| + 1, fun t _ k => by
      refine (abs_sub _ _).trans (add_le_add ?_ (Real.abs_sin_le_one t))
      rw [abs_mul, abs_neg]
      exact mul_le_of_le_one_right (abs_nonneg _) (Real.abs_cos_le_one t)⟩) f1 (by norm_num) hdt (by norm_num)
  refine ⟨fuelB, fuel, out, h1, h2, fun i t y hti hyi ht => ?_⟩
  have := C97_convergence (T := 1) (M1 := 1) (M2 := 1) (δ := 0) (u := fun t _ => Real.cos t) (Or.inr rfl) f1 hdt (by norm_num)
    (Or.inl ⟨laReal_exact, ⟨_, _, hfn, fun _ _ _ _ => rfl⟩, rfl⟩) zero_le_one zero_le_one f2 g4 f4 f3 h1 hti hyi ht
  rw [sub_self, eucl_zero, eucl_one] at this
  have hle : min dt (1 - 0 : ℝ) ≤ dt := min_le_left _ _
  simp only [Pi.sub_apply] at this
  linarith

end Verif
