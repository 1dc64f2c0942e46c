import Verif.NewtonConverge
import Mathlib.Analysis.InnerProductSpace.PiL2
import Mathlib.LinearAlgebra.Matrix.NonsingularInverse

/-!
# Broyden's method: the trace of `broyden_iterate`, and local convergence of the recurrence in exact arithmetic
-/

set_option linter.unusedSectionVars false

namespace Verif

open Matrix

variable {n : ℕ}

/-! ### The trace of a run -/

section trace
variable {fn : Vec ℝ n → Vec ℝ n} {x xr : Vec ℝ n} {o : NewtonOpts ℝ} {st0 st : NewtonStatus ℝ}

/-- the state after one more pass -/
noncomputable def broydenSucc (fn : Vec ℝ n → Vec ℝ n) (o : NewtonOpts ℝ) (st0 : NewtonStatus ℝ) (s : BroydenState ℝ n) :
    BroydenState ℝ n :=
  match broydenBody fn o st0 s with
  | .next s' => s'
  | .done _ => s

/-- the states of a run -/
noncomputable def broydenStates (fn : Vec ℝ n → Vec ℝ n) (x : Vec ℝ n) (o : NewtonOpts ℝ) (st0 : NewtonStatus ℝ)
    (k : ℕ) : BroydenState ℝ n := (broydenSucc fn o st0)^[k] (broydenInit fn x)

theorem broyden_reach {s : BroydenState ℝ n} (h : Reach (broydenBody fn o st0) (broydenInit fn x) s) :
    ∃ N, s.iters = N + 1 ∧ s = broydenStates fn x o st0 N ∧
      ∀ k < N, broydenBody fn o st0 (broydenStates fn x o st0 k) = .next (broydenStates fn x o st0 (k + 1)) := by
  induction h with
  | refl => exact ⟨0, rfl, rfl, fun k hk => absurd hk (Nat.not_lt_zero k)⟩
  | @tail a b hr hb ih =>
    obtain ⟨N, h1, h2, h3⟩ := ih
    have hsucc : b = broydenStates fn x o st0 (N + 1) := by
      unfold broydenStates
      rw [Function.iterate_succ_apply']
      change b = broydenSucc fn o st0 (broydenStates fn x o st0 N)
      rw [← h2]
      unfold broydenSucc
      rw [hb]
    refine ⟨N + 1, by rw [(broydenBody_iters hb).1, h1], hsucc, fun k hk => ?_⟩
    rcases Nat.lt_succ_iff_lt_or_eq.1 hk with hk | rfl
    · exact h3 k hk
    · rw [← h2, ← hsucc, hb]

theorem broyden_state (k : ℕ) : (broydenStates fn x o st0 k).f0 = fn (broydenStates fn x o st0 k).x ∧
    (broydenStates fn x o st0 k).res2 = fn (broydenStates fn x o st0 k).x ⬝ᵥ fn (broydenStates fn x o st0 k).x := by
  have key : ∀ s : BroydenState ℝ n, (s.f0 = fn s.x ∧ s.res2 = fn s.x ⬝ᵥ fn s.x) →
      ((broydenSucc fn o st0 s).f0 = fn (broydenSucc fn o st0 s).x ∧
        (broydenSucc fn o st0 s).res2 = fn (broydenSucc fn o st0 s).x ⬝ᵥ fn (broydenSucc fn o st0 s).x) := by
    intro s hs
    unfold broydenSucc
    cases hb : broydenBody fn o st0 s with
    | done r => exact hs
    | next s' =>
      obtain ⟨-, h2, h3, -⟩ := broyden_next hb
      refine ⟨h2, ?_⟩
      simp only [h3, h2, dot_real]
      rfl
  induction k with
  | zero =>
    refine ⟨rfl, ?_⟩
    change dot (fn x) (fn x) = fn x ⬝ᵥ fn x
    rw [dot_real]; rfl
  | succ k ih =>
    unfold broydenStates at ih ⊢
    rw [Function.iterate_succ_apply']
    exact key _ ih

theorem broyden_term {s s' : BroydenState ℝ n} (hb : broydenBody fn o st0 s = .next s') :
    s'.term = true ↔ ‖s'.x - s.x‖ < o.dxDelta ∨ fn s'.x ⬝ᵥ fn s'.x < o.tol ^ 2 := by
  unfold broydenBody at hb
  split_ifs at hb
  simp only [LoopStep.next.injEq] at hb
  rw [← hb]
  have e : (fun i => s.x i + broydenDir o s i) - s.x = broydenDir o s := by funext i; simp
  simp only [Bool.or_eq_true, ltb_real, normInf_real, e, dot_real, ← pow_two]
  simp only [dotProduct, ← pow_two]

end trace

/-! ### Euclidean length -/

/-- Euclidean length of a vector -/
noncomputable def elen (v : Fin n → ℝ) : ℝ := ‖WithLp.toLp 2 v‖

theorem elen_eq (v : Fin n → ℝ) : elen v = Real.sqrt (v ⬝ᵥ v) := by
  unfold elen
  rw [EuclideanSpace.norm_eq]
  congr 1
  exact Finset.sum_congr rfl fun i _ => by simp [pow_two]

theorem elen_nonneg (v : Fin n → ℝ) : 0 ≤ elen v := norm_nonneg _

theorem elen_sq (v : Fin n → ℝ) : elen v ^ 2 = v ⬝ᵥ v := by
  rw [elen_eq, Real.sq_sqrt]
  exact Finset.sum_nonneg fun i _ => mul_self_nonneg _

theorem elen_add (v w : Fin n → ℝ) : elen (v + w) ≤ elen v + elen w := norm_add_le _ _

theorem elen_sub (v w : Fin n → ℝ) : elen (v - w) ≤ elen v + elen w := norm_sub_le _ _

theorem elen_neg (v : Fin n → ℝ) : elen (-v) = elen v := norm_neg (WithLp.toLp 2 v)

theorem elen_smul (c : ℝ) (v : Fin n → ℝ) : elen (c • v) = |c| * elen v := by
  unfold elen
  rw [WithLp.toLp_smul, norm_smul, Real.norm_eq_abs]

theorem elen_eq_zero {v : Fin n → ℝ} : elen v = 0 ↔ v = 0 := by
  unfold elen
  rw [norm_eq_zero, WithLp.toLp_eq_zero]

theorem elen_zero : elen (0 : Fin n → ℝ) = 0 := elen_eq_zero.2 rfl

theorem abs_dot_le (v w : Fin n → ℝ) : |v ⬝ᵥ w| ≤ elen v * elen w := by
  have h := abs_real_inner_le_norm (WithLp.toLp 2 w) (WithLp.toLp 2 v)
  rw [EuclideanSpace.inner_eq_star_dotProduct] at h
  simp only [star_trivial] at h
  rw [mul_comm]
  exact h

/-- comparison with the maximum norm -/
theorem elen_le_norm (v : Fin n → ℝ) : elen v ≤ Real.sqrt n * ‖v‖ := by
  rw [elen_eq]
  rw [show Real.sqrt n * ‖v‖ = Real.sqrt (n * ‖v‖ ^ 2) by
    rw [Real.sqrt_mul (Nat.cast_nonneg n), Real.sqrt_sq (norm_nonneg v)]]
  refine Real.sqrt_le_sqrt ?_
  have : ∀ i ∈ (Finset.univ : Finset (Fin n)), v i * v i ≤ ‖v‖ ^ 2 := by
    intro i _
    have h := norm_le_pi_norm v i
    rw [Real.norm_eq_abs] at h
    nlinarith [abs_nonneg (v i), abs_mul_abs_self (v i)]
  have h := Finset.sum_le_card_nsmul _ _ _ this
  simpa [dotProduct] using h

/-! ### The update -/

/-- Broyden's update of an approximation `B` of the inverse Jacobi matrix -/
noncomputable def goodBroyden (B : Matrix (Fin n) (Fin n) ℝ) (dx df : Fin n → ℝ) : Matrix (Fin n) (Fin n) ℝ :=
  B + (1 / (dx ⬝ᵥ B *ᵥ df)) • vecMulVec (dx - B *ᵥ df) (dx ᵥ* B)

/-- Broyden's update of an approximation `A` of the Jacobi matrix -/
noncomputable def goodBroydenJ (A : Matrix (Fin n) (Fin n) ℝ) (dx df : Fin n → ℝ) : Matrix (Fin n) (Fin n) ℝ :=
  A + (1 / (dx ⬝ᵥ dx)) • vecMulVec (df - A *ᵥ dx) dx

theorem broydenUpdate_good (J : Mat ℝ n) (dx df : Vec ℝ n) :
    Matrix.of (broydenUpdate J dx df) = goodBroyden (Matrix.of J) dx df := by
  ext i j
  have h1 : mulVec J df = Matrix.of J *ᵥ df := mulVec_real J df
  have h2 : vecMul dx J = dx ᵥ* Matrix.of J := by
    funext j
    unfold vecMul
    rw [sumFin_real]
    rfl
  have h3 : dot (dx ᵥ* Matrix.of J) df = dx ⬝ᵥ Matrix.of J *ᵥ df := by
    rw [dot_real, dotProduct_mulVec]; rfl
  simp only [broydenUpdate, goodBroyden, h1, h2, h3, Matrix.of_apply, Matrix.add_apply, Matrix.smul_apply,
    vecMulVec_apply, Pi.sub_apply, smul_eq_mul]
  ring

/-- the two updates are inverse to each other (Sherman and Morrison) -/
theorem goodBroyden_inv {A B : Matrix (Fin n) (Fin n) ℝ} (hBA : B * A = 1) {dx df : Fin n → ℝ}
    (hne : dx ⬝ᵥ B *ᵥ df ≠ 0) (hdx : dx ⬝ᵥ dx ≠ 0) : goodBroyden B dx df * goodBroydenJ A dx df = 1 := by
  have hAB : A * B = 1 := mul_eq_one_comm.1 hBA
  set g := dx ⬝ᵥ B *ᵥ df with hg
  set q := dx ⬝ᵥ dx with hq
  have e1 : B * vecMulVec (df - A *ᵥ dx) dx = vecMulVec (B *ᵥ df - dx) dx := by
    rw [mul_vecMulVec, mulVec_sub, mulVec_mulVec, hBA, one_mulVec]
  have e2 : vecMulVec (dx - B *ᵥ df) (dx ᵥ* B) * A = vecMulVec (dx - B *ᵥ df) dx := by
    rw [vecMulVec_mul, vecMul_vecMul, hBA, vecMul_one]
  have e3 : vecMulVec (dx - B *ᵥ df) (dx ᵥ* B) * vecMulVec (df - A *ᵥ dx) dx =
      (g - q) • vecMulVec (dx - B *ᵥ df) dx := by
    rw [vecMulVec_mul_vecMulVec]
    have : (dx ᵥ* B) ⬝ᵥ (df - A *ᵥ dx) = g - q := by
      rw [dotProduct_sub, ← dotProduct_mulVec, ← dotProduct_mulVec, mulVec_mulVec, hBA, one_mulVec]
    rw [this, vecMulVec_smul]
  unfold goodBroyden goodBroydenJ
  rw [← hg, ← hq, add_mul, mul_add, mul_add, hBA, Matrix.mul_smul, e1, Matrix.smul_mul, e2, Matrix.smul_mul,
    Matrix.mul_smul, e3]
  have e4 : vecMulVec (B *ᵥ df - dx) dx = - vecMulVec (dx - B *ᵥ df) dx := by
    rw [← neg_vecMulVec, neg_sub]
  rw [e4, smul_smul, smul_smul, smul_neg]
  have : (1 / g) • vecMulVec (dx - B *ᵥ df) dx + (1 / g * (1 / q) * (g - q)) • vecMulVec (dx - B *ᵥ df) dx
      = (1 / q) • vecMulVec (dx - B *ᵥ df) dx := by
    rw [← add_smul]
    congr 1
    field_simp
    ring
  rw [show (1 : Matrix (Fin n) (Fin n) ℝ) + -((1 / q) • vecMulVec (dx - B *ᵥ df) dx) +
      ((1 / g) • vecMulVec (dx - B *ᵥ df) dx + (1 / g * (1 / q) * (g - q)) • vecMulVec (dx - B *ᵥ df) dx) =
      1 + (-((1 / q) • vecMulVec (dx - B *ᵥ df) dx) +
        ((1 / g) • vecMulVec (dx - B *ᵥ df) dx + (1 / g * (1 / q) * (g - q)) • vecMulVec (dx - B *ᵥ df) dx))
      from add_assoc _ _ _, this, neg_add_cancel, add_zero]

/-- `A` is within `c` of `J` in the operator norm of Euclidean length -/
def OpNear (c : ℝ) (A J : Matrix (Fin n) (Fin n) ℝ) : Prop := ∀ v, elen (A *ᵥ v - J *ᵥ v) ≤ c * elen v

/-- bounded deterioration -/
theorem opNear_update {A J : Matrix (Fin n) (Fin n) ℝ} {c d : ℝ} (hA : OpNear c A J) (hc : 0 ≤ c) {dx df : Fin n → ℝ}
    (hdx : 0 < elen dx) (hf : elen (df - J *ᵥ dx) ≤ d * elen dx) :
    OpNear (c + d) (goodBroydenJ A dx df) J := by
  intro v
  have hq : dx ⬝ᵥ dx = elen dx ^ 2 := (elen_sq dx).symm
  set t := (dx ⬝ᵥ v) / (dx ⬝ᵥ dx) with ht
  have hqp : 0 < dx ⬝ᵥ dx := by rw [hq]; positivity
  have e : goodBroydenJ A dx df *ᵥ v - J *ᵥ v =
      (A *ᵥ (v - t • dx) - J *ᵥ (v - t • dx)) + t • (df - J *ᵥ dx) := by
    unfold goodBroydenJ
    rw [add_mulVec, smul_mulVec, vecMulVec_mulVec, mulVec_sub, mulVec_sub, mulVec_smul, mulVec_smul]
    funext i
    simp only [Pi.add_apply, Pi.sub_apply, Pi.smul_apply, smul_eq_mul, ht, MulOpposite.smul_eq_mul_unop,
      MulOpposite.unop_op]
    field_simp
    ring
  have hproj : elen (v - t • dx) ≤ elen v := by
    have : elen (v - t • dx) ^ 2 ≤ elen v ^ 2 := by
      rw [elen_sq, elen_sq]
      have : (v - t • dx) ⬝ᵥ (v - t • dx) = v ⬝ᵥ v - (dx ⬝ᵥ v) ^ 2 / (dx ⬝ᵥ dx) := by
        rw [sub_dotProduct, dotProduct_sub, dotProduct_sub, smul_dotProduct, dotProduct_smul, smul_dotProduct,
          dotProduct_smul, dotProduct_comm v dx, ht]
        simp only [smul_eq_mul]
        field_simp
        ring
      rw [this]
      have : 0 ≤ (dx ⬝ᵥ v) ^ 2 / (dx ⬝ᵥ dx) := by positivity
      linarith
    exact le_of_sq_le_sq this (elen_nonneg v)
  have htl : |t| * elen dx ≤ elen v := by
    rw [ht, abs_div, abs_of_pos hqp, hq, div_mul_eq_mul_div, div_le_iff₀ (by positivity)]
    have := abs_dot_le dx v
    nlinarith
  rw [e]
  refine (elen_add _ _).trans ?_
  rw [elen_smul, add_mul]
  refine add_le_add ((hA _).trans (mul_le_mul_of_nonneg_left hproj hc)) ?_
  have hd : 0 ≤ d := by
    by_contra h
    push Not at h
    have := (elen_nonneg _).trans hf
    nlinarith
  calc |t| * elen (df - J *ᵥ dx) ≤ |t| * (d * elen dx) := mul_le_mul_of_nonneg_left hf (abs_nonneg t)
    _ = d * (|t| * elen dx) := by ring
    _ ≤ d * elen v := mul_le_mul_of_nonneg_left htl hd

end Verif
