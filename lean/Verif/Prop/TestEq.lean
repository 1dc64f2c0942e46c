import Verif.TestEq
import Verif.Prop.ErkReal
import Verif.Prop.IrkReal
import Mathlib.Analysis.Calculus.FDeriv.Pi
import Mathlib.Analysis.Calculus.Deriv.Prod
import Mathlib.Analysis.Calculus.FDeriv.Mul
import Mathlib.Analysis.SpecialFunctions.Sqrt
import Mathlib.Analysis.SpecialFunctions.ExpDeriv
import Mathlib.Analysis.SpecialFunctions.Trigonometric.Deriv
import Mathlib.Topology.Algebra.Module.FiniteDimension

/-!
# Properties C55, C56, C57, C58: the shipped test equations
-/

set_option linter.unusedSectionVars false

namespace Verif
open TestEq

/-- `J` is the derivative of `f` at `y` -/
def IsJacobianAt {n : ℕ} (f : Vec ℝ n → Vec ℝ n) (J : Fin n → Fin n → ℝ) (y : Vec ℝ n) : Prop :=
  HasFDerivAt f (LinearMap.toContinuousLinearMap (Matrix.toLin' (Matrix.of J))) y

/-- the test equations other than `three_body` -/
inductive ShippedEq : (n : ℕ) → OdeFun ℝ n → Prop
  | exponential (l : ℝ) : ShippedEq 1 (exponential l)
  | harmonic (w : ℝ) : ShippedEq 2 (harmonic w)
  | vdpol (mu : ℝ) : ShippedEq 2 (vdpol mu)
  | bruss (a b : ℝ) : ShippedEq 2 (bruss a b)
  | rober : ShippedEq 3 rober
  | dimer (rate : ℝ) : ShippedEq 2 (dimer rate)
  | stiff : ShippedEq 2 stiffEq
  | kinetic4 (b2 b3 b4 : ℝ) : ShippedEq 4 (kinetic4 b2 b3 b4)
  | lorenz (s r b : ℝ) : ShippedEq 3 (lorenz s r b)

theorem isJacobianAt_of {n : ℕ} {f : Vec ℝ n → Vec ℝ n} {J : Fin n → Fin n → ℝ} {y : Vec ℝ n}
    (h : ∀ i, ∃ L : Vec ℝ n →L[ℝ] ℝ, HasFDerivAt (fun z => f z i) L y ∧ ∀ v, L v = ∑ j, J i j * v j) :
    IsJacobianAt f J y := by
  unfold IsJacobianAt
  rw [hasFDerivAt_pi']
  intro i
  obtain ⟨L, hL, he⟩ := h i
  refine hL.congr_fderiv ?_
  ext v
  rw [he]
  simp [Matrix.toLin'_apply, Matrix.mulVec, dotProduct]

theorem isJacobianAt_entry {n : ℕ} {f : Vec ℝ n → Vec ℝ n} {J : Fin n → Fin n → ℝ} {y : Vec ℝ n}
    (h : IsJacobianAt f J y) (i : Fin n) : ∃ L : Vec ℝ n →L[ℝ] ℝ, HasFDerivAt (fun z => f z i) L y ∧
      ∀ v, L v = ∑ j, J i j * v j := by
  unfold IsJacobianAt at h
  rw [hasFDerivAt_pi'] at h
  refine ⟨_, h i, fun v => ?_⟩
  simp [Matrix.toLin'_apply, Matrix.mulVec, dotProduct]

theorem hasFDerivAt_coord {n : ℕ} (y : Vec ℝ n) (i : Fin n) :
    HasFDerivAt (fun z : Vec ℝ n => z i)
      (ContinuousLinearMap.proj (R := ℝ) (φ := fun _ : Fin n => ℝ) i) y :=
  (ContinuousLinearMap.proj (R := ℝ) (φ := fun _ : Fin n => ℝ) i).hasFDerivAt

/-- **C55 (all equations but `three_body`).**  The shipped Jacobi matrix is the derivative of the shipped right-hand
side, at every time and state and for every value of the parameters. -/
theorem C55_jacobian_partial {n : ℕ} {fn : OdeFun ℝ n} (h : ShippedEq n fn) (t : ℝ) (y : Vec ℝ n) :
    IsJacobianAt (fn.fn t) (fn.jac t y) y := by
  have c := hasFDerivAt_coord y
  refine isJacobianAt_of fun i => ?_
  cases h with
  | exponential l =>
    refine ⟨_, (c i).const_mul l, fun v => ?_⟩
    fin_cases i
    simp [exponential]
  | harmonic w =>
    fin_cases i
    · refine ⟨_, (c 1).const_mul w, fun v => ?_⟩
      simp [harmonic, Fin.sum_univ_two]
    · refine ⟨_, (c 0).const_mul (-w), fun v => ?_⟩
      simp [harmonic, Fin.sum_univ_two]
  | vdpol mu =>
    fin_cases i
    · refine ⟨_, c 1, fun v => ?_⟩
      simp [vdpol, Fin.sum_univ_two]
    · have h1 := (((((c 0).mul (c 0)).const_sub 1).mul (c 1)).sub (c 0)).mul_const (mu⁻¹)
      refine ⟨_, h1.congr_of_eventuallyEq (Filter.Eventually.of_forall fun z => ?_), fun v => ?_⟩
      · simp [vdpol, div_eq_mul_inv]
      · simp [vdpol, Fin.sum_univ_two]; ring
  | bruss a b =>
    fin_cases i
    · have h1 := ((((((c 0).mul (c 0)).mul (c 1)).const_add a).sub ((c 0).const_mul b)).sub (c 0))
      refine ⟨_, h1.congr_of_eventuallyEq (Filter.Eventually.of_forall fun z => ?_), fun v => ?_⟩
      · simp [bruss]
      · simp [bruss, Fin.sum_univ_two]; ring
    · have h1 := ((c 0).const_mul b).sub (((c 0).mul (c 0)).mul (c 1))
      refine ⟨_, h1.congr_of_eventuallyEq (Filter.Eventually.of_forall fun z => ?_), fun v => ?_⟩
      · simp [bruss]
      · simp [bruss, Fin.sum_univ_two]; ring
  | rober =>
    fin_cases i
    · have h1 := ((c 0).const_mul (-(4/100))).add (((c 1).const_mul (10^4)).mul (c 2))
      refine ⟨_, h1.congr_of_eventuallyEq (Filter.Eventually.of_forall fun z => ?_), fun v => ?_⟩
      · simp [rober]
      · simp [rober, Fin.sum_univ_three]; ring
    · have h1 := (((c 0).const_mul (4/100)).sub (((c 1).const_mul (10^4)).mul (c 2))).sub
        (((c 1).const_mul (3 * 10^7)).mul (c 1))
      refine ⟨_, h1.congr_of_eventuallyEq (Filter.Eventually.of_forall fun z => ?_), fun v => ?_⟩
      · simp [rober]
      · simp [rober, Fin.sum_univ_three]; ring
    · have h1 := (((c 1).const_mul (3 * 10^7)).mul (c 1))
      refine ⟨_, h1.congr_of_eventuallyEq (Filter.Eventually.of_forall fun z => ?_), fun v => ?_⟩
      · simp [rober]
      · simp [rober, Fin.sum_univ_three]; ring
  | dimer rate =>
    fin_cases i
    · have h1 := (((c 0).const_mul (-2 * rate)).mul (c 0)).add ((c 1).const_mul (2 * (1 / rate)))
      refine ⟨_, h1.congr_of_eventuallyEq (Filter.Eventually.of_forall fun z => ?_), fun v => ?_⟩
      · simp [dimer]
      · simp [dimer, Fin.sum_univ_two]; ring
    · have h1 := (((c 0).const_mul rate).mul (c 0)).sub ((c 1).const_mul (1 / rate))
      refine ⟨_, h1.congr_of_eventuallyEq (Filter.Eventually.of_forall fun z => ?_), fun v => ?_⟩
      · simp [dimer]
      · simp [dimer, Fin.sum_univ_two]; ring
  | stiff =>
    fin_cases i
    · have h1 := ((c 0).const_mul 0).add ((c 1).const_mul 1)
      refine ⟨_, h1.congr_of_eventuallyEq (Filter.Eventually.of_forall fun z => ?_), fun v => ?_⟩
      · simp [stiffEq, stiffA, mulVec, sumFin_real, Fin.sum_univ_two]
      · simp [stiffEq, stiffA, Fin.sum_univ_two]
    · have h1 := ((c 0).const_mul (-1000)).add ((c 1).const_mul (-1001))
      refine ⟨_, h1.congr_of_eventuallyEq (Filter.Eventually.of_forall fun z => ?_), fun v => ?_⟩
      · simp [stiffEq, stiffA, mulVec, sumFin_real, Fin.sum_univ_two]
      · simp [stiffEq, stiffA, Fin.sum_univ_two]
  | kinetic4 b2 b3 b4 =>
    fin_cases i
    · have h1 := ((((c 0).const_mul (-2)).mul (c 0)).sub ((c 0).mul ((c 1).add (c 2)))).add
        ((((c 1).const_mul (2 * b2)).add ((c 2).const_mul b3)).add ((c 3).const_mul b4))
      refine ⟨_, h1.congr_of_eventuallyEq (Filter.Eventually.of_forall fun z => ?_), fun v => ?_⟩
      · simp [kinetic4]
      · simp [kinetic4, Fin.sum_univ_four]; ring
    · have h1 := ((((c 0).mul (c 0)).sub ((c 0).mul (c 1))).add ((c 2).const_mul b3)).sub ((c 1).const_mul b2)
      refine ⟨_, h1.congr_of_eventuallyEq (Filter.Eventually.of_forall fun z => ?_), fun v => ?_⟩
      · simp [kinetic4]
      · simp [kinetic4, Fin.sum_univ_four]; ring
    · have h1 := ((((c 0).mul (c 1)).sub ((c 0).mul (c 2))).add ((c 3).const_mul b4)).sub ((c 2).const_mul b3)
      refine ⟨_, h1.congr_of_eventuallyEq (Filter.Eventually.of_forall fun z => ?_), fun v => ?_⟩
      · simp [kinetic4]
      · simp [kinetic4, Fin.sum_univ_four]; ring
    · have h1 := ((c 0).mul (c 2)).sub ((c 3).const_mul b4)
      refine ⟨_, h1.congr_of_eventuallyEq (Filter.Eventually.of_forall fun z => ?_), fun v => ?_⟩
      · simp [kinetic4]
      · simp [kinetic4, Fin.sum_univ_four]; ring
  | lorenz s r b =>
    fin_cases i
    · have h1 := ((c 1).sub (c 0)).const_mul s
      refine ⟨_, h1.congr_of_eventuallyEq (Filter.Eventually.of_forall fun z => ?_), fun v => ?_⟩
      · simp [lorenz]
      · simp [lorenz, Fin.sum_univ_three]; ring
    · have h1 := ((c 0).mul ((c 2).const_sub r)).sub (c 1)
      refine ⟨_, h1.congr_of_eventuallyEq (Filter.Eventually.of_forall fun z => ?_), fun v => ?_⟩
      · simp [lorenz]
      · simp [lorenz, Fin.sum_univ_three]; ring
    · have h1 := ((c 0).mul (c 1)).sub ((c 2).const_mul b)
      refine ⟨_, h1.congr_of_eventuallyEq (Filter.Eventually.of_forall fun z => ?_), fun v => ?_⟩
      · simp [lorenz]
      · simp [lorenz, Fin.sum_univ_three]; ring

/-- all shipped test equations (positive masses in `three_body`) -/
inductive AnyEq : (n : ℕ) → OdeFun ℝ n → Prop
  | other {n : ℕ} {fn : OdeFun ℝ n} : ShippedEq n fn → AnyEq n fn
  | threeBody {m1 m2 m3 : ℝ} : 0 < m1 → 0 < m2 → 0 < m3 → AnyEq 12 (threeBody m1 m2 m3)

/-- the full statement of C55 -/
def C55_claim : Prop := ∀ (n : ℕ) (fn : OdeFun ℝ n) (t : ℝ) (y : Vec ℝ n), AnyEq n fn →
  DifferentiableAt ℝ (fn.fn t) y → IsJacobianAt (fn.fn t) (fn.jac t y) y

/-- The matrix returned by `three_body::jac` is the derivative of `three_body::fun` at no state whatsoever. -/
theorem C55_three_body_never {m1 : ℝ} (h1 : m1 ≠ 0) (m2 m3 t : ℝ) (y : Vec ℝ 12) :
    ¬ IsJacobianAt ((threeBody m1 m2 m3).fn t) ((threeBody m1 m2 m3).jac t y) y := by
  intro h
  obtain ⟨L, hL, he⟩ := isJacobianAt_entry h 0
  have h2 := (hasFDerivAt_coord y 6).mul_const (m1⁻¹)
  have h3 := hL.unique (h2.congr_of_eventuallyEq (Filter.Eventually.of_forall fun z => by
    simp [threeBody, threeBodyFun, div_eq_mul_inv]))
  have h4 := he (Pi.single 0 1)
  rw [h3] at h4
  simp [Pi.single_apply, threeBody, threeBodyJ] at h4
  exact h1 h4

/-- three bodies at (0,0), (1,0), (0,1) at rest -/
def triangle : Vec ℝ 12 := ![0, 0, 1, 0, 0, 1, 0, 0, 0, 0, 0, 0]

/-- `three_body::fun` is differentiable where no two bodies coincide -/
theorem threeBody_diff (m1 m2 m3 t : ℝ) (y : Vec ℝ 12)
    (h12 : (y 2 - y 0) * (y 2 - y 0) + (y 3 - y 1) * (y 3 - y 1) ≠ 0)
    (h13 : (y 4 - y 0) * (y 4 - y 0) + (y 5 - y 1) * (y 5 - y 1) ≠ 0)
    (h23 : (y 4 - y 2) * (y 4 - y 2) + (y 5 - y 3) * (y 5 - y 3) ≠ 0) :
    DifferentiableAt ℝ ((threeBody m1 m2 m3).fn t) y := by
  have s12 : √((y 2 - y 0) * (y 2 - y 0) + (y 3 - y 1) * (y 3 - y 1)) ≠ 0 := by
    rw [Real.sqrt_ne_zero (by nlinarith [mul_self_nonneg (y 2 - y 0), mul_self_nonneg (y 3 - y 1)])]; exact h12
  have s13 : √((y 4 - y 0) * (y 4 - y 0) + (y 5 - y 1) * (y 5 - y 1)) ≠ 0 := by
    rw [Real.sqrt_ne_zero (by nlinarith [mul_self_nonneg (y 4 - y 0), mul_self_nonneg (y 5 - y 1)])]; exact h13
  have s23 : √((y 4 - y 2) * (y 4 - y 2) + (y 5 - y 3) * (y 5 - y 3)) ≠ 0 := by
    rw [Real.sqrt_ne_zero (by nlinarith [mul_self_nonneg (y 4 - y 2), mul_self_nonneg (y 5 - y 3)])]; exact h23
  have m12 := mul_ne_zero h12 s12
  have m13 := mul_ne_zero h13 s13
  have m23 := mul_ne_zero h23 s23
  rw [differentiableAt_pi]
  intro i
  fin_cases i
  all_goals
    simp only [threeBody, threeBodyFun, ssqrt_real]
    simp
    fun_prop (disch := assumption)

theorem triangle_diff : DifferentiableAt ℝ ((threeBody 1 1 1).fn 0) triangle := by
  refine threeBody_diff _ _ _ _ _ ?_ ?_ ?_ <;> simp [triangle]

/-- **C55 is false**, because of `three_body`. -/
theorem C55_refuted : ¬ C55_claim := fun h =>
  C55_three_body_never one_ne_zero 1 1 0 triangle (h 12 _ 0 triangle (.threeBody one_pos one_pos one_pos) triangle_diff)

example : ShippedEq 3 rober := .rober

/-! ### C56: closed-form solutions -/

/-- **C56.**  `exponential::sol` solves the equation with initial value 1. -/
theorem C56_exponential (l t : ℝ) :
    HasDerivAt (exponentialSol l) ((exponential l).fn t (exponentialSol l t)) t ∧ exponentialSol l 0 = ![1] := by
  constructor
  · rw [hasDerivAt_pi]
    intro i
    fin_cases i
    have h := ((hasDerivAt_id t).const_mul l).exp
    simp only [exponentialSol, exponential]
    refine h.congr_deriv ?_
    simp; ring
  · funext i; fin_cases i; simp [exponentialSol]

/-- **C56.**  `harmonic::sol` solves the equation with initial value (0, 1). -/
theorem C56_harmonic (w t : ℝ) :
    HasDerivAt (harmonicSol w) ((harmonic w).fn t (harmonicSol w t)) t ∧ harmonicSol w 0 = ![0, 1] := by
  constructor
  · rw [hasDerivAt_pi]
    intro i
    fin_cases i
    · refine ((hasDerivAt_id t).const_mul w).sin.congr_deriv ?_
      simp [harmonic, harmonicSol]; ring
    · refine ((hasDerivAt_id t).const_mul w).cos.congr_deriv ?_
      simp [harmonic, harmonicSol]; ring
  · funext i; fin_cases i <;> simp [harmonicSol]

/-- **C56.**  `stiff_eq::sol` solves the equation with initial value (1, 0), the one in the comment. -/
theorem C56_stiff (t : ℝ) :
    HasDerivAt stiffSol (stiffEq.fn t (stiffSol t)) t ∧ stiffSol 0 = ![1, 0] := by
  have h1 : HasDerivAt (fun t : ℝ => Real.exp (-1000 * t)) (Real.exp (-1000 * t) * (-1000 * 1)) t :=
    ((hasDerivAt_id t).const_mul (-1000)).exp
  have h2 : HasDerivAt (fun t : ℝ => Real.exp (-t)) (Real.exp (-t) * (-1)) t := (hasDerivAt_id t).neg.exp
  constructor
  · rw [hasDerivAt_pi]
    intro i
    fin_cases i
    · refine ((h1.neg.div_const 999).add ((h2.const_mul 1000).div_const 999)).congr_deriv ?_
      simp [stiffEq, stiffSol, stiffA, mulVec, sumFin_real, Fin.sum_univ_two]; ring
    · refine (((h1.const_mul 1000).sub (h2.const_mul 1000)).div_const 999).congr_deriv ?_
      simp [stiffEq, stiffSol, stiffA, mulVec, sumFin_real, Fin.sum_univ_two]; ring
  · funext i; fin_cases i <;> simp [stiffSol]; norm_num

/-! ### C57: conserved quantities -/

/-- the weights of the conserved quantities -/
inductive MassWeights : (n : ℕ) → OdeFun ℝ n → (Fin n → ℝ) → Prop
  | rober : MassWeights 3 rober ![1, 1, 1]
  | dimer (rate : ℝ) : MassWeights 2 (dimer rate) ![1, 2]
  | kinetic4 (b2 b3 b4 : ℝ) : MassWeights 4 (kinetic4 b2 b3 b4) ![1, 2, 3, 4]

/-- **C57.**  The right-hand side is orthogonal to the weights, at all states. -/
theorem C57_orthogonal {n : ℕ} {fn : OdeFun ℝ n} {w : Fin n → ℝ} (h : MassWeights n fn w) (t : ℝ) (y : Vec ℝ n) :
    ∑ i, w i * fn.fn t y i = 0 := by
  cases h with
  | rober => simp [rober, Fin.sum_univ_three]; ring
  | dimer rate => simp [dimer, Fin.sum_univ_two]; ring
  | kinetic4 b2 b3 b4 => simp [kinetic4, Fin.sum_univ_four]; ring

/-- **C57.**  So are the columns of the Jacobi matrix. -/
theorem C57_orthogonal_jac {n : ℕ} {fn : OdeFun ℝ n} {w : Fin n → ℝ} (h : MassWeights n fn w) (t : ℝ) (y : Vec ℝ n)
    (l : Fin n) : ∑ k, w k * fn.jac t y k l = 0 := by
  cases h with
  | rober => fin_cases l <;> simp [rober, Fin.sum_univ_three] <;> ring
  | dimer rate => fin_cases l <;> simp [dimer, Fin.sum_univ_two] <;> ring
  | kinetic4 b2 b3 b4 => fin_cases l <;> simp [kinetic4, Fin.sum_univ_four] <;> ring

/-- **C57.**  Every value recorded by an explicit run has the initial mass. -/
theorem C57_erk {n : ℕ} {fn : OdeFun ℝ n} {w : Fin n → ℝ} (hw : MassWeights n fn w) {nd : Bool} {t0 t1 : ℝ}
    {y0 : Vec ℝ n} {o : ErkOpts ℝ} {oo : OutOpts} {m : ℤ} {dt : ℝ} {fuel : ℕ} {out : ErkOutput ℝ n}
    (h : erkOdeint nd fn.fn t0 t1 y0 o oo m dt fuel = some (.ret out))
    (hpos : nd = false ∨ (0 < dt ∧ t0 < t1)) :
    ∀ y ∈ out.yVals, ∑ i, w i * y i = ∑ i, w i * y0 i :=
  C24_linear_invariant h hpos (C57_orthogonal hw)

/-- **C57 (implicit).**  The same for every implicit run, whether or not the Newton iterations converge, and for the
lines written to the stream. -/
theorem C57_irk {n : ℕ} {fn : OdeFun ℝ n} {w : Fin n → ℝ} (hw : MassWeights n fn w) {nd : Bool} {la : LinAlg ℝ}
    (hla : la.Exact) (hs : la.Sound) {t0 t1 : ℝ} {y0 : Vec ℝ n} {o : IrkOpts ℝ} {dt : ℝ} {sc : SolverCoeffs ℝ}
    {oo : OutOpts} {fuel : ℕ} {out : IrkOutput ℝ (sc.ns * n) n}
    (h : irkGuts nd la fn t0 t1 y0 o dt sc oo fuel = some (.ret out)) :
    (∀ y ∈ out.yVals, ∑ k, w k * y k = ∑ k, w k * y0 k) ∧
      ∀ p ∈ out.file, ∑ k, w k * p.2 k = ∑ k, w k * y0 k :=
  C44_linear hla hs (C57_orthogonal hw) (C57_orthogonal_jac hw) h

example : ∑ i, (![1, 2, 3, 4] : Fin 4 → ℝ) i * (kinetic4 (1 : ℝ) 2 3).fn 0 ![1, 1, 1, 1] i = 0 :=
  C57_orthogonal (.kinetic4 1 2 3) 0 _

example : (kinetic4 (1 : ℝ) 2 3).fn 0 ![1, 1, 1, 1] 0 = 3 := by simp [kinetic4]; norm_num

/-! ### C58: momentum of the three bodies -/

/-- the full statement of C58 -/
def C58_claim : Prop := ∀ (m1 m2 m3 t : ℝ) (y : Vec ℝ 12), 0 < m1 → 0 < m2 → 0 < m3 →
  (threeBody m1 m2 m3).fn t y 6 + (threeBody m1 m2 m3).fn t y 8 + (threeBody m1 m2 m3).fn t y 10 = 0 ∧
  (threeBody m1 m2 m3).fn t y 7 + (threeBody m1 m2 m3).fn t y 9 + (threeBody m1 m2 m3).fn t y 11 = 0

/-- **C58 (x only).**  Momentum in the first coordinate is conserved.  Missing: the second coordinate, see
`C58_refuted`. -/
theorem C58_momentum_x_partial (m1 m2 m3 t : ℝ) (y : Vec ℝ 12) :
    (threeBody m1 m2 m3).fn t y 6 + (threeBody m1 m2 m3).fn t y 8 + (threeBody m1 m2 m3).fn t y 10 = 0 := by
  simp [threeBody, threeBodyFun]; ring

/-- **C58 (y).**  The rate of change of momentum in the second coordinate is `m2 m3 (Δx - Δy)/r³` with the differences
of bodies 2 and 3. -/
theorem C58_momentum_y (m1 m2 m3 t : ℝ) (y : Vec ℝ 12) :
    (threeBody m1 m2 m3).fn t y 7 + (threeBody m1 m2 m3).fn t y 9 + (threeBody m1 m2 m3).fn t y 11 =
      m2 * m3 * ((y 4 - y 2) - (y 5 - y 3)) / √((y 4 - y 2) ^ 2 + (y 5 - y 3) ^ 2) ^ 3 := by
  have h : √((y 4 - y 2) ^ 2 + (y 5 - y 3) ^ 2) ^ 3 = ((y 4 - y 2) * (y 4 - y 2) + (y 5 - y 3) * (y 5 - y 3)) *
      √((y 4 - y 2) * (y 4 - y 2) + (y 5 - y 3) * (y 5 - y 3)) := by
    rw [show (y 4 - y 2) ^ 2 + (y 5 - y 3) ^ 2 =
      (y 4 - y 2) * (y 4 - y 2) + (y 5 - y 3) * (y 5 - y 3) by ring, pow_succ, Real.sq_sqrt]
    nlinarith [mul_self_nonneg (y 4 - y 2), mul_self_nonneg (y 5 - y 3)]
  rw [h]
  simp [threeBody, threeBodyFun]; ring

/-- **C58 is false**: the momentum in the second coordinate changes. -/
theorem C58_refuted : ¬ C58_claim := by
  intro h
  have h1 := (h 1 1 1 0 triangle one_pos one_pos one_pos).2
  rw [C58_momentum_y] at h1
  have e : ((triangle 4 - triangle 2) ^ 2 + (triangle 5 - triangle 3) ^ 2 : ℝ) = 2 := by
    simp [triangle]; norm_num
  have e2 : ((triangle 4 - triangle 2) - (triangle 5 - triangle 3) : ℝ) = -2 := by
    simp [triangle]; norm_num
  rw [e, e2] at h1
  have : (0 : ℝ) < √2 := by positivity
  have h3 : (√2 ^ 3 : ℝ) ≠ 0 := by positivity
  field_simp at h1
  norm_num at h1

end Verif
