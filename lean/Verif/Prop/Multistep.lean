import Verif.MultistepLemmas
import Verif.Prop.IrkOrder
import Mathlib.Algebra.Polynomial.Derivative
import Mathlib.Algebra.Polynomial.Eval.Degree

/-!
# Properties C50-C54: the multistep integrators
-/

set_option linter.unusedSectionVars false

namespace Verif
open Spec Polynomial

/-! ### C50, C51: the weights -/

theorem eval_upto {P : ℝ[X]} {k : ℕ} (h : P.natDegree ≤ k) (x : ℝ) :
    P.eval x = ∑ i ∈ Finset.range (k + 1), P.coeff i * x ^ i :=
  Polynomial.eval_eq_sum_range' (by omega) x

theorem deriv_upto {P : ℝ[X]} {k : ℕ} (hk : 0 < k) (h : P.natDegree ≤ k) (x : ℝ) :
    P.derivative.eval x = ∑ i ∈ Finset.range k, P.coeff (i + 1) * (i + 1) * x ^ i := by
  rw [Polynomial.eval_eq_sum_range' (n := k) (by have := Polynomial.natDegree_derivative_le P; omega)]
  simp only [Polynomial.coeff_derivative]

/-- **C50 (weights).**  For every polynomial `P` of degree at most `k` (so `P'` is an arbitrary polynomial of degree
below `k`), `k = 1..5`: the Adams-Bashforth weights turn the slopes of `P` at `t, t - h, …, t - (k-1) h` into the exact
increment over the step to `t + h`. -/
theorem C50_exact {k : ℕ} (h1 : 1 ≤ k) (h5 : k ≤ 5) {P : ℝ[X]} (hP : P.natDegree ≤ k) (t h : ℝ) :
    P.eval (t + h) - P.eval t = h * ∑ j ∈ Finset.range k, abC k j * P.derivative.eval (t - j * h) := by
  simp only [deriv_upto (by omega) hP, eval_upto hP]
  have : k = 1 ∨ k = 2 ∨ k = 3 ∨ k = 4 ∨ k = 5 := by omega
  rcases this with rfl | rfl | rfl | rfl | rfl <;>
  · simp only [Finset.sum_range_succ, Finset.sum_range_zero]
    simp [abC, abRow, q, nq]
    ring

/-- **C51.**  For every polynomial `P` of degree at most `k`, `k = 1..6`: the BDF coefficients satisfy
`P(t+h) + Σ_j C_j P(t - j h) = d h P'(t+h)`. -/
theorem C51_exact {k : ℕ} (h1 : 1 ≤ k) (h6 : k ≤ 6) {P : ℝ[X]} (hP : P.natDegree ≤ k) (t h : ℝ) :
    P.eval (t + h) + ∑ j ∈ Finset.range k, bdfC k j * P.eval (t - j * h) =
      bdfW k * h * P.derivative.eval (t + h) := by
  simp only [deriv_upto (by omega) hP, eval_upto hP]
  have : k = 1 ∨ k = 2 ∨ k = 3 ∨ k = 4 ∨ k = 5 ∨ k = 6 := by omega
  rcases this with rfl | rfl | rfl | rfl | rfl | rfl <;>
  · simp only [Finset.sum_range_succ, Finset.sum_range_zero]
    simp [bdfC, bdfRow, bdfW, q, nq]
    ring

/-- The orders are sharp: the Adams-Bashforth weights are not exact for degree `k + 1`. -/
theorem C50_sharp {k : ℕ} (h1 : 1 ≤ k) (h5 : k ≤ 5) :
    ¬ ∀ P : ℝ[X], P.natDegree ≤ k + 1 → ∀ t h : ℝ,
      P.eval (t + h) - P.eval t = h * ∑ j ∈ Finset.range k, abC k j * P.derivative.eval (t - j * h) := by
  intro hall
  have key := hall (X ^ (k + 1)) (by simp) 0 1
  have : k = 1 ∨ k = 2 ∨ k = 3 ∨ k = 4 ∨ k = 5 := by omega
  rcases this with rfl | rfl | rfl | rfl | rfl <;>
  · simp only [Finset.sum_range_succ, Finset.sum_range_zero] at key
    norm_num [abC, abRow, q, nq] at key

/-- The BDF coefficients are not exact for degree `k + 1`. -/
theorem C51_sharp {k : ℕ} (h1 : 1 ≤ k) (h6 : k ≤ 6) :
    ¬ ∀ P : ℝ[X], P.natDegree ≤ k + 1 → ∀ t h : ℝ,
      P.eval (t + h) + ∑ j ∈ Finset.range k, bdfC k j * P.eval (t - j * h) =
        bdfW k * h * P.derivative.eval (t + h) := by
  intro hall
  have key := hall (X ^ (k + 1)) (by simp) 0 1
  have : k = 1 ∨ k = 2 ∨ k = 3 ∨ k = 4 ∨ k = 5 ∨ k = 6 := by omega
  rcases this with rfl | rfl | rfl | rfl | rfl | rfl <;>
  · simp only [Finset.sum_range_succ, Finset.sum_range_zero] at key
    norm_num [bdfC, bdfRow, bdfW, q, nq] at key

/-- a polynomial of full degree for `C50_exact` and `C51_exact` -/
example : ((X : ℝ[X]) ^ 5).natDegree ≤ 5 := by simp

theorem abComb_real {order : ℤ} (h0 : 0 < order) (h5 : order ≤ 5) (g : ℕ → ℝ) :
    abComb order g = ∑ j ∈ Finset.range order.toNat, abC order j * g j := by
  have : order = 1 ∨ order = 2 ∨ order = 3 ∨ order = 4 ∨ order = 5 := by omega
  rcases this with rfl | rfl | rfl | rfl | rfl <;>
  simp [abComb, Finset.sum_range_succ, abC, abRow]

theorem abC_sum {order : ℤ} (h0 : 0 < order) (h5 : order ≤ 5) :
    ∑ j ∈ Finset.range order.toNat, (abC order j : ℝ) = 1 := by
  have : order = 1 ∨ order = 2 ∨ order = 3 ∨ order = 4 ∨ order = 5 := by omega
  rcases this with rfl | rfl | rfl | rfl | rfl <;>
  · simp [Finset.sum_range_succ, abC, abRow, q, nq]
    try norm_num

/-- **C50 (step).**  One step with a buffer that has received the values `hs` (oldest first): the new value is
`Y + dt Σ_j C_j f(t, hs[newest - j])`. -/
theorem C50_step {n p : ℕ} {hs : List (Vec ℝ n)} {b : CBuf (Vec ℝ n)} (hr : CBuf.Rep p hs b) {order : ℤ}
    (h0 : 0 < order) (h5 : order ≤ 5) (hp : order.toNat ≤ p) (hl : order.toNat ≤ hs.length) (nd : Bool)
    (f : ℝ → Vec ℝ n → Vec ℝ n) (Y : Vec ℝ n) (t dt : ℝ) :
    abStep nd f order Y t dt b = .ret fun i =>
      Y i + dt * ∑ j ∈ Finset.range order.toNat, abC order j * f t (hs.reverse.getD j 0) i := by
  have hm : (hs.map fun y => ((0 : ℝ), y)).map Prod.snd = hs := by simp
  have hv : Recent (hs.map fun y => ((0 : ℝ), y)) order.toNat fun j => hs.reverse.getD j 0 := by
    intro j hj
    have hj' : j < hs.reverse.length := by simp; omega
    simp only [hm, List.getD_eq_getElem?_getD, List.getElem?_eq_getElem hj', Option.getD_some]
  rw [abStep_rep h0 h5 hp (acc := hs.map fun y => ((0 : ℝ), y)) (by rw [hm]; exact hr) hv]
  simp only [abComb_real h0 h5]

/-- The slopes are all taken at the current time: for a right-hand side that depends on `t` only, a step of any order is
an Euler step. -/
theorem C50_current_time {n p : ℕ} {hs : List (Vec ℝ n)} {b : CBuf (Vec ℝ n)} (hr : CBuf.Rep p hs b) {order : ℤ}
    (h0 : 0 < order) (h5 : order ≤ 5) (hp : order.toNat ≤ p) (hl : order.toNat ≤ hs.length) (nd : Bool)
    (g : ℝ → Vec ℝ n) (Y : Vec ℝ n) (t dt : ℝ) :
    abStep nd (fun t _ => g t) order Y t dt b = .ret fun i => Y i + dt * g t i := by
  rw [C50_step hr h0 h5 hp hl]
  simp only [← Finset.sum_mul, abC_sum h0 h5, one_mul]

/-- three values in a buffer of length three -/
example : ∃ b : CBuf (Vec ℝ 1), CBuf.Rep 3 [fun _ => 5, fun _ => 7, fun _ => 9] b := by
  obtain ⟨b0, -, hr0⟩ := CBuf.rep_construct (fun _ => 0 : Vec ℝ 1) (p := 3) (by norm_num)
  obtain ⟨b1, -, hr1⟩ := CBuf.rep_pushAll (by norm_num) [fun _ => 5, fun _ => 7, fun _ => 9] hr0
  exact ⟨b1, by simpa using hr1⟩

/-- `C50_step` with these values: a step of order 3 for `y' = y` -/
example {b : CBuf (Vec ℝ 1)} (hb : CBuf.Rep 3 [fun _ => 5, fun _ => 7, fun _ => 9] b) :
    abStep false (fun _ y => y) 3 (fun _ => 9) 0 (1 / 2) b = .ret fun _ => 9 + 1 / 2 * (23 / 12 * 9 - 16 / 12 * 7 + 5 / 12 * 5 : ℝ) := by
  rw [C50_step hb (by norm_num) (by norm_num) (by decide) (by decide)]
  congr 1
  funext i
  rw [show Int.toNat 3 = 3 from rfl]
  norm_num [Finset.sum_range_succ, abC, abRow, q, nq]

/-! ### C52 -/

/-- **C52, what the code does.**  In any arithmetic the starting times are `t0, t0 + dt, (t0 + dt) + dt, …`, `order` of
them (one for `order ≤ 1`), but all starting values equal `y0`: the bootstrap integrator runs with NO_OUTPUT and then
returns only its initial value.  Missing from the claim: the values (`C52_refuted`). -/
theorem C52_bootstrap_partial {F : Type} [Add F] [Sub F] [Mul F] [Div F] [Neg F] [Scalar F] {n : ℕ} {nd : Bool}
    {la : LinAlg F} {fn : OdeFun F n} {fuel : ℕ} {order : ℤ} {y : Vec F n} {t dt : F} {l : List (F × Vec F n)}
    (h : bootstrap nd la fn fuel order y t dt = some (.ret l)) :
    l.length = max order.toNat 1 ∧ ∀ i x, l[i]? = some x → x = (gridPt dt t i, y) := by
  rw [bootstrap_ret h]
  refine ⟨by simp; omega, fun i x hx => ?_⟩
  obtain ⟨hi, hx⟩ := List.getElem?_eq_some_iff.1 hx
  rw [← hx]
  simp

/-- **C52, the claim**: the history values are those computed by the bootstrap integrator, that is, the last value of
its run over the grid cell (made visible by running it with vector output). -/
def C52_claim : Prop :=
  ∀ (n : ℕ) (fn : OdeFun ℝ n) (t0 dt : ℝ) (y0 : Vec ℝ n) (order : ℤ) (fuel : ℕ) (l : List (ℝ × Vec ℝ n)), 0 < dt →
    bootstrap false laReal fn fuel order y0 t0 dt = some (.ret l) →
    ∀ i t y t' y', l[i]? = some (t, y) → l[i + 1]? = some (t', y') →
      t' = t + dt ∧ ∀ fuel' out, bootRun false laReal fn fuel' OutOpts.dflt t dt y = some (.ret out) → out.status = 0 →
        out.yVals.getLast? = some y'

/-- a bootstrap run for a constant right-hand side and a short step -/
theorem bootRun_const {n : ℕ} (hn : 0 < n) (v : Vec ℝ n)
    (hv : ∀ k, |((irkCoeffs 232 : SolverCoeffs ℝ).gamma +
      ∑ j : Fin (irkCoeffs 232 : SolverCoeffs ℝ).ns, (irkCoeffs 232 : SolverCoeffs ℝ).bw2 j -
      ∑ j : Fin (irkCoeffs 232 : SolverCoeffs ℝ).ns, (irkCoeffs 232 : SolverCoeffs ℝ).bw j) * v k| ≤ 1)
    {t dt : ℝ} (y : Vec ℝ n) (h0 : 0 < dt) (h1 : dt ≤ 1 / 10 ^ 6) {oo : OutOpts} (hi : oo.interval.toNat = 1)
    (hw : oo.writeToFile = false) :
    ∃ out, bootRun false laReal (constFun v) 2 oo t dt y = some (.ret out) ∧ out.status = 0 ∧
      (out.tVals = if oo.storeInVectors then [t, t + dt] else [t]) ∧
      (out.yVals = if oo.storeInVectors then [y, fun k => y k + dt * v k] else [y]) := by
  have hU : Usable (irkCoeffs 232 : SolverCoeffs ℝ) := usable_shipped (by decide)
  have hb1 : ∑ j : Fin (irkCoeffs 232 : SolverCoeffs ℝ).ns, (irkCoeffs 232 : SolverCoeffs ℝ).bw j = 1 := by
    obtain ⟨p, hp, -, ho⟩ := C49_order_conditions (m := 232) (by decide)
    have := ho (.node []) (by simp [RTree.order, RTree.orderList]; omega)
    simpa [RTree.weight, RTree.weightList, RTree.density, RTree.densityList, RTree.order, RTree.orderList] using this
  obtain ⟨out, g1, g2, g3, g4, -⟩ := const_run (t0 := t) (t1 := t + dt) (y0 := y) (o := bootOpts) (dt := 1 / 10 ^ 6)
    (no := NewtonOpts.dflt) (oo := oo) v hU rfl rfl hn
    (by simp [NewtonOpts.dflt]) hi hw (by simp [NewtonOpts.dflt])
    (by simp [NewtonOpts.dflt]) (by simp [bootOpts]) (by simp [bootOpts]) (by linarith) (by linarith)
    (by
      intro k
      rw [mul_assoc, abs_mul, add_sub_cancel_left, abs_of_nonneg (by positivity)]
      calc _ ≤ (1 / 10 ^ 6 : ℝ) ^ 2 * 1 :=
            mul_le_mul (pow_le_pow_left₀ h0.le h1 2) (hv k) (abs_nonneg _) (by positivity)
        _ ≤ _ := by simp [bootOpts]; norm_num)
  have hver : irkVerify (irkCoeffs 232 : SolverCoeffs ℝ) = true := (C08_irk 232).mpr (by decide)
  have hb : ((if ((bootOpts : IrkOpts ℝ).adaptive && (irkCoeffs 232 : SolverCoeffs ℝ).b2.length == 0) = true then
      { bootOpts with adaptive := false } else bootOpts) : IrkOpts ℝ) = bootOpts := rfl
  refine ⟨out, ?_, g2, g3, ?_⟩
  · unfold bootRun irkOdeint
    simp only [hver, Bool.not_true, Bool.and_false, Bool.false_eq_true, if_false, hb]
    rw [← g1]
    simp
  · rw [g4, hb1]
    simp

/-- bootstrap histories for a constant right-hand side -/
theorem bootstrap_const {n : ℕ} (hn : 0 < n) (v : Vec ℝ n)
    (hv : ∀ k, |((irkCoeffs 232 : SolverCoeffs ℝ).gamma +
      ∑ j : Fin (irkCoeffs 232 : SolverCoeffs ℝ).ns, (irkCoeffs 232 : SolverCoeffs ℝ).bw2 j -
      ∑ j : Fin (irkCoeffs 232 : SolverCoeffs ℝ).ns, (irkCoeffs 232 : SolverCoeffs ℝ).bw j) * v k| ≤ 1)
    {dt : ℝ} (h0 : 0 < dt) (h1 : dt ≤ 1 / 10 ^ 6) (order : ℤ) (t : ℝ) (y : Vec ℝ n) :
    ∃ l, bootstrap false laReal (constFun v) 2 order y t dt = some (.ret l) := by
  have key : ∀ k t, ∃ l, bootIter false laReal (constFun v) 2 dt k t y = some (.ret l) := by
    intro k
    induction k with
    | zero => intro t; exact ⟨[], rfl⟩
    | succ k ih =>
      intro t
      obtain ⟨out, g1, -, g3, g4⟩ := bootRun_const hn v hv (t := t) y h0 h1 (oo := bootOut) (by decide) (by decide)
      obtain ⟨l, hl⟩ := ih (t + dt)
      have hs : bootOut.storeInVectors = false := by decide
      rw [hs] at g3 g4
      simp only [Bool.false_eq_true, if_false] at g3 g4
      refine ⟨(t + dt, y) :: l, ?_⟩
      rw [bootIter, g1]
      simp only [g3, g4]
      simp [hl]
  obtain ⟨l, hl⟩ := key (order - 1).toNat t
  exact ⟨(t, y) :: l, by unfold bootstrap; rw [hl]⟩

/-- a constant slope small enough for the hypotheses above -/
theorem slope_exists : ∃ v : ℝ, 0 < v ∧ |((irkCoeffs 232 : SolverCoeffs ℝ).gamma +
      ∑ j : Fin (irkCoeffs 232 : SolverCoeffs ℝ).ns, (irkCoeffs 232 : SolverCoeffs ℝ).bw2 j -
      ∑ j : Fin (irkCoeffs 232 : SolverCoeffs ℝ).ns, (irkCoeffs 232 : SolverCoeffs ℝ).bw j) * v| ≤ 1 := by
  generalize ((irkCoeffs 232 : SolverCoeffs ℝ).gamma +
      ∑ j : Fin (irkCoeffs 232 : SolverCoeffs ℝ).ns, (irkCoeffs 232 : SolverCoeffs ℝ).bw2 j -
      ∑ j : Fin (irkCoeffs 232 : SolverCoeffs ℝ).ns, (irkCoeffs 232 : SolverCoeffs ℝ).bw j) = κ
  have : 0 < 1 + |κ| := by positivity
  refine ⟨1 / (1 + |κ|), by positivity, ?_⟩
  rw [abs_mul, abs_of_pos (show 0 < 1 / (1 + |κ|) by positivity), mul_one_div, div_le_one this]
  linarith

/-- **C52 is false**: `y' = v`, order 2. -/
theorem C52_refuted : ¬ C52_claim := by
  intro h
  obtain ⟨v, hv0, hv⟩ := slope_exists
  have h0 : (0 : ℝ) < 1 / 10 ^ 6 := by positivity
  obtain ⟨l, hl⟩ := bootstrap_const (n := 1) (by norm_num) (fun _ => v) (fun _ => hv) h0 (le_refl _) 2 0 (fun _ => 0)
  have hl' := bootstrap_ret hl
  obtain ⟨out, g1, g2, -, g4⟩ := bootRun_const (n := 1) (by norm_num) (fun _ => v) (fun _ => hv) (t := 0)
    (fun _ => 0) h0 (le_refl _) (oo := OutOpts.dflt) (by decide) (by decide)
  have hst : OutOpts.dflt.storeInVectors = true := by decide
  rw [hst] at g4
  have := (h 1 _ 0 _ _ 2 2 l h0 hl 0 0 (fun _ => 0) (gridPt (1 / 10 ^ 6) 0 1) (fun _ => 0) (by rw [hl']; rfl)
    (by rw [hl']; rfl)).2 2 out g1 g2
  rw [g4] at this
  simp only [if_true, List.getLast?_cons_cons, List.getLast?_singleton, Option.some.injEq] at this
  have := congrFun this 0
  simp at this
  linarith

/-! ### C52: the outcome -/

section boot
variable {F : Type} [Add F] [Sub F] [Mul F] [Div F] [Neg F] [Scalar F] {n : ℕ} {nd : Bool} {la : LinAlg F} {fn : OdeFun F n} {fuel : ℕ}

/-- the run of the integrator for the `i`-th starting value: LOBATTO_IIIC_85, `rel_tol = 1e-10`, `abs_tol = 1e-9`, otherwise the
default options and the initial step `1e-6` -/
def specBoot (nd : Bool) (la : LinAlg F) (fn : OdeFun F n) (fuel : ℕ) (t dt : F) (y : Vec F n) (i : ℕ) :=
  irkOdeint nd la fn (gridPt dt t i) (gridPt dt t i + dt) y
    { adaptive := true, relTol := lit (1 / 10000000000), absTol := lit (1 / 1000000000), maxDt := lit 0, maxSteps := -1,
      newtonOpts := some NewtonOpts.dflt } { OutOpts.dflt with mode := 0 } 232 (lit (1 / 1000000)) fuel

theorem bootRun_spec (t dt : F) (y : Vec F n) (i : ℕ) : bootRun nd la fn fuel bootOut (gridPt dt t i) dt y = specBoot nd la fn fuel t dt y i := by
  unfold bootRun specBoot bootOpts bootOut IrkOpts.dflt
  norm_num

theorem specBoot_shift (t dt : F) (y : Vec F n) (i : ℕ) : specBoot nd la fn fuel (t + dt) dt y i = specBoot nd la fn fuel t dt y (i + 1) := by
  unfold specBoot
  rw [gridPt_shift]

theorem bootIter_all {dt : F} {y : Vec F n} : ∀ (k : ℕ) (t : F), (∀ i < k, ∃ out, specBoot nd la fn fuel t dt y i = some (.ret out)) →
    bootIter nd la fn fuel dt k t y = some (.ret ((List.range k).map fun i => (gridPt dt t (i + 1), y))) := by
  intro k
  induction k with
  | zero => intro t _; rfl
  | succ k ih =>
    intro t h
    obtain ⟨out, ho⟩ := h 0 (Nat.succ_pos k)
    rw [← bootRun_spec] at ho
    have ho' : bootRun nd la fn fuel bootOut t dt y = some (.ret out) := ho
    obtain ⟨h1, h2⟩ := bootRun_first ho'
    unfold bootIter
    rw [ho']
    simp only [h1, h2, List.length_cons, List.length_nil, zero_add, one_ne_zero, if_false, tsub_self, List.getElem?_cons_zero]
    rw [ih (t + dt) fun i hi => by rw [specBoot_shift]; exact h (i + 1) (by omega)]
    simp only [List.range_succ_eq_map, List.map_cons, List.map_map, gridPt_shift]
    rfl

theorem bootIter_fail {dt : F} {y : Vec F n} (x : ∀ α : Type, Option (Outcome α))
    (hx : x = (fun _ => none) ∨ x = (fun _ => some .assertFail) ∨ x = (fun _ => some .throws) ∨ x = fun _ => some .ub) :
    ∀ (j k : ℕ) (t : F), j < k → (∀ i < j, ∃ out, specBoot nd la fn fuel t dt y i = some (.ret out)) →
      specBoot nd la fn fuel t dt y j = x _ → bootIter nd la fn fuel dt k t y = x _ := by
  intro j
  induction j with
  | zero =>
    intro k t hk _ h
    obtain ⟨k, rfl⟩ : ∃ m, k = m + 1 := ⟨k - 1, by omega⟩
    rw [← bootRun_spec] at h
    have h' : bootRun nd la fn fuel bootOut t dt y = x _ := h
    unfold bootIter
    rw [h']
    rcases hx with rfl | rfl | rfl | rfl <;> rfl
  | succ j ih =>
    intro k t hk ha h
    obtain ⟨k, rfl⟩ : ∃ m, k = m + 1 := ⟨k - 1, by omega⟩
    obtain ⟨out, ho⟩ := ha 0 (Nat.succ_pos j)
    rw [← bootRun_spec] at ho
    have ho' : bootRun nd la fn fuel bootOut t dt y = some (.ret out) := ho
    obtain ⟨h1, h2⟩ := bootRun_first ho'
    unfold bootIter
    rw [ho']
    simp only [h1, h2, List.length_cons, List.length_nil, zero_add, one_ne_zero, if_false, tsub_self, List.getElem?_cons_zero]
    rw [ih k (t + dt) (by omega) (fun i hi => by rw [specBoot_shift]; exact ha (i + 1) (by omega)) (by rw [specBoot_shift]; exact h)]
    rcases hx with rfl | rfl | rfl | rfl <;> rfl

/-- **C52, the outcome.**  In any arithmetic the bootstrap runs the integrator from `y0` over one grid cell after the other (`specBoot`): if all
runs return, the history is `order` times the initial value; otherwise the outcome is that of the first run that does not
return - a failed assertion, an exception or an endless loop (`none` for every number of passes). -/
theorem C52_outcome {order : ℤ} {y : Vec F n} {t dt : F} :
    ((∀ i < (order - 1).toNat, ∃ out, specBoot nd la fn fuel t dt y i = some (.ret out)) →
      bootstrap nd la fn fuel order y t dt = some (.ret ((List.range ((order - 1).toNat + 1)).map fun i => (gridPt dt t i, y)))) ∧
    ∀ j < (order - 1).toNat, (∀ i < j, ∃ out, specBoot nd la fn fuel t dt y i = some (.ret out)) →
      (specBoot nd la fn fuel t dt y j = none → bootstrap nd la fn fuel order y t dt = none) ∧
      (specBoot nd la fn fuel t dt y j = some .assertFail → bootstrap nd la fn fuel order y t dt = some .assertFail) ∧
      (specBoot nd la fn fuel t dt y j = some .throws → bootstrap nd la fn fuel order y t dt = some .throws) ∧
      (specBoot nd la fn fuel t dt y j = some .ub → bootstrap nd la fn fuel order y t dt = some .ub) := by
  refine ⟨fun h => ?_, fun j hj ha => ⟨fun h => ?_, fun h => ?_, fun h => ?_, fun h => ?_⟩⟩
  · unfold bootstrap
    rw [bootIter_all _ _ h]
    simp only [List.range_succ_eq_map, List.map_cons, List.map_map]
    rfl
  · unfold bootstrap; rw [bootIter_fail (fun _ => none) (by simp) j _ t hj ha h]
  · unfold bootstrap; rw [bootIter_fail (fun _ => some .assertFail) (by simp) j _ t hj ha h]
  · unfold bootstrap; rw [bootIter_fail (fun _ => some .throws) (by simp) j _ t hj ha h]
  · unfold bootstrap; rw [bootIter_fail (fun _ => some .ub) (by simp) j _ t hj ha h]

end boot
/-- `C52_outcome`: three starting values for a constant right-hand side; a step of length zero fails the assertion of the integrator -/
example : (∃ v : ℝ, 0 < v ∧ bootstrap false laReal (constFun fun _ : Fin 1 => v) 2 3 (fun _ => 5) 0 (1 / 10 ^ 6) =
      some (.ret [(0, fun _ => 5), (0 + 1 / 10 ^ 6, fun _ => 5), (0 + 1 / 10 ^ 6 + 1 / 10 ^ 6, fun _ => 5)])) ∧
    bootstrap false laReal (constFun fun _ : Fin 1 => 1) 2 3 (fun _ => 5) 0 0 = some .assertFail := by
  constructor
  · obtain ⟨v, hv0, hv⟩ := slope_exists
    refine ⟨v, hv0, (C52_outcome (order := 3)).1 fun i _ => ?_⟩
    obtain ⟨out, g1, -⟩ := bootRun_const (n := 1) (by norm_num) (fun _ => v) (fun _ => hv) (t := gridPt (1 / 10 ^ 6) 0 i) (fun _ => 5)
      (by positivity) (le_refl (1 / 10 ^ 6 : ℝ)) (oo := bootOut) (by decide) (by decide)
    exact ⟨out, by rw [← bootRun_spec]; exact g1⟩
  · refine ((C52_outcome (order := 3)).2 0 (by decide) (by intro i hi; omega)).2.1 ?_
    have hver : irkVerify (irkCoeffs 232 : SolverCoeffs ℝ) = true := (C08_irk 232).mpr (by decide)
    unfold specBoot irkOdeint
    simp only [hver, Bool.not_true, Bool.and_false, Bool.false_eq_true, if_false]
    unfold irkGuts
    simp only [gridPt, clipDt]
    split <;> simp

/-! ### C53 -/

section grid
variable {F : Type} [Add F] [Sub F] [Mul F] [Div F] [Neg F] [Scalar F] {n : ℕ} {nd : Bool} {la : LinAlg F}
  {fn : OdeFun F n} {t0 t1 : F} {y0 : Vec F n} {order : ℤ} {dt : F} {st0 : NewtonStatus F} {fuelB fuel : ℕ}
  {out : MsOutput F n}

theorem grid_of_run {h : F} {N : ℕ} {Q : List (F × Vec F n) → Vec F n → Prop} {acc : List (F × Vec F n)}
    (r : MsRun h t0 t1 N Q acc) (ht : out.tVals = acc.map Prod.fst) (hy : out.yVals = acc.map Prod.snd) :
    out.tVals.length = acc.length ∧ out.yVals.length = acc.length ∧
      ∀ i < acc.length, out.tVals[i]? = some (gridPt h t0 i) := by
  refine ⟨by rw [ht, List.length_map], by rw [hy, List.length_map], fun i hi => ?_⟩
  rw [ht, r.times, List.getElem?_map, List.getElem?_range hi]
  rfl

/-- **C53 (`adams_bashforth`), any arithmetic.**  A returning run reports SUCCESS; its times are
`t0, t0 + h, (t0 + h) + h, …`; there are as many values; the last time is not below `t1`; every earlier time from the
end of the bootstrap (index `order - 1`) on is. -/
theorem C53_ab_grid (h : adamsBashforth nd la fn t0 t1 y0 order dt st0 fuelB fuel = some (.ret out)) :
    ∃ N, out.status = 0 ∧ out.tVals.length = N ∧ out.yVals.length = N ∧ 0 < order ∧ order ≤ N ∧
      (∀ i < N, out.tVals[i]? = some (gridPt (clipDt t0 t1 dt) t0 i)) ∧
      ltb (gridPt (clipDt t0 t1 dt) t0 (N - 1)) t1 = false ∧
      ∀ i : ℕ, order ≤ i + 1 → i + 1 < N → ltb (gridPt (clipDt t0 t1 dt) t0 i) t1 = true := by
  obtain ⟨ho, acc, t, y, hR, -, ht, hy, hs, hl, hend⟩ := ab_run h
  obtain ⟨g1, g2, g3⟩ := grid_of_run hR ht hy
  refine ⟨acc.length, hs, g1, g2, ho, by have := hR.len; omega, g3, ?_, fun i h1 h2 => hR.before i (by omega) h2⟩
  rw [← hR.last hl]; exact hend

/-- Invalid orders of `adams_bashforth` are not reported: a negative one throws (the buffer cannot be allocated), order 0
writes into an empty buffer. -/
theorem C53_ab_bad_order (hdt : nd = true ∨ ltb (lit 0) (clipDt t0 t1 dt) = true) :
    (order < 0 → adamsBashforth nd la fn t0 t1 y0 order dt st0 fuelB fuel = some .throws) ∧
    (order = 0 → adamsBashforth nd la fn t0 t1 y0 order dt st0 fuelB fuel = some .ub) := by
  have hd : ¬ ((!nd && !ltb (lit 0) (clipDt t0 t1 dt)) = true) := by rcases hdt with h | h <;> simp [h]
  constructor
  · intro h
    unfold adamsBashforth
    simp only
    rw [if_neg hd]
    simp only [CBuf.construct, if_pos h]
  · intro h
    subst h
    unfold adamsBashforth
    simp only
    rw [if_neg hd]
    simp [CBuf.construct, bootstrap, bootIter, msStart, CBuf.pushAll, CBuf.pushBack, CBuf.writeAt]

/-- An order above 5 stops at the assertion of `adams_bashforth_step` as soon as the loop is entered.  With assertions
compiled out every value equals `y0`. -/
theorem C53_ab_large_order (h5 : 5 < order)
    (h : adamsBashforth nd la fn t0 t1 y0 order dt st0 fuelB fuel = some (.ret out)) :
    (nd = false → out.tVals.length = order.toNat) ∧ ∀ y ∈ out.yVals, y = y0 := by
  obtain ⟨ho, hdt, l, hl⟩ := adamsBashforth_boot h
  obtain ⟨s, hI, he⟩ := adamsBashforth_start (st0 := st0) ho hdt hl
  rw [he] at h
  obtain ⟨s', hr, hd⟩ := runLoop_some h
  have hl' := bootstrap_ret hl
  have hk : (order - 1).toNat + 1 = order.toNat := by omega
  rw [hk] at hl'
  have hab : ∀ s : MsState F n, abStep nd fn.fn order s.y s.t (clipDt t0 t1 dt) s.hist =
      if nd then .ret s.y else .assertFail := by
    intro s
    unfold abStep
    rw [if_neg (by omega), if_neg (by omega), if_neg (by omega), if_neg (by omega), if_neg (by omega)]
  have hinv := hr.inv (Inv := fun s => (nd = false → s.sol.tVals.length = order.toNat) ∧ s.y = y0 ∧
      ∀ y ∈ s.sol.yVals, y = y0)
    (by
      refine ⟨fun _ => by rw [hI.t, hl']; simp, ?_, ?_⟩
      · have := hI.last
        rw [hl', List.getLast?_eq_getElem?, List.getElem?_map, List.getElem?_range (by simp; omega)] at this
        simp only [Option.map_some, Option.some.injEq, Prod.mk.injEq] at this
        exact this.2.symm
      · rw [hI.y, hl']
        simp)
    (by
      rintro a b ⟨h1, h2, h3⟩ hb
      unfold abBody at hb
      by_cases hlt : ltb a.t t1 = true
      · rw [if_pos hlt, hab] at hb
        cases hnd : nd
        · rw [hnd] at hb; cases hb
        · rw [hnd] at hb
          simp only [if_true] at hb
          cases hp : a.hist.pushBack a.y with
          | assertFail => rw [hp] at hb; cases hb
          | throws => rw [hp] at hb; cases hb
          | ub => rw [hp] at hb; cases hb
          | ret b' =>
            rw [hp] at hb
            simp only [LoopStep.next.injEq] at hb
            subst hb
            refine ⟨fun hc => (Bool.noConfusion hc), h2, ?_⟩
            intro y hy
            simp only [MsOutput.push, List.mem_append, List.mem_singleton] at hy
            rcases hy with hy | hy
            · exact h3 y hy
            · rw [hy, h2]
      · rw [if_neg hlt] at hb; cases hb)
  unfold abBody at hd
  by_cases hlt : ltb s'.t t1 = true
  · rw [if_pos hlt, hab] at hd
    cases hnd : nd
    · rw [hnd] at hd; cases hd
    · rw [hnd] at hd
      simp only [if_true] at hd
      cases hp : s'.hist.pushBack s'.y <;> rw [hp] at hd <;> cases hd
  · rw [if_neg hlt] at hd
    simp only [LoopStep.done.injEq, Outcome.ret.injEq] at hd
    subst hd
    exact ⟨hinv.1, hinv.2.2⟩

/-- **C53 (`bdf`), any arithmetic.**  The same for `bdf` with an order in 1..6: the times are on the grid in any case;
the status is SUCCESS iff the last time is not below `t1`. -/
theorem C53_bdf_grid (h0 : 0 < order) (h6 : order ≤ 6)
    (h : bdf nd la fn t0 t1 y0 order dt st0 fuelB fuel = some (.ret out)) :
    ∃ N, out.tVals.length = N ∧ out.yVals.length = N ∧ order + 1 ≤ N ∧
      (∀ i < N, out.tVals[i]? = some (gridPt (clipDt t0 t1 dt) t0 i)) ∧
      (out.status = 0 ↔ ltb (gridPt (clipDt t0 t1 dt) t0 (N - 1)) t1 = false) ∧
      ∀ i : ℕ, order + 1 ≤ i + 1 → i + 1 < N → ltb (gridPt (clipDt t0 t1 dt) t0 i) t1 = true := by
  obtain ⟨acc, t, y, hR, -, ht, hy, hl, hend⟩ := bdf_run h0 h6 h
  obtain ⟨g1, g2, g3⟩ := grid_of_run hR ht hy
  refine ⟨acc.length, g1, g2, by have := hR.len; omega, g3, ?_, fun i h1 h2 => hR.before i (by omega) h2⟩
  rw [← hR.last hl]
  rcases hend with ⟨e1, e2⟩ | ⟨e1, e2, -⟩
  · exact ⟨fun _ => e2, fun _ => e1⟩
  · rw [e1, e2]; simp

end grid

theorem gridPt_real (h t : ℝ) (k : ℕ) : gridPt h t k = t + k * h := by
  induction k with
  | zero => simp [gridPt]
  | succ k ih => rw [gridPt, ih]; push_cast; ring

section real
variable {n : ℕ} {nd : Bool} {la : LinAlg ℝ} {fn : OdeFun ℝ n} {t0 t1 : ℝ} {y0 : Vec ℝ n} {order : ℤ} {dt : ℝ}
  {st0 : NewtonStatus ℝ} {fuelB fuel : ℕ} {out : MsOutput ℝ n}

/-- **C53 (`adams_bashforth`).**  With `h = min dt (t1 - t0)`: the times are `t0 + i h`, as many as values; status
SUCCESS; the last time is the first one at or after `t1` that is not before the end of the bootstrap. -/
theorem C53_adams_bashforth (h : adamsBashforth nd la fn t0 t1 y0 order dt st0 fuelB fuel = some (.ret out)) :
    ∃ N, out.status = 0 ∧ out.tVals.length = N ∧ out.yVals.length = N ∧ order ≤ N ∧
      (∀ i : ℕ, i < N → out.tVals[i]? = some (t0 + i * min dt (t1 - t0))) ∧
      t1 ≤ t0 + (N - 1 : ℕ) * min dt (t1 - t0) ∧
      ∀ i : ℕ, order ≤ i + 1 → i + 1 < N → t0 + i * min dt (t1 - t0) < t1 := by
  obtain ⟨N, h1, h2, h3, -, h4, h5, h6, h7⟩ := C53_ab_grid h
  simp only [gridPt_real, clipDt_real, ltb_real, ltb_real_false] at h5 h6 h7
  exact ⟨N, h1, h2, h3, h4, h5, h6, h7⟩

/-- **C53 (`bdf`).** -/
theorem C53_bdf (h0 : 0 < order) (h6 : order ≤ 6)
    (h : bdf nd la fn t0 t1 y0 order dt st0 fuelB fuel = some (.ret out)) :
    ∃ N, out.tVals.length = N ∧ out.yVals.length = N ∧ order + 1 ≤ N ∧
      (∀ i : ℕ, i < N → out.tVals[i]? = some (t0 + i * min dt (t1 - t0))) ∧
      (out.status = 0 ↔ t1 ≤ t0 + (N - 1 : ℕ) * min dt (t1 - t0)) ∧
      ∀ i : ℕ, order + 1 ≤ i + 1 → i + 1 < N → t0 + i * min dt (t1 - t0) < t1 := by
  obtain ⟨N, h2, h3, h4, h5, h6, h7⟩ := C53_bdf_grid h0 h6 h
  simp only [gridPt_real, clipDt_real, ltb_real, ltb_real_false] at h5 h6 h7
  exact ⟨N, h2, h3, h4, h5, h6, h7⟩

theorem ceil_decreases {h t t1 : ℝ} (hh : 0 < h) (ht : t < t1) : ⌈(t1 - (t + h)) / h⌉₊ < ⌈(t1 - t) / h⌉₊ := by
  have h1 : (t1 - (t + h)) / h = (t1 - t) / h - 1 := by field_simp; ring
  have h2 : 0 < ⌈(t1 - t) / h⌉₊ := Nat.ceil_pos.2 (div_pos (by linarith) hh)
  rw [h1, Nat.ceil_sub_one]
  omega

/-- **C53 (termination, `adams_bashforth`).**  If the bootstrap returns, the run returns. -/
theorem C53_ab_returns (h0 : 0 < order) (h5 : order ≤ 5) (hdt : 0 < dt) (ht : t0 < t1) {l : List (ℝ × Vec ℝ n)}
    (hl : bootstrap nd la fn fuelB order y0 t0 (min dt (t1 - t0)) = some (.ret l)) :
    ∃ fuel out, adamsBashforth nd la fn t0 t1 y0 order dt st0 fuelB fuel = some (.ret out) := by
  have hc : 0 < clipDt t0 t1 dt := by rw [clipDt_real]; exact lt_min hdt (by linarith)
  rw [← clipDt_real] at hl
  obtain ⟨s, hI, he⟩ := adamsBashforth_start (st0 := st0) h0 (Or.inr (by simpa using hc)) hl
  have hl' := bootstrap_ret hl
  have hk : (order - 1).toNat + 1 = order.toNat := by omega
  rw [hk] at hl'
  let Inv : MsState ℝ n → Prop := fun s => ∃ acc, MsInv order.toNat acc s ∧
      MsRun (clipDt t0 t1 dt) t0 t1 order.toNat (fun a y => order ≤ 5 → AbNext fn.fn order (clipDt t0 t1 dt) a y) acc
  have hs0 : Inv s := ⟨l, hI, by rw [hl']; exact msRun_boot _ _⟩
  have hstep : ∀ a b, Inv a → abBody nd fn.fn t1 order (clipDt t0 t1 dt) a = .next b →
      Inv b ∧ ⌈(t1 - b.t) / clipDt t0 t1 dt⌉₊ < ⌈(t1 - a.t) / clipDt t0 t1 dt⌉₊ := by
    rintro a b ⟨acc, h1, h2⟩ hb
    obtain ⟨g1, g2, y', g3, g4⟩ := abBody_next h0 h1 h2 hb
    refine ⟨⟨_, g3, g4⟩, ?_⟩
    rw [g2]
    exact ceil_decreases hc (by simpa using g1)
  obtain ⟨k, r, hr⟩ := runLoop_terminates (fun s : MsState ℝ n => ⌈(t1 - s.t) / clipDt t0 t1 dt⌉₊) hstep hs0
  refine ⟨k, ?_⟩
  rw [he, hr]
  obtain ⟨s', hreach, hd⟩ := runLoop_some hr
  obtain ⟨acc, h1, h2⟩ := hreach.inv (Inv := Inv) hs0 fun a b ha hb => (hstep a b ha hb).1
  unfold abBody at hd
  by_cases hlt : ltb s'.t t1 = true
  · rw [if_pos hlt] at hd
    obtain ⟨v, hv⟩ := recent_exists acc h2.len
    rw [abStep_rep h0 h5 (le_refl _) h1.hist hv] at hd
    simp only at hd
    obtain ⟨b, hpb, -⟩ := msInv_push (by omega) h1 (s'.t + clipDt t0 t1 dt)
      (fun k => s'.y k + clipDt t0 t1 dt * abComb order fun j => fn.fn s'.t (v j) k) s'.newton
    rw [hpb] at hd
    cases hd
  · rw [if_neg hlt] at hd
    simp only [LoopStep.done.injEq] at hd
    exact ⟨s'.sol, by rw [← hd]⟩

/-- **C53 (termination, `bdf`).**  If the bootstrap returns, the run returns, with SUCCESS or
INTERNAL_SOLVE_FAILURE. -/
theorem C53_bdf_returns (h0 : 0 < order) (h6 : order ≤ 6) (hdt : 0 < dt) (ht : t0 < t1) {l : List (ℝ × Vec ℝ n)}
    (hl : bootstrap nd la fn fuelB (order + 1) y0 t0 (min dt (t1 - t0)) = some (.ret l)) :
    ∃ fuel out, bdf nd la fn t0 t1 y0 order dt st0 fuelB fuel = some (.ret out) := by
  have hc : 0 < clipDt t0 t1 dt := by rw [clipDt_real]; exact lt_min hdt (by linarith)
  rw [← clipDt_real] at hl
  obtain ⟨s, hI, he⟩ := bdf_start (st0 := st0) h0 h6 (Or.inr (by simpa using hc)) hl
  have hl' := bootstrap_ret hl
  have hk : (order + 1 - 1).toNat + 1 = (order + 1).toNat := by omega
  rw [hk] at hl'
  let Inv : MsState ℝ n → Prop := fun s => ∃ acc, MsInv (order + 1).toNat acc s ∧
      MsRun (clipDt t0 t1 dt) t0 t1 (order + 1).toNat (BdfNext la fn order (clipDt t0 t1 dt) true) acc
  have hs0 : Inv s := ⟨l, hI, by rw [hl']; exact msRun_boot _ _⟩
  have hstep : ∀ a b, Inv a → bdfBody nd la fn t1 order (clipDt t0 t1 dt) a = .next b →
      Inv b ∧ ⌈(t1 - b.t) / clipDt t0 t1 dt⌉₊ < ⌈(t1 - a.t) / clipDt t0 t1 dt⌉₊ := by
    rintro a b ⟨acc, h1, h2⟩ hb
    rcases bdfBody_cases h0 h1 h2 (nd := nd) with ⟨-, e⟩ | ⟨-, -, e⟩ | ⟨g1, y', s', e, g2, g3, g4⟩
    · rw [e] at hb; cases hb
    · rw [e] at hb; cases hb
    · rw [e] at hb
      simp only [LoopStep.next.injEq] at hb
      subst hb
      refine ⟨⟨_, g3, g4⟩, ?_⟩
      rw [g2]
      exact ceil_decreases hc (by simpa using g1)
  obtain ⟨k, r, hr⟩ := runLoop_terminates (fun s : MsState ℝ n => ⌈(t1 - s.t) / clipDt t0 t1 dt⌉₊) hstep hs0
  refine ⟨k, ?_⟩
  rw [he, hr]
  obtain ⟨s', hreach, hd⟩ := runLoop_some hr
  obtain ⟨acc, h1, h2⟩ := hreach.inv (Inv := Inv) hs0 fun a b ha hb => (hstep a b ha hb).1
  rcases bdfBody_cases h0 h1 h2 (nd := nd) with ⟨-, e⟩ | ⟨-, -, e⟩ | ⟨-, y', s'', e, -, -, -⟩
  · rw [e] at hd
    simp only [LoopStep.done.injEq] at hd
    exact ⟨_, by rw [← hd]⟩
  · rw [e] at hd
    simp only [LoopStep.done.injEq] at hd
    exact ⟨_, by rw [← hd]⟩
  · rw [e] at hd; cases hd

/-- What the constant starting values lead to: for `y' = v` the solution of `adams_bashforth` lags behind the exact one
by `(order - 1) h v`. -/
theorem C52_lag {v : Vec ℝ n} (hfn : ∀ t y, fn.fn t y = v) (h5 : order ≤ 5)
    (h : adamsBashforth nd la fn t0 t1 y0 order dt st0 fuelB fuel = some (.ret out)) :
    ∀ (i : ℕ) y, order ≤ (i : ℤ) + 1 → out.yVals[i]? = some y →
      ∀ k, y k = y0 k + ((i : ℝ) * min dt (t1 - t0) - (order - 1) * min dt (t1 - t0)) * v k := by
  obtain ⟨ho, acc, t, y, hR, hboot, ht, hy, hs, hl, hend⟩ := ab_run h
  rw [clipDt_real] at *
  intro i
  induction i with
  | zero =>
    intro y h1 h2 k
    have ho1 : order = 1 := by push_cast at h1; omega
    subst ho1
    have h3 : acc[0]? = some (gridPt (min dt (t1 - t0)) t0 0, y0) := by
      have := congrArg (fun l => l[0]?) hboot
      simpa [List.getElem?_take] using this
    rw [hy, List.getElem?_map, h3] at h2
    simp only [Option.map_some, Option.some.injEq] at h2
    rw [← h2]; simp
  | succ i ih =>
    intro y h1 h2 k
    rw [hy, List.getElem?_map] at h2
    cases ha : acc[i + 1]? with
    | none => rw [ha] at h2; cases h2
    | some ty =>
      rw [ha] at h2
      simp only [Option.map_some, Option.some.injEq] at h2
      subst h2
      by_cases hb : order.toNat ≤ i + 1
      · obtain ⟨tl, yl, w, e1, e2, e3⟩ := hR.step (i + 1) ty hb ha h5
        have hlt := (List.getElem?_eq_some_iff.1 ha).1
        rw [List.getLast?_eq_getElem?] at e1
        have hlen : (acc.take (i + 1)).length - 1 = i := by simp; omega
        rw [hlen, List.getElem?_take] at e1
        rw [if_pos (by omega)] at e1
        have hprev := ih yl (by omega) (by rw [hy, List.getElem?_map, e1]; rfl) k
        rw [e3]
        simp only [abComb_real ho h5, hfn, ← Finset.sum_mul, abC_sum ho h5]
        rw [hprev]
        push_cast
        ring
      · have hb' : order = i + 2 := by push_cast at h1; omega
        have h3 : acc[i + 1]? = some (gridPt (min dt (t1 - t0)) t0 (i + 1), y0) := by
          have := congrArg (fun l => l[i + 1]?) hboot
          simp only [List.getElem?_take] at this
          rw [if_pos (by omega), List.getElem?_map, List.getElem?_range (by omega)] at this
          exact this
        rw [ha] at h3
        simp only [Option.some.injEq] at h3
        rw [h3, hb']
        push_cast
        ring

end real

/-! ### C54 -/

section bdfgen
variable {F : Type} [Add F] [Sub F] [Mul F] [Div F] [Neg F] [Scalar F] {n : ℕ} {nd : Bool} {la : LinAlg F}
  {fn : OdeFun F n} {t0 t1 : F} {y0 : Vec F n} {order : ℤ} {dt : F} {st0 : NewtonStatus F} {fuelB fuel : ℕ}
  {out : MsOutput F n}

/-- The BDF equation of order `k` for the value at time `t'`, given the previous values `v 0` (newest), `v 1`, … and the
step `h`: zero of `z + Σ_j C_j v_j - (h d) f(t', z)`, with its Jacobi matrix. -/
def bdfEq (fn : OdeFun F n) (k : ℤ) (h t' : F) (v : ℕ → Vec F n) : NFun F n where
  fn := fun z p => z p + (List.range k.toNat).foldl (fun a j => a + bdfC k j * v j p) (lit 0) - h * bdfW k * fn.fn t' z p
  jac := fun z p r => eye n p r - h * bdfW k * fn.jac t' z p r

/-- **C54 (invalid orders).** -/
theorem C54_bad_order (h : order ≤ 0 ∨ 6 < order) :
    bdf nd la fn t0 t1 y0 order dt st0 fuelB fuel = some (.ret ⟨4, [], []⟩) := by
  unfold bdf
  rcases h with h | h
  · rw [if_neg (by omega), if_pos h]
  · rw [if_pos h]

/-- values before index `i`, newest first -/
theorem recent_index {acc : List (F × Vec F n)} {i k : ℕ} {v : ℕ → Vec F n} (hi : i ≤ acc.length)
    (hv : Recent (acc.take i) k v) : ∀ j < k, j < i ∧ (acc.map Prod.snd)[i - 1 - j]? = some (v j) := by
  intro j hj
  have h1 := hv j hj
  have hlen : ((acc.take i).map Prod.snd).length = i := by simp; omega
  have hji : j < i := by
    have := (List.getElem?_eq_some_iff.1 h1).1
    rw [List.length_reverse, hlen] at this
    exact this
  refine ⟨hji, ?_⟩
  rw [List.getElem?_reverse (by rw [hlen]; exact hji), hlen, List.map_take, List.getElem?_take, if_pos (by omega)] at h1
  exact h1

/-- **C54 (samples).**  In any arithmetic, for orders 1..6: every value recorded after the bootstrap (index `order + 1`
on) was returned by `newton_iterate` with status SUCCESS, applied to the BDF equation of that order with the `order`
values recorded just before, starting from the newest of them. -/
theorem C54_samples (h0 : 0 < order) (h6 : order ≤ 6)
    (h : bdf nd la fn t0 t1 y0 order dt st0 fuelB fuel = some (.ret out)) {i : ℕ} {y' : Vec F n}
    (hi : order + 1 ≤ i) (hy' : out.yVals[i]? = some y') :
    ∃ v st st', (∀ j : ℕ, (j : ℤ) < order → out.yVals[i - 1 - j]? = some (v j)) ∧
      newtonIterate la (bdfEq fn order (clipDt t0 t1 dt) (gridPt (clipDt t0 t1 dt) t0 i) v) (v 0) bdfNewton st true =
        some (.ret (y', st')) ∧ st'.conv = 0 := by
  obtain ⟨acc, t, y, hR, -, ht, hy, hl, hend⟩ := bdf_run h0 h6 h
  rw [hy, List.getElem?_map] at hy'
  cases ha : acc[i]? with
  | none => rw [ha] at hy'; cases hy'
  | some ty =>
    rw [ha] at hy'
    simp only [Option.map_some, Option.some.injEq] at hy'
    have hlt := (List.getElem?_eq_some_iff.1 ha).1
    obtain ⟨tl, yl, v, st, st', e1, e2, e3, e4⟩ := hR.step i ty (by omega) ha
    have hrec := recent_index hlt.le e2
    rw [List.getLast?_eq_getElem?] at e1
    have hlen : (acc.take i).length - 1 = i - 1 := by simp; omega
    rw [hlen, List.getElem?_take, if_pos (by omega)] at e1
    have hyl : yl = v 0 := by
      have := (hrec 0 (by omega)).2
      rw [List.getElem?_map, Nat.sub_zero, e1] at this
      simpa using this
    have htl : tl + clipDt t0 t1 dt = gridPt (clipDt t0 t1 dt) t0 i := by
      have h1 : (acc.map Prod.fst)[i - 1]? = some tl := by rw [List.getElem?_map, e1]; rfl
      rw [hR.times, List.getElem?_map, List.getElem?_range (by omega)] at h1
      simp only [Option.map_some, Option.some.injEq] at h1
      obtain ⟨m, hm⟩ : ∃ m, i = m + 1 := ⟨i - 1, by omega⟩
      rw [hm, ← h1, hm]
      rfl
    rw [htl, hyl, hy'] at e3
    refine ⟨v, st, st', fun j hj => ?_, e3, by simpa using e4⟩
    rw [hy]
    exact (hrec j (by omega)).2

/-- **C54 (failure).**  For orders 1..6 the status is SUCCESS or INTERNAL_SOLVE_FAILURE (16); the latter exactly when the
Newton iteration for the next value fails, with the last time still below `t1`.  The samples so far are kept (at least
the bootstrap, and `C53_bdf_grid`, `C54_samples` apply to them). -/
theorem C54_failure (h0 : 0 < order) (h6 : order ≤ 6)
    (h : bdf nd la fn t0 t1 y0 order dt st0 fuelB fuel = some (.ret out)) :
    out.status = 0 ∨ out.status = 16 ∧ order < out.yVals.length ∧
      ∃ v st y' st', (∀ j : ℕ, (j : ℤ) < order → out.yVals[out.yVals.length - 1 - j]? = some (v j)) ∧
        newtonIterate la (bdfEq fn order (clipDt t0 t1 dt) (gridPt (clipDt t0 t1 dt) t0 out.yVals.length) v) (v 0)
          bdfNewton st true = some (.ret (y', st')) ∧ st'.conv ≠ 0 := by
  obtain ⟨acc, t, y, hR, -, ht, hy, hl, hend⟩ := bdf_run h0 h6 h
  rcases hend with ⟨e, -⟩ | ⟨e, -, y', tl, yl, v, st, st', e1, e2, e3, e4⟩
  · exact Or.inl e
  · right
    have hlenN := hR.len
    have hlen : out.yVals.length = acc.length := by rw [hy, List.length_map]
    have hrec := recent_index (i := acc.length) (le_refl _) (by rw [List.take_length]; exact e2)
    have htl := hR.last e1
    rw [List.getLast?_eq_getElem?] at e1
    have hyl : yl = v 0 := by
      have := (hrec 0 (by omega)).2
      rw [List.getElem?_map, Nat.sub_zero, e1] at this
      simpa using this
    have htl' : tl + clipDt t0 t1 dt = gridPt (clipDt t0 t1 dt) t0 out.yVals.length := by
      obtain ⟨m, hm⟩ : ∃ m, acc.length = m + 1 := ⟨acc.length - 1, by omega⟩
      rw [hlen, htl, hm]
      rfl
    rw [htl', hyl] at e3
    refine ⟨e, by omega, v, st, y', st', fun j hj => ?_, e3, by simpa using e4⟩
    rw [hlen, hy]
    exact (hrec j (by omega)).2

end bdfgen

section real
variable {n : ℕ} {nd : Bool} {la : LinAlg ℝ} {fn : OdeFun ℝ n} {t0 t1 : ℝ} {y0 : Vec ℝ n} {order : ℤ} {dt : ℝ}
  {st0 : NewtonStatus ℝ} {fuelB fuel : ℕ} {out : MsOutput ℝ n}

theorem foldl_linComb (c v : ℕ → ℝ) (z : ℝ) (k : ℕ) :
    (List.range k).foldl (fun a j => a + c j * v j) z = z + ∑ j ∈ Finset.range k, c j * v j := by
  induction k with
  | zero => simp
  | succ k ih => rw [List.range_succ, List.foldl_append, ih, Finset.sum_range_succ]; simp; ring

/-- the BDF equation for a linear right-hand side is solved exactly -/
theorem bdfEq_affine (hla : la.Exact) {M : ℝ → Mat ℝ n} {g : ℝ → Vec ℝ n}
    (hf : ∀ t y, fn.fn t y = fun i => (Matrix.of (M t)).mulVec y i + g t i) (hj : ∀ t y, fn.jac t y = M t) {h t' : ℝ}
    (hM : IsUnit (1 - (h * bdfW order) • Matrix.of (M t')).det) (v : ℕ → Vec ℝ n) (x : Vec ℝ n) (st : NewtonStatus ℝ) :
    ∃ y' st', newtonIterate la (bdfEq fn order h t' v) x bdfNewton st true = some (.ret (y', st')) ∧ st'.conv = 0 ∧
      ∀ i, y' i + ∑ j ∈ Finset.range order.toNat, bdfC order j * v j i = h * bdfW order * fn.fn t' y' i := by
  have hMat : Matrix.of (fun p r => eye n p r - h * bdfW order * M t' p r : Mat ℝ n) =
      1 - (h * bdfW order) • Matrix.of (M t') := by
    ext p r
    simp [eye_real, Matrix.one_apply]
  obtain ⟨xr, st', h1, h2, -, h3, -⟩ := C30_affine (x := x) (st0 := st) (fn := bdfEq fn order h t' v) (o := bdfNewton) hla
    (M := fun p r => eye n p r - h * bdfW order * M t' p r)
    (q := fun p => ∑ j ∈ Finset.range order.toNat, bdfC order j * v j p - h * bdfW order * g t' p)
    (by rw [hMat]; exact hM)
    (by
      intro z
      funext p
      rw [hMat]
      simp only [bdfEq, foldl_linComb, hf, Matrix.sub_mulVec, Matrix.one_mulVec, Pi.sub_apply, Matrix.smul_mulVec,
        Pi.smul_apply, smul_eq_mul, lit_real, Rat.cast_zero]
      ring)
    (fun z => by simp only [bdfEq, hj]) rfl (by simp [bdfNewton, NewtonOpts.dflt]) (by simp [bdfNewton])
    (by simp [bdfNewton]) true
  refine ⟨xr, st', h1, h2, fun i => ?_⟩
  have := congrFun h3 i
  simp only [bdfEq, foldl_linComb, lit_real, Rat.cast_zero, zero_add, Pi.zero_apply] at this
  linarith

/-- **C54 for linear right-hand sides** `f(t,y) = M(t) y + g(t)`: with regular matrices `I - h d M(t)` the run never
fails, and every value after the bootstrap satisfies the BDF equation exactly. -/
theorem C54_affine (hla : la.Exact) {M : ℝ → Mat ℝ n} {g : ℝ → Vec ℝ n}
    (hf : ∀ t y, fn.fn t y = fun i => (Matrix.of (M t)).mulVec y i + g t i) (hj : ∀ t y, fn.jac t y = M t)
    (hM : ∀ t, IsUnit (1 - (min dt (t1 - t0) * bdfW order) • Matrix.of (M t)).det) (h0 : 0 < order) (h6 : order ≤ 6)
    (h : bdf nd la fn t0 t1 y0 order dt st0 fuelB fuel = some (.ret out)) :
    out.status = 0 ∧ ∀ (i : ℕ) y', order + 1 ≤ i → out.yVals[i]? = some y' →
      ∃ v : ℕ → Vec ℝ n, (∀ j : ℕ, (j : ℤ) < order → out.yVals[i - 1 - j]? = some (v j)) ∧
        ∀ p, y' p + ∑ j ∈ Finset.range order.toNat, bdfC order j * v j p =
          min dt (t1 - t0) * bdfW order * fn.fn (t0 + i * min dt (t1 - t0)) y' p := by
  constructor
  · rcases C54_failure h0 h6 h with e | ⟨-, -, v, st, y', st', -, e3, e4⟩
    · exact e
    · exfalso
      rw [clipDt_real] at e3
      obtain ⟨y'', st'', g1, g2, -⟩ := bdfEq_affine (fn := fn) (order := order) hla hf hj (hM _) v (v 0) st
      rw [g1] at e3
      simp only [Option.some.injEq, Outcome.ret.injEq, Prod.mk.injEq] at e3
      rw [← e3.2] at e4
      exact e4 g2
  · intro i y' hi hy'
    obtain ⟨v, st, st', e1, e3, e4⟩ := C54_samples h0 h6 h hi hy'
    rw [clipDt_real, gridPt_real] at e3
    obtain ⟨y'', st'', g1, g2, g3⟩ := bdfEq_affine (fn := fn) (order := order) hla hf hj
      (hM (t0 + i * min dt (t1 - t0))) v (v 0) st
    rw [g1] at e3
    simp only [Option.some.injEq, Outcome.ret.injEq, Prod.mk.injEq] at e3
    rw [← e3.1]
    exact ⟨v, e1, g3⟩

/-- concrete runs: `y' = v` over `[0, 1e-5]` with step `1e-6`, for every valid order -/
theorem ms_example (order : ℤ) (h0 : 0 < order) : ∃ v : ℝ, 0 < v ∧
    (order ≤ 5 → ∃ fuel out, adamsBashforth false laReal (constFun (n := 1) fun _ => v) 0 (1 / 10 ^ 5) (fun _ => 0) order
      (1 / 10 ^ 6) nStat 2 fuel = some (.ret out)) ∧
    (order ≤ 6 → ∃ fuel out, bdf false laReal (constFun (n := 1) fun _ => v) 0 (1 / 10 ^ 5) (fun _ => 0) order
      (1 / 10 ^ 6) nStat 2 fuel = some (.ret out)) := by
  obtain ⟨v, hv0, hv⟩ := slope_exists
  have hmin : min (1 / 10 ^ 6 : ℝ) (1 / 10 ^ 5 - 0) = 1 / 10 ^ 6 := min_eq_left (by norm_num)
  refine ⟨v, hv0, fun h5 => ?_, fun h6 => ?_⟩
  · obtain ⟨l, hl⟩ := bootstrap_const (n := 1) (by norm_num) (fun _ => v) (fun _ => hv) (dt := 1 / 10 ^ 6) (by norm_num)
      (le_refl _) order 0 (fun _ => 0)
    exact C53_ab_returns h0 h5 (by norm_num) (by norm_num) (by rw [hmin]; exact hl)
  · obtain ⟨l, hl⟩ := bootstrap_const (n := 1) (by norm_num) (fun _ => v) (fun _ => hv) (dt := 1 / 10 ^ 6) (by norm_num)
      (le_refl _) (order + 1) 0 (fun _ => 0)
    exact C53_bdf_returns h0 h6 (by norm_num) (by norm_num) (by rw [hmin]; exact hl)

/-- the hypotheses of `C54_affine` for `constFun` -/
example (v : Vec ℝ 2) (t : ℝ) : (∀ y, (constFun v).fn t y = fun i => (Matrix.of (fun _ _ => 0 : Mat ℝ 2)).mulVec y i + v i) ∧
    IsUnit (1 - (min (1 / 2) (1 - 0 : ℝ) * bdfW 3) • Matrix.of (fun _ _ => 0 : Mat ℝ 2)).det := by
  have hz : Matrix.of (fun _ _ => 0 : Mat ℝ 2) = 0 := rfl
  refine ⟨fun y => ?_, ?_⟩
  · funext i; simp [constFun, hz]
  · rw [hz]; simp

/-- `C53_adams_bashforth`, `C53_ab_grid` and `C52_lag` on a run of order 3: it ends with the first grid time at or after
`t1`, and the value at index 5 lags by two steps -/
example : ∃ v : ℝ, 0 < v ∧ ∃ fuel out, adamsBashforth false laReal (constFun (n := 1) fun _ => v) 0 (1 / 10 ^ 5) (fun _ => 0) 3
      (1 / 10 ^ 6) nStat 2 fuel = some (.ret out) ∧ out.status = 0 ∧ out.tVals[2]? = some (2 / 10 ^ 6) ∧
      (∀ y, out.yVals[5]? = some y → y 0 = 3 / 10 ^ 6 * v) ∧
      ∀ t, out.tVals.getLast? = some t → 1 / 10 ^ 5 ≤ t := by
  obtain ⟨v, hv, h1, -⟩ := ms_example 3 (by norm_num)
  obtain ⟨fuel, out, h⟩ := h1 (by norm_num)
  have hmin : min (1 / 10 ^ 6 : ℝ) (1 / 10 ^ 5 - 0) = 1 / 10 ^ 6 := min_eq_left (by norm_num)
  obtain ⟨N, e1, e2, -, e4, e5, e6, -⟩ := C53_adams_bashforth h
  refine ⟨v, hv, fuel, out, h, e1, ?_, fun y hy => ?_, fun t ht => ?_⟩
  · rw [e5 2 (by omega), hmin]; norm_num
  · have := C52_lag (fun _ _ => rfl) (by norm_num) h 5 y (by norm_num) hy 0
    rw [this, hmin]
    push_cast
    ring
  · rw [List.getLast?_eq_getElem?, e2, e5 _ (by omega)] at ht
    rw [← Option.some.inj ht]
    exact e6

/-- `C53_bdf`, `C54_samples`, `C54_failure` and `C54_affine` on a run of order 2: it succeeds, and the value at index 3
satisfies the formula of order 2 with the two values before it -/
example : ∃ v : ℝ, 0 < v ∧ ∃ fuel out, bdf false laReal (constFun (n := 1) fun _ => v) 0 (1 / 10 ^ 5) (fun _ => 0) 2
      (1 / 10 ^ 6) nStat 2 fuel = some (.ret out) ∧ out.status = 0 ∧ out.tVals[2]? = some (2 / 10 ^ 6) ∧
      ∀ y, out.yVals[3]? = some y → ∃ y1 y2, out.yVals[2]? = some y2 ∧ out.yVals[1]? = some y1 ∧
        y 0 - 4 / 3 * y2 0 + 1 / 3 * y1 0 = 2 / 3 * (1 / 10 ^ 6) * v := by
  obtain ⟨v, hv, -, h1⟩ := ms_example 2 (by norm_num)
  obtain ⟨fuel, out, h⟩ := h1 (by norm_num)
  have hmin : min (1 / 10 ^ 6 : ℝ) (1 / 10 ^ 5 - 0) = 1 / 10 ^ 6 := min_eq_left (by norm_num)
  have hz : Matrix.of (fun _ _ => 0 : Mat ℝ 1) = 0 := rfl
  obtain ⟨N, e2, -, e4, e5, -, -⟩ := C53_bdf (by norm_num) (by norm_num) h
  obtain ⟨g1, g2⟩ := C54_affine (fn := constFun (n := 1) fun _ => v) (M := fun _ _ _ => 0) (g := fun _ _ => v) laReal_exact
    (fun t y => by funext i; simp [constFun, hz]) (fun t y => rfl) (fun t => by rw [hz]; simp) (by norm_num) (by norm_num) h
  refine ⟨v, hv, fuel, out, h, g1, ?_, fun y hy => ?_⟩
  · rw [e5 2 (by omega), hmin]; norm_num
  · obtain ⟨w, k1, k2⟩ := g2 3 y (by norm_num) hy
    refine ⟨w 1, w 0, by simpa using k1 0 (by norm_num), by simpa using k1 1 (by norm_num), ?_⟩
    have := k2 0
    rw [hmin] at this
    rw [show Int.toNat 2 = 2 from rfl] at this
    norm_num [Finset.sum_range_succ, bdfC, bdfRow, bdfW, constFun, q, nq] at this
    linarith

/-- `C54_bad_order` and `C53_ab_bad_order`: order 7 of `bdf`, order 0 of `adams_bashforth` -/
example : bdf false laReal (constFun (n := 1) fun _ => 1) 0 1 (fun _ => 0) 7 (1 / 2) nStat 2 9 = some (.ret ⟨4, [], []⟩) ∧
    adamsBashforth false laReal (constFun (n := 1) fun _ => 1) 0 1 (fun _ => 0) 0 (1 / 2) nStat 2 9 = some .ub :=
  ⟨C54_bad_order (by norm_num), (C53_ab_bad_order (Or.inr (by rw [clipDt_real, ltb_real]; norm_num))).2 rfl⟩

end real
end Verif
