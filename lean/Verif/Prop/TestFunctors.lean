import Verif.TestFunctors
import Verif.Prop.TestEq

/-!
# Property C99: the functors of test/newton.cpp
-/

namespace Verif
open TestFun

/-- `g` is the gradient of `f` at `x` -/
def IsGradientAt {n : ℕ} (f : Vec ℝ n → ℝ) (g : Vec ℝ n) (x : Vec ℝ n) : Prop :=
  ∃ L : Vec ℝ n →L[ℝ] ℝ, HasFDerivAt f L x ∧ ∀ v, L v = ∑ j, g j * v j

/-- **C99 (`rosenbrock_func`, gradient).** -/
theorem C99_rosenbrock_gradient (a b : ℝ) (x : Vec ℝ 2) : IsGradientAt (rosen a b) ((rosenFun a b).fn x) x := by
  have c := hasFDerivAt_coord x
  have hb := (c 1).sub ((c 0).mul (c 0))
  have h := (((c 0).const_sub a).mul ((c 0).const_sub a)).add ((hb.const_mul b).mul hb)
  refine ⟨_, h.congr_of_eventuallyEq (Filter.Eventually.of_forall fun z => ?_), fun v => ?_⟩
  · simp [rosen]
  · simp [rosenFun, Fin.sum_univ_two]; ring

/-- **C99 (`rosenbrock_func`, Hessian).** -/
theorem C99_rosenbrock_hessian (a b : ℝ) (x : Vec ℝ 2) : IsJacobianAt (rosenFun a b).fn ((rosenFun a b).jac x) x := by
  have c := hasFDerivAt_coord x
  have hb := (c 1).sub ((c 0).mul (c 0))
  refine isJacobianAt_of fun i => ?_
  fin_cases i
  · have h := (((c 0).const_sub a).const_mul (-2)).sub ((hb.const_mul (4 * b)).mul (c 0))
    refine ⟨_, h.congr_of_eventuallyEq (Filter.Eventually.of_forall fun z => ?_), fun v => ?_⟩
    · simp [rosenFun]
    · simp [rosenFun, Fin.sum_univ_two]; ring
  · refine ⟨_, (hb.const_mul (2 * b)).congr_of_eventuallyEq (Filter.Eventually.of_forall fun z => ?_), fun v => ?_⟩
    · simp [rosenFun]
    · simp [rosenFun, Fin.sum_univ_two]; ring

/-- **C99 (`rosenbrock_func`, root).**  The root the test expects (test/newton.cpp 262) is the only one. -/
theorem C99_rosenbrock_root {a b : ℝ} (hb : b ≠ 0) (x : Vec ℝ 2) : (rosenFun a b).fn x = 0 ↔ x = ![a, a * a] := by
  constructor
  · intro h
    have h1 := congrFun h 1
    have h0 := congrFun h 0
    simp [rosenFun, hb] at h0 h1
    have e : x 1 = x 0 * x 0 := by linarith
    rw [h1] at h0
    have e0 : x 0 = a := by linarith
    ext i
    fin_cases i
    · exact e0
    · simp [e, e0]
  · rintro rfl
    ext i
    fin_cases i <;> simp [rosenFun]

/-- an index is a pair and a parity -/
def idxEquiv (N : ℕ) : Fin (2 * N) ≃ Fin N × Fin 2 where
  toFun j := (pairOf j, ⟨j.val % 2, Nat.mod_lt _ (by norm_num)⟩)
  invFun p := ⟨2 * p.1 + p.2, by omega⟩
  left_inv j := by ext; simp [pairOf]; omega
  right_inv p := by
    ext
    · simp [pairOf]; omega
    · simp; omega

theorem sum_pairs {N : ℕ} (g : Fin (2 * N) → ℝ) : ∑ j, g j = ∑ k, (g (fstIdx k) + g (sndIdx k)) := by
  rw [← (idxEquiv N).symm.sum_comp, Fintype.sum_prod_type]
  refine Finset.sum_congr rfl fun k _ => ?_
  rw [Fin.sum_univ_two]
  rfl

theorem pairOf_fst {N : ℕ} (k : Fin N) : pairOf (fstIdx k) = k := by ext; simp [pairOf, fstIdx]
theorem pairOf_snd {N : ℕ} (k : Fin N) : pairOf (sndIdx k) = k := by ext; simp [pairOf, sndIdx]; omega
theorem fst_even {N : ℕ} (k : Fin N) : (fstIdx k).val % 2 = 0 := by simp [fstIdx]
theorem snd_odd {N : ℕ} (k : Fin N) : (sndIdx k).val % 2 = 1 := by simp [sndIdx]
theorem fst_ne_snd {N : ℕ} (k l : Fin N) : fstIdx k ≠ sndIdx l := by simp [fstIdx, sndIdx]; omega
theorem idx_cases {N : ℕ} (j : Fin (2 * N)) : (∃ k, j = fstIdx k) ∨ ∃ k, j = sndIdx k := by
  rcases Nat.mod_two_eq_zero_or_one j.val with h | h
  · exact .inl ⟨pairOf j, by ext; simp [fstIdx, pairOf]; omega⟩
  · exact .inr ⟨pairOf j, by ext; simp [sndIdx, pairOf]; omega⟩

theorem higher_fst {N : ℕ} (a b : ℝ) (x : Vec ℝ (2 * N)) (k : Fin N) : (higherFun N a b).fn x (fstIdx k) =
    -2 * (a - x (fstIdx k)) + 2 * b * (x (fstIdx k) - x (sndIdx k) * x (sndIdx k)) := by
  simp [higherFun, pairOf_fst, fst_even]

theorem higher_snd {N : ℕ} (a b : ℝ) (x : Vec ℝ (2 * N)) (k : Fin N) : (higherFun N a b).fn x (sndIdx k) =
    -4 * b * (x (fstIdx k) - x (sndIdx k) * x (sndIdx k)) * x (sndIdx k) := by
  simp [higherFun, pairOf_snd, snd_odd]

theorem higher_sum {N : ℕ} (a b : ℝ) (x : Vec ℝ (2 * N)) : higher a b x = ∑ k : Fin N,
    ((a - x (fstIdx k)) * (a - x (fstIdx k)) +
      b * (x (fstIdx k) - x (sndIdx k) * x (sndIdx k)) * (x (fstIdx k) - x (sndIdx k) * x (sndIdx k))) := by
  have key : ∀ (l : List (Fin N)) (g : Fin N → ℝ) (r : ℝ), l.foldl (fun res k => res + g k) r = r + (l.map g).sum := by
    intro l g
    induction l with
    | nil => intro r; simp
    | cons k l ih => intro r; rw [List.foldl_cons, ih]; simp [add_assoc]
  unfold higher
  rw [key (List.finRange N) (fun k => (a - x (fstIdx k)) * (a - x (fstIdx k)) +
      b * (x (fstIdx k) - x (sndIdx k) * x (sndIdx k)) * (x (fstIdx k) - x (sndIdx k) * x (sndIdx k)))]
  rw [← List.ofFn_eq_map, List.sum_ofFn]
  simp

/-- **C99 (`higher_order_rosenbrock_func`, gradient).** -/
theorem C99_higher_gradient {N : ℕ} (a b : ℝ) (x : Vec ℝ (2 * N)) : IsGradientAt (higher a b) ((higherFun N a b).fn x) x := by
  have c := hasFDerivAt_coord x
  have hb := fun k : Fin N => (c (fstIdx k)).sub ((c (sndIdx k)).mul (c (sndIdx k)))
  have h := HasFDerivAt.fun_sum (u := Finset.univ) fun (k : Fin N) _ =>
    (((c (fstIdx k)).const_sub a).mul ((c (fstIdx k)).const_sub a)).add (((hb k).const_mul b).mul (hb k))
  refine ⟨_, h.congr_of_eventuallyEq (Filter.Eventually.of_forall fun z => ?_), fun v => ?_⟩
  · rw [higher_sum]; rfl
  · rw [sum_pairs]
    simp only [higher_fst, higher_snd, sum_apply]
    refine Finset.sum_congr rfl fun k _ => ?_
    simp
    ring

/-- the derivatives of the two components of a pair -/
theorem higher_deriv {N : ℕ} (a b : ℝ) (x : Vec ℝ (2 * N)) (k : Fin N) :
    (∃ L : Vec ℝ (2 * N) →L[ℝ] ℝ, HasFDerivAt (fun z => (higherFun N a b).fn z (fstIdx k)) L x ∧
      ∀ v, L v = 2 * (1 + b) * v (fstIdx k) - 4 * b * x (sndIdx k) * v (sndIdx k)) ∧
    ∃ L : Vec ℝ (2 * N) →L[ℝ] ℝ, HasFDerivAt (fun z => (higherFun N a b).fn z (sndIdx k)) L x ∧
      ∀ v, L v = -4 * b * x (sndIdx k) * v (fstIdx k) +
        (-4 * b * (x (fstIdx k) - x (sndIdx k) * x (sndIdx k)) + 8 * b * x (sndIdx k) * x (sndIdx k)) * v (sndIdx k) := by
  have c := hasFDerivAt_coord x
  have hb := (c (fstIdx k)).sub ((c (sndIdx k)).mul (c (sndIdx k)))
  constructor
  · have h := (((c (fstIdx k)).const_sub a).const_mul (-2)).add (hb.const_mul (2 * b))
    refine ⟨_, h.congr_of_eventuallyEq (Filter.Eventually.of_forall fun z => ?_), fun v => ?_⟩
    · simp only [higher_fst]; rfl
    · simp; ring
  · have h := (hb.const_mul (-4 * b)).mul (c (sndIdx k))
    refine ⟨_, h.congr_of_eventuallyEq (Filter.Eventually.of_forall fun z => ?_), fun v => ?_⟩
    · simp only [higher_snd]; rfl
    · simp; ring

/-- the rows of the matrix -/
theorem higher_rows {N : ℕ} (a b : ℝ) (x v : Vec ℝ (2 * N)) (k : Fin N) :
    ∑ j, (higherFun N a b).jac x (fstIdx k) j * v j = 2 * (1 + b) * v (fstIdx k) ∧
    ∑ j, (higherFun N a b).jac x (sndIdx k) j * v j =
      (-4 * b * (x (fstIdx k) - x (sndIdx k) * x (sndIdx k)) + 8 * b * x (sndIdx k) * x (sndIdx k)) * v (sndIdx k) := by
  constructor
  · rw [sum_pairs, Finset.sum_eq_single k]
    · simp [higherFun, pairOf_fst, pairOf_snd, fst_even, snd_odd]
    · intro l _ hl
      simp [higherFun, pairOf_fst, pairOf_snd, hl]
    · simp
  · rw [sum_pairs, Finset.sum_eq_single k]
    · simp [higherFun, pairOf_fst, pairOf_snd, fst_even, snd_odd]; left; ring
    · intro l _ hl
      simp [higherFun, pairOf_fst, pairOf_snd, hl]
    · simp

/-- **C99 (`higher_order_rosenbrock_func`, Hessian).**  The matrix is the derivative of the gradient exactly where `b x_{i+1} = 0`
for every pair. -/
theorem C99_higher_hessian_iff {N : ℕ} (a b : ℝ) (x : Vec ℝ (2 * N)) :
    IsJacobianAt (higherFun N a b).fn ((higherFun N a b).jac x) x ↔ ∀ k : Fin N, b * x (sndIdx k) = 0 := by
  constructor
  · intro h k
    obtain ⟨L, hL, he⟩ := isJacobianAt_entry h (fstIdx k)
    obtain ⟨M, hM, hm⟩ := (higher_deriv a b x k).1
    have h1 := he (Pi.single (sndIdx k) 1)
    rw [hL.unique hM, hm, (higher_rows a b x _ k).1] at h1
    simp [fst_ne_snd] at h1
    simpa using h1
  · intro h
    refine isJacobianAt_of fun i => ?_
    rcases idx_cases i with ⟨k, rfl⟩ | ⟨k, rfl⟩
    · obtain ⟨M, hM, hm⟩ := (higher_deriv a b x k).1
      refine ⟨M, hM, fun v => ?_⟩
      rw [hm, (higher_rows a b x v k).1]
      linear_combination (-4 * v (sndIdx k)) * h k
    · obtain ⟨M, hM, hm⟩ := (higher_deriv a b x k).2
      refine ⟨M, hM, fun v => ?_⟩
      rw [hm, (higher_rows a b x v k).2]
      linear_combination (-4 * v (fstIdx k)) * h k

/-- the functors with their Jacobi matrices, at the states where the function is defined -/
inductive TestFunctor : (n : ℕ) → NFun ℝ n → Vec ℝ n → Prop
  | rosenbrock (a b : ℝ) (x : Vec ℝ 2) : TestFunctor 2 (rosenFun a b) x
  | higher (N : ℕ) (a b : ℝ) (x : Vec ℝ (2 * N)) : TestFunctor (2 * N) (higherFun N a b) x
  | inverse (a : ℝ) (x : Vec ℝ 1) : 0 < x 0 → x 0 < 1 → TestFunctor 1 (inversePower a) x

/-- the full statement of C99 -/
def C99_claim : Prop := ∀ (n : ℕ) (f : NFun ℝ n) (x : Vec ℝ n), TestFunctor n f x → IsJacobianAt f.fn (f.jac x) x

/-- **C99 is false**: with the parameters of the test (`a = b = 1`, four pairs) and at its starting point
(test/newton.cpp 147-151) the matrix is not the derivative. -/
theorem C99_refuted : ¬ C99_claim := by
  intro h
  have := (C99_higher_hessian_iff (N := 4) 1 1 (fun j => if j.val % 2 = 0 then -1231 / 1000 else 4213 / 1000)).1 (h _ _ _ (.higher 4 1 1 _)) 0
  simp [sndIdx] at this

/-- **C99 (`inverse_power`).**  Between 0 and 1 the matrix is the derivative. -/
theorem C99_inverse_power (a : ℝ) (x : Vec ℝ 1) (h0 : 0 < x 0) (h1 : x 0 < 1) :
    IsJacobianAt (inversePower a).fn ((inversePower a).jac x) x := by
  have c := hasFDerivAt_coord x
  have key : ∀ s : ℝ, 0 < s → HasDerivAt (fun t : ℝ => (t * Real.sqrt t)⁻¹) (-(3 / 2) * (s * s * Real.sqrt s)⁻¹) s := by
    intro s hs
    have hq := Real.sqrt_pos.mpr hs
    have hm := (((hasDerivAt_id s).mul (Real.hasDerivAt_sqrt hs.ne')).inv (mul_pos hs hq).ne')
    refine hm.congr_deriv ?_
    simp only [Pi.mul_apply, id]
    have e := Real.mul_self_sqrt hs.le
    set q := Real.sqrt s
    rw [← e]
    field_simp
    ring
  have k0 : HasDerivAt (fun t : ℝ => (t * Real.sqrt t)⁻¹) _ (x 0) := key (x 0) h0
  have k1 : HasDerivAt (fun t : ℝ => (t * Real.sqrt t)⁻¹) _ (1 - x 0) := key (1 - x 0) (by linarith)
  have f0 := (k0.comp_hasFDerivAt x (c 0)).const_mul a
  have f1 := k1.comp_hasFDerivAt x ((c 0).const_sub 1)
  refine isJacobianAt_of fun i => ?_
  fin_cases i
  refine ⟨_, (f0.sub f1).congr_of_eventuallyEq (Filter.Eventually.of_forall fun z => ?_), fun v => ?_⟩
  · simp [inversePower, div_eq_mul_inv]
  · simp [inversePower, div_eq_mul_inv]; ring

/-- **C99 (what is left).**  The matrices of `rosenbrock_func` and `inverse_power` are the derivatives; that of
`higher_order_rosenbrock_func` is where the second entries vanish. -/
theorem C99_jacobian_partial : (∀ (a b : ℝ) (x : Vec ℝ 2), IsJacobianAt (rosenFun a b).fn ((rosenFun a b).jac x) x) ∧
    (∀ (a : ℝ) (x : Vec ℝ 1), 0 < x 0 → x 0 < 1 → IsJacobianAt (inversePower a).fn ((inversePower a).jac x) x) ∧
    ∀ (N : ℕ) (a b : ℝ) (x : Vec ℝ (2 * N)), (∀ k, x (sndIdx k) = 0) →
      IsJacobianAt (higherFun N a b).fn ((higherFun N a b).jac x) x :=
  ⟨C99_rosenbrock_hessian, C99_inverse_power, fun _ a b x h => (C99_higher_hessian_iff a b x).2 fun k => by rw [h k, mul_zero]⟩

/-- **C99 (critical points).**  For `b ≠ 0` the zeros of the gradient of `higher_order_rosenbrock_func` are the states each of whose
pairs is `(a, y)` with `y² = a`, or has second entry zero. -/
theorem C99_higher_root {N : ℕ} {a b : ℝ} (hb : b ≠ 0) (x : Vec ℝ (2 * N)) : (higherFun N a b).fn x = 0 ↔
    ∀ k : Fin N, (x (fstIdx k) = a ∧ x (sndIdx k) * x (sndIdx k) = a) ∨ (x (sndIdx k) = 0 ∧ (1 + b) * x (fstIdx k) = a) := by
  constructor
  · intro h k
    have h0 := congrFun h (fstIdx k)
    have h1 := congrFun h (sndIdx k)
    rw [higher_fst, Pi.zero_apply] at h0
    rw [higher_snd, Pi.zero_apply] at h1
    rcases mul_eq_zero.mp h1 with h2 | h2
    · have h3 : x (fstIdx k) - x (sndIdx k) * x (sndIdx k) = 0 := by
        rcases mul_eq_zero.mp h2 with h3 | h3
        · exact absurd (by linarith : b = 0) hb
        · exact h3
      rw [h3] at h0
      have : x (fstIdx k) = a := by linarith
      exact .inl ⟨this, by linarith⟩
    · rw [h2] at h0
      exact .inr ⟨h2, by linarith⟩
  · intro h
    ext j
    rcases idx_cases j with ⟨k, rfl⟩ | ⟨k, rfl⟩
    · rw [higher_fst, Pi.zero_apply]
      rcases h k with ⟨h0, h1⟩ | ⟨h0, h1⟩
      · rw [h1, h0]; ring
      · rw [h0]; linear_combination 2 * h1
    · rw [higher_snd, Pi.zero_apply]
      rcases h k with ⟨h0, h1⟩ | ⟨h0, h1⟩
      · rw [h1, h0]; ring
      · rw [h0]; ring

/-- **C99 (the expected root).**  The root the test compares with, `(a, a²)` in the first two entries (test/newton.cpp 162, 169-170), is a
critical point for `a = 0` and `a = 1` only. -/
theorem C99_expected_root {N : ℕ} {a b : ℝ} (hb : b ≠ 0) (k : Fin N) :
    (∃ x : Vec ℝ (2 * N), (higherFun N a b).fn x = 0 ∧ x (fstIdx k) = a ∧ x (sndIdx k) = a * a) ↔ a = 0 ∨ a = 1 := by
  constructor
  · rintro ⟨x, hx, h0, h1⟩
    rcases (C99_higher_root hb x).1 hx k with ⟨-, h2⟩ | ⟨h2, h3⟩
    · rw [h1] at h2
      by_cases ha : a = 0
      · exact .inl ha
      · right
        have h3 : a ^ 3 = 1 := by
          apply mul_left_cancel₀ ha
          linarith
        nlinarith [sq_nonneg (a + 1), sq_nonneg (a - 1)]
    · rw [h1] at h2
      exact .inl (mul_self_eq_zero.mp h2)
  · rintro (rfl | rfl)
    · exact ⟨0, (C99_higher_root hb _).2 fun l => .inl (by simp), by simp⟩
    · exact ⟨fun _ => 1, (C99_higher_root hb _).2 fun l => .inl (by simp), by simp⟩

/-- **C99 (consequence).**  Newton's method with that matrix does not converge quadratically: whatever the constant and however near
the root, there is a point from which the step with the exact solution of the linear system breaks the bound. -/
theorem C99_not_quadratic {N : ℕ} (k : Fin N) {b : ℝ} (hb : 0 < b) (C δ : ℝ) (hδ : 0 < δ) :
    ∃ x : Vec ℝ (2 * N), (∀ j, |x j - 1| ≤ δ) ∧ ∀ d : Vec ℝ (2 * N),
      (∀ i, ∑ j, (higherFun N 1 b).jac x i j * d j = (higherFun N 1 b).fn x i) →
      ∃ j, C * ‖x - 1‖ ^ 2 < |x j - d j - 1| := by
  obtain ⟨e, he0, he1, he2, he3⟩ : ∃ e : ℝ, 0 < e ∧ e ≤ 1 ∧ e ≤ δ ∧ |C| * e < 1 / 2 := by
    refine ⟨min (min 1 δ) (1 / (4 * (|C| + 1))), by positivity, (min_le_left _ _).trans (min_le_left _ _),
      (min_le_left _ _).trans (min_le_right _ _), ?_⟩
    have h1 : min (min 1 δ) (1 / (4 * (|C| + 1))) ≤ 1 / (4 * (|C| + 1)) := min_le_right _ _
    have h2 : 0 ≤ |C| := abs_nonneg C
    calc |C| * _ ≤ |C| * (1 / (4 * (|C| + 1))) := mul_le_mul_of_nonneg_left h1 h2
      _ < 1 / 2 := by rw [mul_one_div, div_lt_iff₀ (by positivity)]; linarith
  have hn : ‖(fun j : Fin (2 * N) => if j.val % 2 = 0 then 1 + e else 1) - 1‖ ≤ e := by
    rw [pi_norm_le_iff_of_nonneg he0.le]
    intro j
    rw [Real.norm_eq_abs, Pi.sub_apply, Pi.one_apply]
    split_ifs
    · simp [abs_of_pos he0]
    · simp [he0.le]
  refine ⟨fun j => if j.val % 2 = 0 then 1 + e else 1, fun j => ?_, fun d hd => ⟨sndIdx k, ?_⟩⟩
  · have := (norm_le_pi_norm _ j).trans hn
    rw [Real.norm_eq_abs, Pi.sub_apply, Pi.one_apply] at this
    exact this.trans he2
  · have h := hd (sndIdx k)
    rw [(higher_rows 1 b _ d k).2, higher_snd] at h
    simp only [fst_even, snd_odd, if_true, one_ne_zero, if_false] at h ⊢
    have h1 : (2 - e) * d (sndIdx k) = -e := by
      apply mul_left_cancel₀ (show (4 * b) ≠ 0 by positivity)
      linarith
    have h2 : |1 - d (sndIdx k) - 1| = e / (2 - e) := by
      have : d (sndIdx k) = -(e / (2 - e)) := by
        rw [← neg_div, eq_div_iff (by linarith)]; linarith
      rw [this]
      have : 0 ≤ e / (2 - e) := div_nonneg he0.le (by linarith)
      rw [show 1 - -(e / (2 - e)) - 1 = e / (2 - e) by ring, abs_of_nonneg this]
    rw [h2]
    have h3 : e / 2 ≤ e / (2 - e) := by
      apply div_le_div_of_nonneg_left he0.le (by linarith) (by linarith)
    have h4 := norm_nonneg ((fun j : Fin (2 * N) => if j.val % 2 = 0 then 1 + e else 1) - 1)
    set s := ‖(fun j : Fin (2 * N) => if j.val % 2 = 0 then 1 + e else 1) - 1‖
    have h5 : C * s ^ 2 ≤ |C| * e ^ 2 :=
      mul_le_mul (le_abs_self C) (by gcongr) (by positivity) (abs_nonneg C)
    have h6 : |C| * e ^ 2 < e / 2 := by nlinarith
    linarith

-- The hypotheses hold for the functors of the test at its starting point.
example : TestFunctor 2 (rosenFun 1 100) ![-1231 / 1000, 4213 / 1000] := .rosenbrock _ _ _
example : TestFunctor 1 (inversePower 2) ![1 / 2] := .inverse _ _ (by simp) (by norm_num)
example : (rosenFun (1 : ℝ) 100).fn ![1, 1] = 0 := (C99_rosenbrock_root (by norm_num) _).2 (by norm_num)
-- and `inverse_power` with `a = 1` has its root at 1/2
example : (inversePower (1 : ℝ)).fn ![1 / 2] = 0 := by
  ext i; fin_cases i; norm_num [inversePower]
-- the matrix is right at a state with second entries zero
example : IsJacobianAt (higherFun 2 (1 : ℝ) 1).fn ((higherFun 2 1 1).jac ![5, 0, 7, 0]) ![5, 0, 7, 0] :=
  (C99_higher_hessian_iff 1 1 _).2 (by intro k; fin_cases k <;> simp [sndIdx])

end Verif
