import Verif.PolyRhs
import Verif.Prop.ErkFloat
import Verif.Prop.ErkFPEnd
import Verif.BdfFloat

/-!
# Property C133: the shipped test equations in arithmetic with rounding errors, and total correctness of fixed-step runs on them in binary64
-/

set_option autoImplicit false

namespace Verif
open Spec Set TestEq

/-- The right-hand side and the Jacobi matrix of `eq`, a system with `n` unknowns and `p` parameters, are written with `+ - *`, negation, literals and
divisions by parameters that are not zero if `ok`. -/
def Elementary {n p : ℕ} (eq : ∀ (F : Type) [Add F] [Sub F] [Mul F] [Div F] [Neg F] [Scalar F], (Fin p → F) → OdeFun F n)
    (ok : (Fin p → ℝ) → Prop) : Prop :=
  ∃ E : Fin n → RExp n p, (∀ (F : Type) [Add F] [Sub F] [Mul F] [Div F] [Neg F] [Scalar F] (P : Fin p → F) (t : F) (y : Vec F n) (k : Fin n),
    (eq F P).fn t y k = (E k).eval P t y) ∧ (∀ P, ok P → ∀ k, (E k).Ok P) ∧
  ∃ J : Fin n → Fin n → RExp n p, (∀ (F : Type) [Add F] [Sub F] [Mul F] [Div F] [Neg F] [Scalar F] (P : Fin p → F) (t : F) (y : Vec F n) (k l : Fin n),
    (eq F P).jac t y k l = (J k l).eval P t y) ∧ ∀ P, ok P → ∀ k l, (J k l).Ok P

section written
open RExp

/-- **C133, the equations.**  All test equations of the repository except `three_body` are of this kind; `vdpol` and `dimer` divide by
their parameter. -/
theorem C133_equations :
    Elementary (n := 1) (p := 1) (fun _ _ _ _ _ _ _ P => exponential (P 0)) (fun _ => True) ∧
    Elementary (n := 2) (p := 1) (fun _ _ _ _ _ _ _ P => harmonic (P 0)) (fun _ => True) ∧
    Elementary (n := 2) (p := 1) (fun _ _ _ _ _ _ _ P => vdpol (P 0)) (fun P => P 0 ≠ 0) ∧
    Elementary (n := 2) (p := 2) (fun _ _ _ _ _ _ _ P => bruss (P 0) (P 1)) (fun _ => True) ∧
    Elementary (n := 3) (p := 0) (fun _ _ _ _ _ _ _ _ => rober) (fun _ => True) ∧
    Elementary (n := 2) (p := 1) (fun _ _ _ _ _ _ _ P => dimer (P 0)) (fun P => P 0 ≠ 0) ∧
    Elementary (n := 2) (p := 0) (fun _ _ _ _ _ _ _ _ => stiffEq) (fun _ => True) ∧
    Elementary (n := 4) (p := 3) (fun _ _ _ _ _ _ _ P => kinetic4 (P 0) (P 1) (P 2)) (fun _ => True) ∧
    Elementary (n := 3) (p := 3) (fun _ _ _ _ _ _ _ P => lorenz (P 0) (P 1) (P 2)) (fun _ => True) := by
  refine ⟨?_, ?_, ?_, ?_, ?_, ?_, ?_, ?_, ?_⟩
  · refine ⟨![mul (par 0) (var 0)], ?_, ?_,
      ![![par 0]], ?_, ?_⟩
    · intro F _ _ _ _ _ _ P t y k; fin_cases k; rfl
    · intro P h k; fin_cases k; simp [Ok]
    · intro F _ _ _ _ _ _ P t y k l; fin_cases k; fin_cases l; rfl
    · intro P h k l; fin_cases k; fin_cases l; simp [Ok]
  · refine ⟨![mul (par 0) (var 1), mul (neg (par 0)) (var 0)], ?_, ?_,
      ![![num 0, par 0], ![neg (par 0), num 0]], ?_, ?_⟩
    · intro F _ _ _ _ _ _ P t y k; fin_cases k <;> rfl
    · intro P h k; fin_cases k <;> simp [Ok]
    · intro F _ _ _ _ _ _ P t y k l; fin_cases k <;> fin_cases l <;> rfl
    · intro P h k l; fin_cases k <;> fin_cases l <;> simp [Ok]
  · refine ⟨![var 1, over (sub (mul (sub (num 1) (mul (var 0) (var 0))) (var 1)) (var 0)) 0], ?_, ?_,
      ![![num 0, num 1], ![over (neg (add (mul (mul (num 2) (var 0)) (var 1)) (num 1))) 0, over (sub (num 1) (mul (var 0) (var 0))) 0]], ?_, ?_⟩
    · intro F _ _ _ _ _ _ P t y k; fin_cases k <;> rfl
    · intro P h k; fin_cases k <;> simp [Ok, h]
    · intro F _ _ _ _ _ _ P t y k l; fin_cases k <;> fin_cases l <;> rfl
    · intro P h k l; fin_cases k <;> fin_cases l <;> simp [Ok, h]
  · refine ⟨![sub (sub (add (par 0) (mul (mul (var 0) (var 0)) (var 1))) (mul (par 1) (var 0))) (var 0),
      sub (mul (par 1) (var 0)) (mul (mul (var 0) (var 0)) (var 1))], ?_, ?_,
      ![![sub (sub (mul (mul (num 2) (var 0)) (var 1)) (par 1)) (num 1), mul (var 0) (var 0)],
      ![sub (par 1) (mul (mul (num 2) (var 0)) (var 1)), mul (neg (var 0)) (var 0)]], ?_, ?_⟩
    · intro F _ _ _ _ _ _ P t y k; fin_cases k <;> rfl
    · intro P h k; fin_cases k <;> simp [Ok]
    · intro F _ _ _ _ _ _ P t y k l; fin_cases k <;> fin_cases l <;> rfl
    · intro P h k l; fin_cases k <;> fin_cases l <;> simp [Ok]
  · refine ⟨![add (mul (neg (num (4 / 100))) (var 0)) (mul (mul (num (10 ^ 4)) (var 1)) (var 2)),
      sub (sub (mul (num (4 / 100)) (var 0)) (mul (mul (num (10 ^ 4)) (var 1)) (var 2))) (mul (mul (num (3 * 10 ^ 7)) (var 1)) (var 1)),
      mul (mul (num (3 * 10 ^ 7)) (var 1)) (var 1)], ?_, ?_,
      ![![neg (num (4 / 100)), mul (num (10 ^ 4)) (var 2), mul (num (10 ^ 4)) (var 1)],
      ![num (4 / 100), sub (mul (neg (num (10 ^ 4))) (var 2)) (mul (num (6 * 10 ^ 7)) (var 1)), mul (neg (num (10 ^ 4))) (var 1)],
      ![num 0, mul (num (6 * 10 ^ 7)) (var 1), num 0]], ?_, ?_⟩
    · intro F _ _ _ _ _ _ P t y k; fin_cases k <;> rfl
    · intro P h k; fin_cases k <;> simp [Ok]
    · intro F _ _ _ _ _ _ P t y k l; fin_cases k <;> fin_cases l <;> rfl
    · intro P h k l; fin_cases k <;> fin_cases l <;> simp [Ok]
  · refine ⟨![add (mul (mul (mul (neg (num 2)) (par 0)) (var 0)) (var 0)) (mul (mul (num 2) (over (num 1) 0)) (var 1)),
      sub (mul (mul (par 0) (var 0)) (var 0)) (mul (over (num 1) 0) (var 1))], ?_, ?_,
      ![![mul (mul (neg (num 4)) (par 0)) (var 0), mul (num 2) (over (num 1) 0)], ![mul (mul (num 2) (par 0)) (var 0), neg (over (num 1) 0)]], ?_, ?_⟩
    · intro F _ _ _ _ _ _ P t y k; fin_cases k <;> rfl
    · intro P h k; fin_cases k <;> simp [Ok, h]
    · intro F _ _ _ _ _ _ P t y k l; fin_cases k <;> fin_cases l <;> rfl
    · intro P h k l; fin_cases k <;> fin_cases l <;> simp [Ok, h]
  · refine ⟨![add (add (num 0) (mul (num 0) (var 0))) (mul (num 1) (var 1)),
      add (add (num 0) (mul (neg (num 1000)) (var 0))) (mul (neg (num 1001)) (var 1))], ?_, ?_,
      ![![num 0, num 1], ![neg (num 1000), neg (num 1001)]], ?_, ?_⟩
    · intro F _ _ _ _ _ _ P t y k; fin_cases k <;> rfl
    · intro P h k; fin_cases k <;> simp [Ok]
    · intro F _ _ _ _ _ _ P t y k l; fin_cases k <;> fin_cases l <;> rfl
    · intro P h k l; fin_cases k <;> fin_cases l <;> simp [Ok]
  · refine ⟨![add (sub (mul (mul (neg (num 2)) (var 0)) (var 0)) (mul (var 0) (add (var 1) (var 2))))
        (add (add (mul (mul (num 2) (par 0)) (var 1)) (mul (par 1) (var 2))) (mul (par 2) (var 3))),
      sub (add (sub (mul (var 0) (var 0)) (mul (var 0) (var 1))) (mul (par 1) (var 2))) (mul (par 0) (var 1)),
      sub (add (sub (mul (var 0) (var 1)) (mul (var 0) (var 2))) (mul (par 2) (var 3))) (mul (par 1) (var 2)),
      sub (mul (var 0) (var 2)) (mul (par 2) (var 3))], ?_, ?_,
      ![![sub (sub (mul (neg (num 4)) (var 0)) (var 1)) (var 2), add (neg (var 0)) (mul (num 2) (par 0)), add (neg (var 0)) (par 1), par 2],
      ![sub (mul (num 2) (var 0)) (var 1), sub (neg (var 0)) (par 0), par 1, num 0],
      ![sub (var 1) (var 2), var 0, sub (neg (var 0)) (par 1), par 2], ![var 2, num 0, var 0, neg (par 2)]], ?_, ?_⟩
    · intro F _ _ _ _ _ _ P t y k; fin_cases k <;> rfl
    · intro P h k; fin_cases k <;> simp [Ok]
    · intro F _ _ _ _ _ _ P t y k l; fin_cases k <;> fin_cases l <;> rfl
    · intro P h k l; fin_cases k <;> fin_cases l <;> simp [Ok]
  · refine ⟨![mul (par 0) (sub (var 1) (var 0)), sub (mul (var 0) (sub (par 1) (var 2))) (var 1),
      sub (mul (var 0) (var 1)) (mul (par 2) (var 2))], ?_, ?_,
      ![![neg (par 0), par 0, num 0], ![sub (par 1) (var 2), neg (num 1), neg (var 0)], ![var 1, var 0, neg (par 2)]], ?_, ?_⟩
    · intro F _ _ _ _ _ _ P t y k; fin_cases k <;> rfl
    · intro P h k; fin_cases k <;> simp [Ok]
    · intro F _ _ _ _ _ _ P t y k l; fin_cases k <;> fin_cases l <;> rfl
    · intro P h k l; fin_cases k <;> fin_cases l <;> simp [Ok]

end written

section
variable {n p : ℕ} {eq : ∀ (F : Type) [Add F] [Sub F] [Mul F] [Div F] [Neg F] [Scalar F], (Fin p → F) → OdeFun F n} {ok : (Fin p → ℝ) → Prop}

omit eq ok in
/-- times in `[a,b]` and values within two of `U` are bounded -/
theorem tube_bound {U : ℝ → Vec ℝ n} {a b : ℝ} (hU : ContinuousOn U (Icc a b)) :
    ∃ R : ℝ, 1 ≤ R ∧ ∀ (t : ℝ) (y : Vec ℝ n), a ≤ t → t ≤ b → ‖y - U t‖ ≤ 2 → |t| ≤ R ∧ ∀ i, |y i| ≤ R := by
  obtain ⟨V, hV⟩ := isCompact_Icc.exists_bound_of_continuousOn hU
  refine ⟨|V| + 3 + |a| + |b|, by linarith [abs_nonneg V, abs_nonneg a, abs_nonneg b], fun t y ha hb hd => ⟨?_, fun i => ?_⟩⟩
  · refine (abs_le_max_abs_abs ha hb).trans (max_le ?_ ?_) <;> linarith [abs_nonneg V, abs_nonneg a, abs_nonneg b]
  · have q1 := (norm_le_pi_norm (y - U t) i).trans hd
    have q2 := (norm_le_pi_norm (U t) i).trans ((hV _ ⟨ha, hb⟩).trans (le_abs_self V))
    rw [Pi.sub_apply, Real.norm_eq_abs] at q1
    rw [Real.norm_eq_abs] at q2
    have q3 := abs_add_le (y i - U t i) (U t i)
    rw [sub_add_cancel] at q3
    linarith [abs_nonneg a, abs_nonneg b]

/-- **C133, the right-hand sides.**  For a continuous `U` on `[a,b]` and parameters that may be divided by there is `K`, the same for every
arithmetic, such that the computed right-hand side is finite and accurate to `K u` within two of `U`, `u` being the unit roundoff. -/
theorem C133_rhs (he : Elementary eq ok) {P : Fin p → ℝ} (hok : ok P) {U : ℝ → Vec ℝ n} {a b : ℝ} (hU : ContinuousOn U (Icc a b)) :
    ∃ K : ℝ, 0 < K ∧ ∀ (F : Type) [Add F] [Sub F] [Mul F] [Div F] [Neg F] [Scalar F] (u B : ℝ) (A : FloatArith F u B) (Q : Fin p → F),
      0 ≤ u → K * u ≤ 1 → K ≤ B → (∀ j, isFin (Q j) = true) → (∀ j, A.val (Q j) = P j) →
      RhsAccurate A (eq ℝ P).fn U a b (K * u) (eq F Q).fn := by
  obtain ⟨E, hE, hEok, -⟩ := he
  obtain ⟨R, hR, hall⟩ := tube_bound hU
  have hun := fun k => RExp.units_nonneg (P := P) hR (E k)
  have hsum : ∀ k, (E k).units P R ≤ ∑ k, (E k).units P R := fun k => Finset.single_le_sum (fun i _ => hun i) (Finset.mem_univ k)
  refine ⟨1 + ∑ k, (E k).units P R, by linarith [Finset.sum_nonneg fun i (_ : i ∈ Finset.univ) => hun i], ?_⟩
  intro F _ _ _ _ _ _ u B A Q hu h1 hB hQf hQ t y ht hy ha hb hd k
  obtain ⟨htR, hyR⟩ := hall (A.val t) (A.vec y) ha hb hd
  have key := RExp.near_eval (A := A) hu hQf hQ hR ht hy htR hyR (E k) (hEok P hok k)
    (le_trans (mul_le_mul_of_nonneg_right (by linarith [hsum k]) hu) h1) (by linarith [hsum k])
  rw [hE F Q t y k, hE ℝ P _ _ k]
  exact key.mono (mul_le_mul_of_nonneg_right (by linarith [hsum k]) hu)

/-- **C133, the Jacobi matrices.**  There is likewise a bound `Jb` of the row sums of the computed Jacobi matrix, all of whose entries are finite. -/
theorem C133_jac (he : Elementary eq ok) {P : Fin p → ℝ} (hok : ok P) {U : ℝ → Vec ℝ n} {a b : ℝ} (hU : ContinuousOn U (Icc a b)) :
    ∃ K Jb : ℝ, 0 < K ∧ 0 ≤ Jb ∧ ∀ (F : Type) [Add F] [Sub F] [Mul F] [Div F] [Neg F] [Scalar F] (u B : ℝ) (A : FloatArith F u B) (Q : Fin p → F),
      0 ≤ u → K * u ≤ 1 → K ≤ B → (∀ j, isFin (Q j) = true) → (∀ j, A.val (Q j) = P j) → JacBounded A U a b Jb (eq F Q).jac ∧
      ∀ (t : F) (y : Vec F n), isFin t = true → (∀ k, isFin (y k) = true) → a ≤ A.val t → A.val t ≤ b → ‖A.vec y - U (A.val t)‖ ≤ 2 →
        ∀ k l, |A.val ((eq F Q).jac t y k l) - (eq ℝ P).jac (A.val t) (A.vec y) k l| ≤ K * u := by
  obtain ⟨-, -, -, E, hE, hEok⟩ := he
  obtain ⟨R, hR, hall⟩ := tube_bound hU
  have hun := fun k l => RExp.units_nonneg (P := P) hR (E k l)
  have hsum : ∀ k l, (E k l).units P R ≤ ∑ k, ∑ l, (E k l).units P R := fun k l =>
    (Finset.single_le_sum (f := fun l => (E k l).units P R) (fun i _ => hun k i) (Finset.mem_univ l)).trans
      (Finset.single_le_sum (f := fun k => ∑ l, (E k l).units P R) (fun i _ => Finset.sum_nonneg fun j _ => hun i j) (Finset.mem_univ k))
  have hbn := fun k l => RExp.one_le_bnd (P := P) hR (E k l)
  have hbs : ∀ k, ∑ l, ((E k l).bnd P R + 1) ≤ ∑ k, ∑ l, ((E k l).bnd P R + 1) := fun k =>
    Finset.single_le_sum (f := fun k => ∑ l, ((E k l).bnd P R + 1)) (fun i _ => Finset.sum_nonneg fun j _ => by linarith [hbn i j]) (Finset.mem_univ k)
  refine ⟨1 + ∑ k, ∑ l, (E k l).units P R, ∑ k, ∑ l, ((E k l).bnd P R + 1),
    by linarith [Finset.sum_nonneg fun i (_ : i ∈ Finset.univ) => Finset.sum_nonneg fun j (_ : j ∈ Finset.univ) => hun i j],
    Finset.sum_nonneg fun i _ => Finset.sum_nonneg fun j _ => by linarith [hbn i j], ?_⟩
  intro F _ _ _ _ _ _ u B A Q hu h1 hB hQf hQ
  have key : ∀ (t : F) (y : Vec F n), isFin t = true → (∀ k, isFin (y k) = true) → a ≤ A.val t → A.val t ≤ b → ‖A.vec y - U (A.val t)‖ ≤ 2 → ∀ k l,
      Near A ((eq F Q).jac t y k l) ((E k l).eval P (A.val t) (A.vec y)) ((E k l).units P R * u) ∧ (E k l).units P R * u ≤ 1 ∧
        |(E k l).eval P (A.val t) (A.vec y)| ≤ (E k l).bnd P R := by
    intro t y ht hy ha hb hd k l
    obtain ⟨htR, hyR⟩ := hall (A.val t) (A.vec y) ha hb hd
    have hk : (E k l).units P R * u ≤ 1 := le_trans (mul_le_mul_of_nonneg_right (by linarith [hsum k l]) hu) h1
    rw [hE F Q t y k l]
    exact ⟨RExp.near_eval (A := A) hu hQf hQ hR ht hy htR hyR (E k l) (hEok P hok k l) hk (by linarith [hsum k l]), hk, RExp.abs_eval_le hR htR hyR _⟩
  refine ⟨fun t y ht hy ha hb hd i => ⟨fun l => (key t y ht hy ha hb hd i l).1.1, (Finset.sum_le_sum fun l _ => ?_).trans (hbs i)⟩, ?_⟩
  · obtain ⟨q1, q2, q3⟩ := key t y ht hy ha hb hd i l
    exact q1.abs_le.trans (add_le_add q3 q2)
  · intro t y ht hy ha hb hd k l
    rw [hE ℝ P _ _ k l]
    exact (key t y ht hy ha hb hd k l).1.2.trans (mul_le_mul_of_nonneg_right (by linarith [hsum k l]) hu)

/-- the exact right-hand side is smooth -/
theorem elementary_smooth (he : Elementary eq ok) (P : Fin p → ℝ) {q : WithTop ℕ∞} : ContDiff ℝ q fun z : ℝ × (Fin n → ℝ) => (eq ℝ P).fn z.1 z.2 := by
  obtain ⟨E, hE, -⟩ := he
  refine contDiff_pi.mpr fun k => ?_
  have e : (fun z : ℝ × (Fin n → ℝ) => (eq ℝ P).fn z.1 z.2 k) = fun z => (E k).eval P z.1 z.2 := funext fun z => hE ℝ _ z.1 z.2 k
  rw [e]
  exact RExp.contDiff_eval (E k)

open FP in
/-- **C133, total correctness in binary64.**  An explicit method of declared order `q` with fixed steps and no step limit, on an equation of the
kind above with double precision parameters, `U` being the exact solution for these parameters on `[a,b]`: there are `C` and `h₀ > 0` such that for all end points
`t0 < t1` in `[a+δ, b-δ]`, every step `dt ≤ h₀` that is at least `2^-51` times the larger end point and every initial value with error `e₀`, if
`X = C (dt^q + e₀ + 2^-53 / dt)` is at most 1, then the run returns with status 0, its last time is `t1` up to `2^-51 max(|t0|, |t1|)` and not before it, and
all recorded values are finite and within `X` of the solution. -/
theorem C133_explicit (he : Elementary eq ok) {P : Fin p → FP} (hPf : ∀ j, (P j).isFinite = true) (hok : ok fun j => ((P j).val : ℝ)) {m : ℤ} {q : ℕ}
    (hm : m ∈ erkImplemented) (hp : (erkCoeffs m : SolverCoeffs ℝ).order = some (q : ℤ)) {U : ℝ → Vec ℝ n} {a b δ : ℝ} (hδ : 0 < δ)
    (hU : ∀ t ∈ Icc a b, HasDerivWithinAt U ((eq ℝ fun j => ((P j).val : ℝ)).fn t (U t)) (Icc a b) t) :
    ∃ C h0 : ℝ, 0 < C ∧ 0 < h0 ∧
      ∀ (_ : Libm) (_ : ∀ x y, x ≠ negZero → lt x (fin 0) = false → lt (Libm.pow x y) (fin 0) = false) (nd : Bool) (o : ErkOpts FP) (oo : OutOpts)
        (t0 t1 : FP) (y0 : Vec FP n) (dt : FP) (e0 : ℝ), StreamOK oo → (o.adaptive = false ∨ (erkCoeffs m : SolverCoeffs FP).b2 = []) → o.maxSteps < 0 →
        t0.IsDouble → t1.IsDouble → dt.IsDouble → t0.isFinite = true → t1.isFinite = true → dt.isFinite = true → (∀ k, (y0 k).isFinite = true) →
        a + δ ≤ t0.val → t0.val < t1.val → (t1.val : ℝ) ≤ b - δ → (∀ k, |((y0 k).val : ℝ) - U t0.val k| ≤ e0) → 0 ≤ e0 →
        0 < dt.val → (dt.val : ℝ) ≤ h0 → max |t0.val| |t1.val| ≤ 2 ^ 51 * dt.val → max |t0.val| |t1.val| ≤ 2 ^ 1022 →
        ∀ X : ℝ, X = C * ((dt.val : ℝ) ^ q + e0 + 1 / 2 ^ 53 / dt.val) → X ≤ 1 →
        ∃ fuel out tl, erkOdeint nd (eq FP P).fn t0 t1 y0 o oo m dt fuel = some (.ret out) ∧ out.status = 0 ∧ out.tVals.getLast? = some tl ∧
          t1.val ≤ tl.val ∧ tl.val ≤ t1.val + 1 / 2 ^ 51 * max |t0.val| |t1.val| ∧ ((t1.val = 0 ∨ 2 * dt.val ≤ |t1.val|) → tl.val = t1.val) ∧
          ∀ (i : ℕ) (t : FP) (y : Vec FP n), out.tVals[i]? = some t → out.yVals[i]? = some y →
            t.isFinite = true ∧ ∀ k, (y k).isFinite = true ∧ |((y k).val : ℝ) - U t.val k| ≤ X := by
  obtain ⟨K, hK, hrhs⟩ := C133_rhs he hok (U := U) (a := a) (b := b) fun t ht => (hU t ht).continuousWithinAt
  obtain ⟨C, h0, hC, hh0, key⟩ := C91_convergence hm hp (elementary_smooth he _) hδ hU
  have hL : 0 ≤ |b - a| := abs_nonneg _
  refine ⟨C * (1 + K + 8 * |b - a| + 4) + K, min h0 1, by positivity, lt_min hh0 one_pos, ?_⟩
  intro _ hpow nd o oo t0 t1 y0 dt e0 hs had hms d0 d1 dd f0 f1 fd fy0 ha hlt hb hy0 he0 hpos hh hmin hmax X hX hX1
  have hdt : (0 : ℝ) < (dt.val : ℝ) := by exact_mod_cast hpos
  have hdt1 : (dt.val : ℝ) ≤ 1 := hh.trans (min_le_right _ _)
  have hdt1' : dt.val ≤ 1 := by exact_mod_cast hdt1
  obtain ⟨fuel, out, tl, c1, c2, c3, c4, c5, c6, c7, c8⟩ := C92_completes (nd := nd) (f := (eq FP P).fn) (y0 := y0) hm hs had hms d0 d1 dd f0 f1 fd hlt hpos hmin hmax
    (hdt1'.trans (one_le_pow₀ (by norm_num)))
  refine ⟨fuel, out, tl, c1, c2, c3, c5, c6, c7, ?_⟩
  obtain ⟨v, hv⟩ : ∃ v : ℝ, v = 1 / 2 ^ 53 / dt.val := ⟨_, rfl⟩
  have hv0 : 0 < v := by rw [hv]; positivity
  have huv : (1 : ℝ) / 2 ^ 53 ≤ v := by rw [hv]; exact le_div_self (by positivity) hdt hdt1
  have hpow0 : (0 : ℝ) ≤ (dt.val : ℝ) ^ q := by positivity
  rw [← hv] at hX
  have hCK : 0 ≤ C * (1 + K + 8 * |b - a| + 4) := by positivity
  -- the constants are small compared with the range of the numbers
  have hsmall : (C * (1 + K + 8 * |b - a| + 4) + K) * v ≤ 1 := by
    rw [hX] at hX1
    exact le_trans (mul_le_mul_of_nonneg_left (by linarith) (by linarith)) hX1
  have hbig : C * (1 + K + 8 * |b - a| + 4) + K ≤ 2 ^ 53 := by
    have h1 := (mul_le_mul_of_nonneg_left huv (by linarith : 0 ≤ C * (1 + K + 8 * |b - a| + 4) + K)).trans hsmall
    rw [mul_one_div, div_le_one (by positivity)] at h1
    exact h1
  have hCle : C ≤ C * (1 + K + 8 * |b - a| + 4) := le_mul_of_one_le_right hC.le (by linarith)
  have hK53 : K ≤ 2 ^ 53 := by linarith
  have hC53 : C ≤ 2 ^ 53 := by linarith
  have h53 : (2 : ℝ) ^ 53 ≤ 2 ^ 1023 := pow_le_pow_right₀ (by norm_num) (by norm_num)
  have hacc := hrhs FP (1 / 2 ^ 53) (2 ^ 1023) (fpArith hpow) P (by positivity)
    (le_trans (mul_le_mul (by linarith) huv (by positivity) (by linarith)) hsmall) (hK53.trans h53) hPf (fun j => rfl)
  -- the number of samples
  have hN : (out.tVals.length : ℝ) * (1 / 2 ^ 53) ≤ (8 * |b - a| + 4) * v := by
    have h1 : (out.tVals.length : ℝ) ≤ 8 * ((t1.val : ℝ) - t0.val) / dt.val + 4 := by
      have := (Rat.cast_le (K := ℝ)).2 c8
      push_cast at this
      exact this
    have h2 : 8 * ((t1.val : ℝ) - t0.val) / dt.val ≤ 8 * |b - a| / dt.val :=
      div_le_div_of_nonneg_right (by linarith [le_abs_self (b - a)]) hdt.le
    have h3 : (out.tVals.length : ℝ) * (1 / 2 ^ 53) ≤ (8 * |b - a| / dt.val + 4) * (1 / 2 ^ 53) :=
      mul_le_mul_of_nonneg_right (by linarith) (by positivity)
    have h4 : 8 * |b - a| / dt.val * (1 / 2 ^ 53) = 8 * |b - a| * v := by rw [hv]; ring
    nlinarith
  have hKu : K * (1 / 2 ^ 53) ≤ K * v := mul_le_mul_of_nonneg_left huv hK.le
  have hle : C * ((dt.val : ℝ) ^ q + K * (1 / 2 ^ 53) + e0 + out.tVals.length * (1 / 2 ^ 53)) ≤ X := by
    have h1 : (dt.val : ℝ) ^ q + K * (1 / 2 ^ 53) + e0 + out.tVals.length * (1 / 2 ^ 53) ≤
        (1 + K + 8 * |b - a| + 4) * ((dt.val : ℝ) ^ q + e0 + v) := by
      have g1 : 0 ≤ (K + 8 * |b - a| + 4) * ((dt.val : ℝ) ^ q + e0) := by positivity
      nlinarith
    have h2 := mul_le_mul_of_nonneg_left h1 hC.le
    have h3 : 0 ≤ K * ((dt.val : ℝ) ^ q + e0 + v) := by positivity
    rw [hX]
    nlinarith
  have hfin := key FP (1 / 2 ^ 53) (2 ^ 1023) (K * (1 / 2 ^ 53)) (fpArith hpow) (eq FP P).fn (by positivity) (by positivity) (hC53.trans h53) hacc nd o oo t0 t1 y0 dt
    fuel out dt.val e0 f0 f1 fy0 fd ha (by have := (Rat.cast_le (K := ℝ)).2 hlt.le; exact this) hb hy0 he0 hdt.le le_rfl (hh.trans (min_le_left _ _))
    (fun h1 h2 => by rcases had with h | h <;> [(rw [h] at h1; cases h1); exact absurd h h2]) c1 (hle.trans hX1)
  intro i t y ht hy
  obtain ⟨r1, r2⟩ := hfin i t y ht hy
  exact ⟨r1, fun k => ⟨(r2 k).1, (r2 k).2.trans hle⟩⟩

end

/-! ### concrete cases -/

/-- the Lorenz system with the classical parameters near the origin, in every arithmetic -/
example : ∃ K : ℝ, 0 < K ∧ ∀ (F : Type) [Add F] [Sub F] [Mul F] [Div F] [Neg F] [Scalar F] (u B : ℝ) (A : FloatArith F u B) (Q : Fin 3 → F),
    0 ≤ u → K * u ≤ 1 → K ≤ B → (∀ j, isFin (Q j) = true) → (∀ j, A.val (Q j) = (![10, 28, 8 / 3] : Fin 3 → ℝ) j) →
    RhsAccurate A (lorenz 10 28 (8 / 3)).fn (fun _ => 0) 0 1 (K * u) (lorenz (Q 0) (Q 1) (Q 2)).fn :=
  C133_rhs C133_equations.2.2.2.2.2.2.2.2 trivial continuousOn_const

/-- the matrix of the Van der Pol equation with the parameter 1/2 -/
example : ∃ K Jb : ℝ, 0 < K ∧ 0 ≤ Jb ∧ ∀ (F : Type) [Add F] [Sub F] [Mul F] [Div F] [Neg F] [Scalar F] (u B : ℝ) (A : FloatArith F u B) (Q : Fin 1 → F),
    0 ≤ u → K * u ≤ 1 → K ≤ B → (∀ j, isFin (Q j) = true) → (∀ j, A.val (Q j) = 1 / 2) → JacBounded A (fun _ => 0) 0 1 Jb (vdpol (Q 0)).jac := by
  obtain ⟨K, Jb, h1, h2, h3⟩ := C133_jac C133_equations.2.2.1 (P := fun _ => 1 / 2) (show (1 / 2 : ℝ) ≠ 0 by norm_num) (U := fun _ => 0) (a := 0) (b := 1)
    continuousOn_const
  exact ⟨K, Jb, h1, h2, fun F _ _ _ _ _ _ u B A Q q1 q2 q3 q4 q5 => (h3 F u B A Q q1 q2 q3 q4 q5).1⟩

open FP in
/-- Dormand-Prince with fixed steps for `y' = - y / 2` over `[0, 1]`: all hypotheses but those on the step are discharged -/
example : ∃ C h0 : ℝ, 0 < C ∧ 0 < h0 ∧ ∀ (_ : Libm) (_ : ∀ x y, x ≠ negZero → lt x (fin 0) = false → lt (Libm.pow x y) (fin 0) = false)
    (dt : FP), dt.IsDouble → dt.isFinite = true → 0 < dt.val → (dt.val : ℝ) ≤ h0 → 1 ≤ 2 ^ 51 * dt.val → C * ((dt.val : ℝ) ^ 5 + 0 + 1 / 2 ^ 53 / dt.val) ≤ 1 →
    ∃ fuel out tl, erkOdeint true (exponential (fin (-1 / 2))).fn (fin 0) (fin 1) (fun _ => fin 1) { (ErkOpts.dflt : ErkOpts FP) with adaptive := false }
      OutOpts.dflt 131 dt fuel = some (.ret out) ∧ out.status = 0 ∧ out.tVals.getLast? = some tl ∧ 1 ≤ tl.val ∧
      ∀ (i : ℕ) (t : FP) (y : Vec FP 1), out.tVals[i]? = some t → out.yVals[i]? = some y →
        |((y 0).val : ℝ) - Real.exp (-(t.val : ℝ) / 2)| ≤ C * ((dt.val : ℝ) ^ 5 + 0 + 1 / 2 ^ 53 / dt.val) := by
  obtain ⟨C, h0, hC, hh0, key⟩ := C133_explicit (P := fun _ => fin (-1 / 2)) (m := 131) (q := 5) (a := -1) (b := 2) (δ := 1) (U := fun t _ => Real.exp (-t / 2))
    C133_equations.1 (fun _ => rfl) trivial (by decide) rfl one_pos (by
      intro t _
      refine hasDerivWithinAt_pi.mpr fun k => ?_
      have h1 : HasDerivAt (fun t : ℝ => -t / 2) (-1 / 2) t := ((hasDerivAt_id t).neg).div_const 2
      refine (h1.exp.hasDerivWithinAt (s := Icc (-1) 2)).congr_deriv ?_
      show Real.exp (-t / 2) * (-1 / 2) = (((-1 / 2 : ℚ) : ℝ)) * Real.exp (-t / 2)
      push_cast; ring)
  refine ⟨C, h0, hC, hh0, ?_⟩
  intro _ hpow dt d1 d2 d3 d4 d5 d6
  have hm : max |(fin 0).val| |(fin 1).val| = 1 := by simp [val]
  obtain ⟨fuel, out, tl, r1, r2, r3, r4, -, -, r5⟩ := key _ hpow true { (ErkOpts.dflt : ErkOpts FP) with adaptive := false } OutOpts.dflt (fin 0) (fin 1) (fun _ => fin 1) dt 0
    (fun h => by revert h; decide) (.inl rfl) (by show (-1 : ℤ) < 0; decide) (by decide +kernel) (by decide +kernel) d1 rfl rfl d2 (fun _ => rfl) (by simp [val])
    (by simp [val]) (by norm_num [val]) (by simp [val]) le_rfl d3 d4 (by rw [hm]; exact d5) (by rw [hm]; exact one_le_pow₀ (by norm_num)) _ rfl d6
  exact ⟨fuel, out, tl, r1, r2, r3, r4, fun i t y ht hy => ((r5 i t y ht hy).2 0).2⟩

end Verif
