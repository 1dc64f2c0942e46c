import Verif.ErkFloat
import Verif.TestEq
import Mathlib.Analysis.Calculus.ContDiff.Operations

/-!
# Right-hand sides written with `+ - *` and division by a parameter

The test equations of test_equations.hpp other than `three_body` are of this kind.  `RExp` records how such a right-hand side is written,
so that its rounding error can be followed through the operations.
-/

set_option autoImplicit false

namespace Verif
open Spec Set

/-- an expression in the unknowns, the time and parameters, as written in the source -/
inductive RExp (n p : ℕ) where
  | var (i : Fin n)
  | time
  | par (j : Fin p)
  | num (q : ℚ)
  | neg (e : RExp n p)
  | add (a b : RExp n p)
  | sub (a b : RExp n p)
  | mul (a b : RExp n p)
  | over (e : RExp n p) (j : Fin p)

namespace RExp
variable {n p : ℕ}

/-- the value in an arithmetic, operation by operation -/
def eval {F : Type} [Add F] [Sub F] [Mul F] [Div F] [Neg F] [Scalar F] (P : Fin p → F) (t : F) (y : Vec F n) : RExp n p → F
  | var i => y i
  | time => t
  | par j => P j
  | num q => lit q
  | neg e => - e.eval P t y
  | add a b => a.eval P t y + b.eval P t y
  | sub a b => a.eval P t y - b.eval P t y
  | mul a b => a.eval P t y * b.eval P t y
  | over e j => e.eval P t y / P j

/-- no parameter that is zero is divided by -/
def Ok (P : Fin p → ℝ) : RExp n p → Prop
  | var _ => True
  | time => True
  | par _ => True
  | num _ => True
  | neg e => e.Ok P
  | add a b => a.Ok P ∧ b.Ok P
  | sub a b => a.Ok P ∧ b.Ok P
  | mul a b => a.Ok P ∧ b.Ok P
  | over e j => e.Ok P ∧ P j ≠ 0

/-- a bound of the exact value if time and unknowns are at most `R` -/
noncomputable def bnd (P : Fin p → ℝ) (R : ℝ) : RExp n p → ℝ
  | var _ => R
  | time => R
  | par j => 1 + |P j|
  | num q => 1 + |(q : ℝ)|
  | neg e => e.bnd P R
  | add a b => a.bnd P R + b.bnd P R
  | sub a b => a.bnd P R + b.bnd P R
  | mul a b => a.bnd P R * b.bnd P R
  | over e j => 1 + e.bnd P R / |P j|

/-- the number of units of rounding by which the computed value can be wrong -/
noncomputable def units (P : Fin p → ℝ) (R : ℝ) : RExp n p → ℝ
  | var _ => 0
  | time => 0
  | par _ => 0
  | num q => 1 + |(q : ℝ)|
  | neg e => e.units P R
  | add a b => a.units P R + b.units P R + 1 * big (a.bnd P R + b.bnd P R)
  | sub a b => a.units P R + b.units P R + 1 * big (a.bnd P R + b.bnd P R)
  | mul a b => a.units P R * big (a.bnd P R + b.bnd P R) + a.bnd P R * b.units P R + 1 * big (a.bnd P R + b.bnd P R)
  | over e j => e.units P R + e.units P R / |P j| + (1 + (e.bnd P R + 1) / |P j|)

variable {P : Fin p → ℝ} {R : ℝ}

theorem one_le_bnd (hR : 1 ≤ R) (e : RExp n p) : 1 ≤ e.bnd P R := by
  induction e with
  | var i => exact hR
  | time => exact hR
  | par j => simp only [bnd]; linarith [abs_nonneg (P j)]
  | num q => simp only [bnd]; linarith [abs_nonneg (q : ℝ)]
  | neg e ih => exact ih
  | add a b iha ihb => simp only [bnd]; linarith
  | sub a b iha ihb => simp only [bnd]; linarith
  | mul a b iha ihb => simp only [bnd]; nlinarith
  | over e j ih =>
    simp only [bnd]
    have : 0 ≤ e.bnd P R / |P j| := div_nonneg (by linarith) (abs_nonneg _)
    linarith

theorem units_nonneg (hR : 1 ≤ R) (e : RExp n p) : 0 ≤ e.units P R := by
  have hb : ∀ a b : RExp n p, 1 ≤ big (a.bnd P R + b.bnd P R) := fun a b =>
    (big_facts (by linarith [one_le_bnd (P := P) hR a, one_le_bnd (P := P) hR b])).1
  induction e with
  | var i => exact le_rfl
  | time => exact le_rfl
  | par j => exact le_rfl
  | num q => simp only [units]; positivity
  | neg e ih => exact ih
  | add a b iha ihb => simp only [units]; linarith [hb a b]
  | sub a b iha ihb => simp only [units]; linarith [hb a b]
  | mul a b iha ihb =>
    simp only [units]
    have h1 : 0 ≤ a.units P R * big (a.bnd P R + b.bnd P R) := mul_nonneg iha (by linarith [hb a b])
    have h2 : 0 ≤ a.bnd P R * b.units P R := mul_nonneg (by linarith [one_le_bnd (P := P) hR a]) ihb
    linarith [hb a b]
  | over e j ih =>
    simp only [units]
    have h1 : 0 ≤ e.units P R / |P j| := div_nonneg ih (abs_nonneg _)
    have h2 : 0 ≤ (e.bnd P R + 1) / |P j| := div_nonneg (by linarith [one_le_bnd (P := P) hR e]) (abs_nonneg _)
    linarith

theorem abs_eval_le {t : ℝ} {y : Vec ℝ n} (hR : 1 ≤ R) (ht : |t| ≤ R) (hy : ∀ i, |y i| ≤ R) (e : RExp n p) : |e.eval P t y| ≤ e.bnd P R := by
  induction e with
  | var i => exact hy i
  | time => exact ht
  | par j => simp only [eval, bnd]; linarith
  | num q => simp only [eval, bnd, lit_real]; linarith
  | neg e ih => simpa only [eval, bnd, abs_neg] using ih
  | add a b iha ihb => exact (abs_add_le _ _).trans (add_le_add iha ihb)
  | sub a b iha ihb => exact (abs_sub _ _).trans (add_le_add iha ihb)
  | mul a b iha ihb =>
    simp only [eval, bnd, abs_mul]
    exact mul_le_mul iha ihb (abs_nonneg _) (by linarith [one_le_bnd (P := P) hR a])
  | over e j ih =>
    simp only [eval, bnd, abs_div]
    have := div_le_div_of_nonneg_right ih (abs_nonneg (P j))
    linarith

/-- **the rounding error of an expression** -/
theorem near_eval {F : Type} [Add F] [Sub F] [Mul F] [Div F] [Neg F] [Scalar F] {u B : ℝ} {A : FloatArith F u B} (hu : 0 ≤ u) {Q : Fin p → F}
    (hQf : ∀ j, isFin (Q j) = true) (hQ : ∀ j, A.val (Q j) = P j) {t : F} {y : Vec F n} (hR : 1 ≤ R) (htf : isFin t = true) (hyf : ∀ i, isFin (y i) = true)
    (ht : |A.val t| ≤ R) (hy : ∀ i, |A.val (y i)| ≤ R) (e : RExp n p) (hok : e.Ok P) (h1 : e.units P R * u ≤ 1) (h2 : e.units P R ≤ B) :
    Near A (e.eval Q t y) (e.eval P (A.val t) (A.vec y)) (e.units P R * u) := by
  have hbn := fun e : RExp n p => one_le_bnd (P := P) hR e
  have hun := fun e : RExp n p => units_nonneg (P := P) hR e
  have hev := fun e : RExp n p => abs_eval_le (P := P) (t := A.val t) (y := A.vec y) hR ht hy e
  have hb : ∀ a b : RExp n p, 1 ≤ big (a.bnd P R + b.bnd P R) := fun a b => (big_facts (by linarith [hbn a, hbn b])).1
  induction e with
  | var i => exact ⟨hyf i, by simp [eval, units, FloatArith.vec]⟩
  | time => exact ⟨htf, by simp [eval, units]⟩
  | par j => exact ⟨hQf j, by simp [eval, units, hQ]⟩
  | num q =>
    simp only [units] at h1 h2 ⊢
    have := A.lit q (by linarith)
    exact ⟨this.1, by simp only [eval, lit_real]; linarith [this.2, mul_comm u (1 + |(q : ℝ)|)]⟩
  | neg e ih =>
    obtain ⟨q1, q2⟩ := ih hok h1 h2
    obtain ⟨r1, r2⟩ := A.neg _ q1
    refine ⟨r1, ?_⟩
    simp only [eval]
    rw [r2, ← neg_sub', abs_neg]
    exact q2
  | add a b iha ihb =>
    simp only [units] at h1 h2 ⊢
    have w := hb a b
    have ha : a.units P R * u ≤ 1 := by nlinarith [hun b]
    have hb' : b.units P R * u ≤ 1 := by nlinarith [hun a]
    have qa := iha hok.1 ha (by linarith [hun b])
    have qb := ihb hok.2 hb' (by linarith [hun a])
    refine (near_add (G := a.bnd P R + b.bnd P R) (by linarith [hbn a, hbn b]) (by linarith [hun a, hun b]) hu qa qb
      (by linarith [hev a, hbn b]) (by linarith [hev b, hbn a]) ha hb').mono (le_of_eq (by ring))
  | sub a b iha ihb =>
    simp only [units] at h1 h2 ⊢
    have w := hb a b
    have ha : a.units P R * u ≤ 1 := by nlinarith [hun b]
    have hb' : b.units P R * u ≤ 1 := by nlinarith [hun a]
    have qa := iha hok.1 ha (by linarith [hun b])
    have qb := ihb hok.2 hb' (by linarith [hun a])
    refine (near_sub (G := a.bnd P R + b.bnd P R) (by linarith [hbn a, hbn b]) (by linarith [hun a, hun b]) hu qa qb
      (by linarith [hev a, hbn b]) (by linarith [hev b, hbn a]) ha hb').mono (le_of_eq (by ring))
  | mul a b iha ihb =>
    simp only [units] at h1 h2 ⊢
    have w := hb a b
    have e1 : a.units P R ≤ a.units P R * big (a.bnd P R + b.bnd P R) := le_mul_of_one_le_right (hun a) w
    have e2 : b.units P R ≤ a.bnd P R * b.units P R := le_mul_of_one_le_left (hun b) (hbn a)
    have ha : a.units P R * u ≤ 1 := le_trans (mul_le_mul_of_nonneg_right (by linarith [hun b]) hu) h1
    have hb' : b.units P R * u ≤ 1 := le_trans (mul_le_mul_of_nonneg_right (by linarith [hun a]) hu) h1
    have qa := iha hok.1 ha (by linarith [hun b])
    have qb := ihb hok.2 hb' (by linarith [hun a])
    refine (near_mul (G := a.bnd P R + b.bnd P R) (by linarith [hbn a, hbn b]) (by linarith [hun a, hun b]) hu qa qb
      (by linarith [hev a, hbn b]) (by linarith [hev b, hbn a]) (mul_nonneg (hun a) hu) ha hb').mono ?_
    have := mul_le_mul_of_nonneg_right (hev a) (mul_nonneg (hun b) hu)
    nlinarith
  | over e j ih =>
    simp only [units] at h1 h2 ⊢
    obtain ⟨hok, hj⟩ := hok
    have hj' : 0 < |P j| := abs_pos.mpr hj
    have k1 : 0 ≤ e.units P R / |P j| := div_nonneg (hun e) hj'.le
    have k2 : 0 ≤ (e.bnd P R + 1) / |P j| := div_nonneg (by linarith [hbn e]) hj'.le
    have he : e.units P R * u ≤ 1 := le_trans (mul_le_mul_of_nonneg_right (by linarith) hu) h1
    have qe := ih hok he (by linarith)
    have hx : |A.val (e.eval Q t y)| ≤ e.bnd P R + 1 := qe.abs_le.trans (by linarith [hev e])
    have hx' : |A.val (e.eval Q t y) / P j| ≤ (e.bnd P R + 1) / |P j| := by
      rw [abs_div]; exact div_le_div_of_nonneg_right hx hj'.le
    obtain ⟨r1, r2⟩ := A.div _ (Q j) qe.1 (hQf j) (by rw [hQ]; exact hj) (by rw [hQ]; linarith [hun e])
    rw [hQ] at r2
    refine ⟨r1, ?_⟩
    simp only [eval]
    have s1 : A.val (e.eval Q t y / Q j) - e.eval P (A.val t) (A.vec y) / P j =
        (A.val (e.eval Q t y / Q j) - A.val (e.eval Q t y) / P j) + (A.val (e.eval Q t y) - e.eval P (A.val t) (A.vec y)) / P j := by ring
    rw [s1]
    refine (abs_add_le _ _).trans ?_
    have s2 : |(A.val (e.eval Q t y) - e.eval P (A.val t) (A.vec y)) / P j| ≤ e.units P R * u / |P j| := by
      rw [abs_div]; exact div_le_div_of_nonneg_right qe.2 hj'.le
    have s3 := mul_le_mul_of_nonneg_left (add_le_add_right hx' 1) hu
    have s4 : e.units P R * u / |P j| = e.units P R / |P j| * u := by ring
    nlinarith [mul_nonneg (hun e) hu]

/-- the exact value is a smooth function of time and unknowns -/
theorem contDiff_eval {k : WithTop ℕ∞} (e : RExp n p) : ContDiff ℝ k fun q : ℝ × (Fin n → ℝ) => e.eval P q.1 q.2 := by
  induction e with
  | var i => exact (contDiff_apply ℝ ℝ i).comp contDiff_snd
  | time => exact contDiff_fst
  | par j => exact contDiff_const
  | num q => exact contDiff_const
  | neg e ih => exact ih.neg
  | add a b iha ihb => exact iha.add ihb
  | sub a b iha ihb => exact iha.sub ihb
  | mul a b iha ihb => exact iha.mul ihb
  | over e j ih => exact ih.div_const _

end RExp
end Verif
