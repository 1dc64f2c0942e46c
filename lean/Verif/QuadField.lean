import Verif.Core
import Mathlib.Tactic.Ring
import Mathlib.Tactic.LinearCombination
import Mathlib.Data.Rat.Cast.CharZero
import Mathlib.Analysis.Real.Sqrt

/-!
# Numbers `a + b√d` with rational `a`, `b`: decidable arithmetic for the closed-form tableaux

Used only to evaluate conditions on the shipped coefficients; the results are transferred to `ℝ` by `QS.ev`.
-/

set_option linter.unusedSectionVars false

namespace Verif

/-- `re + im·√d` -/
@[ext] structure QS (d : ℕ) where
  re : ℚ
  im : ℚ
  deriving DecidableEq

namespace QS
variable {d : ℕ}

instance : Zero (QS d) := ⟨⟨0, 0⟩⟩
instance : One (QS d) := ⟨⟨1, 0⟩⟩
instance : Add (QS d) := ⟨fun x y => ⟨x.re + y.re, x.im + y.im⟩⟩
instance : Neg (QS d) := ⟨fun x => ⟨-x.re, -x.im⟩⟩
instance : Sub (QS d) := ⟨fun x y => ⟨x.re - y.re, x.im - y.im⟩⟩
instance : Mul (QS d) := ⟨fun x y => ⟨x.re * y.re + d * (x.im * y.im), x.re * y.im + x.im * y.re⟩⟩
/-- multiplication with the conjugate, divided by the norm -/
def inv (x : QS d) : QS d :=
  let nrm := x.re * x.re - d * (x.im * x.im)
  ⟨x.re / nrm, -x.im / nrm⟩
instance : Div (QS d) := ⟨fun x y => x * inv y⟩

@[simp] theorem zero_re : (0 : QS d).re = 0 := rfl
@[simp] theorem zero_im : (0 : QS d).im = 0 := rfl
@[simp] theorem one_re : (1 : QS d).re = 1 := rfl
@[simp] theorem one_im : (1 : QS d).im = 0 := rfl
@[simp] theorem add_re (x y : QS d) : (x + y).re = x.re + y.re := rfl
@[simp] theorem add_im (x y : QS d) : (x + y).im = x.im + y.im := rfl
@[simp] theorem sub_re (x y : QS d) : (x - y).re = x.re - y.re := rfl
@[simp] theorem sub_im (x y : QS d) : (x - y).im = x.im - y.im := rfl
@[simp] theorem neg_re (x : QS d) : (-x).re = -x.re := rfl
@[simp] theorem neg_im (x : QS d) : (-x).im = -x.im := rfl
@[simp] theorem mul_re (x y : QS d) : (x * y).re = x.re * y.re + d * (x.im * y.im) := rfl
@[simp] theorem mul_im (x y : QS d) : (x * y).im = x.re * y.im + x.im * y.re := rfl

instance : CommRing (QS d) where
  add_assoc _ _ _ := by ext <;> simp [add_assoc]
  zero_add _ := by ext <;> simp
  add_zero _ := by ext <;> simp
  nsmul := nsmulRec
  add_comm _ _ := by ext <;> simp [add_comm]
  left_distrib _ _ _ := by ext <;> simp <;> ring
  right_distrib _ _ _ := by ext <;> simp <;> ring
  zero_mul _ := by ext <;> simp
  mul_zero _ := by ext <;> simp
  mul_assoc _ _ _ := by ext <;> simp <;> ring
  one_mul _ := by ext <;> simp
  mul_one _ := by ext <;> simp
  natCast k := ⟨k, 0⟩
  natCast_zero := by ext <;> simp
  natCast_succ k := by ext <;> simp
  zsmul := zsmulRec
  neg_add_cancel _ := by ext <;> simp
  sub_eq_add_neg _ _ := by ext <;> simp [sub_eq_add_neg]
  mul_comm _ _ := by ext <;> simp <;> ring
  intCast k := ⟨k, 0⟩
  intCast_ofNat k := by ext <;> simp <;> rfl
  intCast_negSucc k := by
    ext
    · show ((Int.negSucc k : ℤ) : ℚ) = -((k + 1 : ℕ) : ℚ)
      rw [Int.cast_negSucc]
    · show (0 : ℚ) = -0
      simp

/-- Literals and the one square root that occurs; comparisons are not used by the tableaux and are dummies. -/
instance : Scalar (QS d) where
  lit q := ⟨q, 0⟩
  ltb _ _ := false
  leb _ _ := false
  eqb x y := decide (x = y)
  sabs x := x
  ssqrt x := if x = ⟨d, 0⟩ then ⟨0, 1⟩ else 0
  spow x _ := x
  isFin _ := true

/-- the real number -/
noncomputable def ev : QS d →+* ℝ where
  toFun x := x.re + x.im * Real.sqrt d
  map_zero' := by simp
  map_one' := by simp
  map_add' _ _ := by simp; ring
  map_mul' x y := by
    have h : Real.sqrt d * Real.sqrt d = d := Real.mul_self_sqrt (Nat.cast_nonneg d)
    simp only [mul_re, mul_im]
    push_cast
    linear_combination (-(x.im : ℝ) * y.im) * h

theorem ev_lit (q : ℚ) : ev (lit q : QS d) = lit q := by
  show ((q : ℚ) : ℝ) + ((0 : ℚ) : ℝ) * _ = (q : ℝ)
  simp

theorem ev_sqrt : ev (ssqrt (lit (d : ℚ)) : QS d) = ssqrt (lit (d : ℚ)) := by
  have : (ssqrt (lit (d : ℚ)) : QS d) = ⟨0, 1⟩ := by
    show (if (⟨d, 0⟩ : QS d) = ⟨d, 0⟩ then _ else _) = _
    simp
  rw [this]
  show ((0 : ℚ) : ℝ) + ((1 : ℚ) : ℝ) * Real.sqrt d = Real.sqrt ((d : ℚ) : ℝ)
  simp

theorem ev_div_lit (x : QS d) (q : ℚ) : ev (x / lit q) = ev x / lit q := by
  have : x / (lit q : QS d) = x * lit (q / (q * q)) := by
    show x * inv ⟨q, 0⟩ = _
    congr 1
    ext
    · simp [inv]; rfl
    · simp [inv]; rfl
  rw [this, map_mul, ev_lit]
  simp only [lit_real]
  by_cases hq : q = 0
  · simp [hq]
  · have : (q : ℝ) ≠ 0 := by exact_mod_cast hq
    push_cast
    field_simp

end QS
end Verif
