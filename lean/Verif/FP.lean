import Verif.Core
import Mathlib.Data.Nat.Sqrt
import Mathlib.Data.Nat.Log
import Mathlib.Data.Rat.Floor
import Mathlib.Algebra.Order.Floor.Ring

/-!
# IEEE 754 binary64 arithmetic, round to nearest even

The library computes in `double`.  This file defines the values and operations as computable functions on exact
rationals, following IEEE 754-2019: an operation is the exact result, rounded.  `std::pow` is not specified by
IEEE and is a parameter (`Libm`).  NaN payloads and the sign of NaN are not modelled.
-/

namespace Verif

/-- binary64 values.  `fin q` with `q = 0` is `+0`.  That `q` is representable is the predicate `FP.IsDouble`; all
operations produce representable values. -/
inductive FP where
  | nan
  | inf (neg : Bool)
  | negZero
  | fin (q : ℚ)
  deriving DecidableEq

namespace FP

/-- `⌊log₂ q⌋` for `q > 0` -/
def ilog (q : ℚ) : ℤ :=
  let e : ℤ := (Nat.log2 q.num.natAbs : ℤ) - (Nat.log2 q.den : ℤ)
  if (2 : ℚ) ^ e ≤ q then e else e - 1

/-- round to the nearest integer, ties to even -/
def rhe (r : ℚ) : ℤ :=
  let f := ⌊r⌋
  if r - f < 1 / 2 then f
  else if 1 / 2 < r - f then f + 1
  else if f % 2 = 0 then f else f + 1

/-- exponent of the last place of a 53-bit significand of size `|q|`, not below the subnormal exponent -/
def ulpExp (q : ℚ) : ℤ := max (ilog |q| - 52) (-1074)

/-- rounding with unbounded upper exponent -/
def rnQ (q : ℚ) : ℚ := if q = 0 then 0 else rhe (q / 2 ^ ulpExp q) * 2 ^ ulpExp q

/-- a zero with the given sign -/
def zeroS (neg : Bool) : FP := if neg then negZero else fin 0

/-- rounding of an exact result `q`; `neg` is the sign of an exact zero -/
def rnd (neg : Bool) (q : ℚ) : FP :=
  if q = 0 then zeroS neg
  else
    let r := rnQ q
    if r = 0 then zeroS (decide (q < 0))
    else if (2 : ℚ) ^ (1024 : ℤ) ≤ |r| then inf (decide (q < 0))
    else fin r

/-- numeric value of a finite double -/
def val : FP → ℚ
  | fin q => q
  | _ => 0

/-- sign bit -/
def isNeg : FP → Bool
  | inf b => b
  | negZero => true
  | fin q => decide (q < 0)
  | nan => false

def isFinite : FP → Bool
  | fin _ => true
  | negZero => true
  | _ => false

def neg : FP → FP
  | nan => nan
  | inf b => inf (!b)
  | negZero => fin 0
  | fin q => if q = 0 then negZero else fin (-q)

def abs : FP → FP
  | nan => nan
  | inf _ => inf false
  | negZero => fin 0
  | fin q => fin |q|

def add : FP → FP → FP
  | nan, _ => nan
  | _, nan => nan
  | inf a, inf b => if a = b then inf a else nan
  | inf a, _ => inf a
  | _, inf b => inf b
  | negZero, negZero => negZero
  | x, y => rnd false (x.val + y.val)

def sub (x y : FP) : FP := add x y.neg

def mul : FP → FP → FP
  | nan, _ => nan
  | _, nan => nan
  | inf a, inf b => inf (xor a b)
  | inf a, y => if y.val = 0 then nan else inf (xor a y.isNeg)
  | x, inf b => if x.val = 0 then nan else inf (xor x.isNeg b)
  | x, y => rnd (xor x.isNeg y.isNeg) (x.val * y.val)

def div : FP → FP → FP
  | nan, _ => nan
  | _, nan => nan
  | inf _, inf _ => nan
  | inf a, y => inf (xor a y.isNeg)
  | x, inf b => zeroS (xor x.isNeg b)
  | x, y =>
    if y.val = 0 then if x.val = 0 then nan else inf (xor x.isNeg y.isNeg)
    else rnd (xor x.isNeg y.isNeg) (x.val / y.val)

/-- square root of `q > 0`, rounded: the integer square root of `q 4^k` with at least 61 bits and a sticky bit
for inexactness determine the rounding -/
def sqrtQ (q : ℚ) : FP :=
  let k : ℤ := 60 - (ilog q) / 2
  let z : ℚ := q * 4 ^ k
  let s : ℕ := Nat.sqrt ⌊z⌋.toNat
  let sticky : ℚ := if (s : ℚ) * s = z then 0 else 1
  rnd false ((2 * s + sticky) / 2 ^ (k + 1))

def sqrt : FP → FP
  | nan => nan
  | inf b => if b then nan else inf false
  | negZero => negZero
  | fin q => if q = 0 then fin 0 else if q < 0 then nan else sqrtQ q

/-- `x < y` -/
def lt : FP → FP → Bool
  | nan, _ => false
  | _, nan => false
  | inf a, inf b => a && !b
  | inf a, _ => a
  | _, inf b => !b
  | x, y => decide (x.val < y.val)

/-- `x == y` -/
def eq : FP → FP → Bool
  | nan, _ => false
  | _, nan => false
  | inf a, inf b => a == b
  | inf _, _ => false
  | _, inf _ => false
  | x, y => decide (x.val = y.val)

/-- `x <= y` -/
def le (x y : FP) : Bool := lt x y || eq x y

instance : Add FP := ⟨add⟩
instance : Sub FP := ⟨sub⟩
instance : Mul FP := ⟨mul⟩
instance : Div FP := ⟨div⟩
instance : Neg FP := ⟨neg⟩

/-- the C library's `std::pow`, of which IEEE 754 does not fix the rounding -/
class Libm where
  pow : FP → FP → FP

/-- the `double` operations -/
instance [Libm] : Scalar FP where
  lit q := rnd false q
  ltb := lt
  leb := le
  eqb := eq
  sabs := abs
  ssqrt := sqrt
  spow := Libm.pow
  isFin := isFinite

/-- representable: a rational that rounds to itself and is below the overflow threshold -/
def IsDouble : FP → Prop
  | fin q => rnQ q = q ∧ |q| < 2 ^ (1024 : ℤ)
  | _ => True

instance (x : FP) : Decidable x.IsDouble := by
  cases x <;> unfold IsDouble <;> infer_instance

end FP
end Verif
