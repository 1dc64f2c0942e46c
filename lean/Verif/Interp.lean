import Verif.Coeffs

/-!
# Model of irk.cpp: coefficient lists, factorials, collocation interpolation, dense-output weights
-/

namespace Verif

/-- `coeff_list` (irk.cpp 24, irk.hpp 299): a sum of products of symbols -/
abbrev CoeffList := List (List ℤ)

/-- `expand` (irk.cpp 26-52): for every term of `c1` and every term of `c2` the concatenation -/
def expand (c1 c2 : CoeffList) : CoeffList :=
  c1.foldl (fun c3 a => c2.foldl (fun c3 b => c3 ++ [a ++ b]) c3) []

/-- the range of `int` (32 bit; irk.cpp 77-95) -/
def intMax : ℤ := 2 ^ 31 - 1

/-- result of an `int` computation (irk.cpp 77-95): signed overflow is undefined -/
def chkInt (x : ℤ) : Outcome ℤ := if -(2 ^ 31) ≤ x ∧ x ≤ intMax then .ret x else .ub

/-- the loop `for (i = 1; i <= n; ++i) res *= i` (irk.cpp 82-84), the first `k` passes -/
def factLoop : ℕ → Outcome ℤ
  | 0 => .ret 1
  | k + 1 => (factLoop k).bind fun r => chkInt (r * (k + 1))

/-- `factorial` (irk.cpp 77-87) -/
def factorialC (n : ℤ) : Outcome ℤ := if n ≤ 1 then .ret 1 else factLoop n.toNat

/-- `binom_coeff` (irk.cpp 92-95); `int` division truncates -/
def binomCoeff (n b : ℤ) : Outcome ℤ :=
  (factorialC n).bind fun fn => (factorialC b).bind fun fb => (chkInt (n - b)).bind fun nb =>
    (factorialC nb).bind fun fnb => (chkInt (fb * fnb)).bind fun den => .ret (Int.tdiv fn den)

section model
variable {F : Type} [Add F] [Sub F] [Mul F] [Div F] [Neg F] [Lit F]

/-- `d(i)`, the product of `c(i)-c(j)` over `j != i` (irk.cpp 143-152) -/
def lagrDenom (c : List F) (i : ℕ) : F :=
  (List.range c.length).foldl
    (fun acc j => if j = i then acc else acc * (c.getD i (lit 0) - c.getD j (lit 0))) (lit 1)

/-- `poly_coefficients[i]` (irk.cpp 154-170): `-1` codes for `x`, `j >= 0` for `c(j)` -/
def polyCoeffs (Ns i : ℕ) : CoeffList :=
  (List.range Ns).foldl (fun ci j => if i = j then ci
    else if ci.length = 0 then [[-1], [(j : ℤ)]] else expand ci [[-1], [(j : ℤ)]]) []

/-- `order` of a term: the number of `-1` (irk.cpp 182-186) -/
def termOrder (cf : List ℤ) : ℕ := cf.foldl (fun o j => if j = -1 then o + 1 else o) 0

/-- `coeff` of a term (irk.cpp 191-197) -/
def termCoeff (c : List F) (d : F) (cf : List ℤ) : F :=
  cf.foldl (fun co j => if j ≠ -1 then co * (- c.getD j.toNat (lit 0)) else co)
    (lit 1 / d / (lit 1 + lit (termOrder cf : ℚ)))

/-- one pass of the loop over the terms (irk.cpp 181-206); the row is indexed by column -/
def collocStep (nd : Bool) (c : List F) (d : F) (row : Outcome (ℕ → F)) (cf : List ℤ) : Outcome (ℕ → F) :=
  row.bind fun row =>
    let idx : ℤ := (c.length : ℤ) - termOrder cf - 1
    if 0 ≤ idx ∧ idx < c.length then
      .ret (Function.update row idx.toNat (row idx.toNat + termCoeff c d cf))
    -- outside: the assertions of lines 199-201, without them Armadillo's bounds check
    else if nd then .throws else .assertFail

/-- row `i` of `b_interp` (irk.cpp 180-207) -/
def collocRow (nd : Bool) (c : List F) (i : ℕ) : Outcome (ℕ → F) :=
  (polyCoeffs c.length i).foldl (collocStep nd c (lagrDenom c i)) (.ret fun _ => lit 0)

/-- rows `0 .. m-1` (irk.cpp 180-207) -/
def collocRows (nd : Bool) (c : List F) : ℕ → Outcome (List (List F))
  | 0 => .ret []
  | m + 1 => (collocRows nd c m).bind fun rows => (collocRow nd c m).bind fun r =>
      .ret (rows ++ [(List.range c.length).map r])

/-- `collocation_interpolate_coeffs` (irk.cpp 111-210) -/
def collocInterp (nd : Bool) (c : List F) : Outcome (List (List F)) := collocRows nd c c.length

/-- the matrix as stored in `sc.b_interp` (irk.cpp 215-689).  The assertions never fail and the index is always in range
(`collocInterp_ret` in Verif/InterpLemmas.lean), so the last case does not occur. -/
def collocMat (c : List F) : List (List F) :=
  match collocInterp false c with
  | .ret B => B
  | _ => []

/-- `theta^(i+1)` as accumulated by `tt *= theta` (irk.cpp 738-743) -/
def tpow (theta : F) : ℕ → F
  | 0 => theta
  | i + 1 => tpow theta i * theta

/-- `project_b` (irk.cpp 731-747).  `b_interp.size() > 0` is asserted; the product with a matrix of the wrong width
throws. -/
def projectB (nd : Bool) (theta : F) (sc : SolverCoeffs F) : Outcome (List F) :=
  if !nd && (sc.bInterp.length == 0 || (sc.bInterp.headD []).length == 0) then .assertFail
  else if (sc.bInterp.headD []).length ≠ sc.ns then .throws
  else .ret (sc.bInterp.map fun row =>
    sumRange sc.ns fun j => row.getD j (lit 0) * tpow theta (sc.ns - 1 - j))

end model
end Verif
