import Verif.Core
import Mathlib.LinearAlgebra.Matrix.NonsingularInverse

/-!
# The Armadillo operations used by newton.hpp and irk.hpp
-/

namespace Verif

/-- a square matrix (`mat_type`, erk.hpp 57) -/
abbrev Mat (F : Type) (n : ℕ) := Fin n → Fin n → F

section ops
variable {F : Type} [Add F] [Sub F] [Mul F] [Div F] [Neg F] [Scalar F] {n : ℕ}

/-- sum in index order, starting from `0.0`; the order in which Armadillo sums is not fixed (products at erk.hpp 357 and 364,
irk.hpp 384 and 695-699) -/
def sumFin (n : ℕ) (g : Fin n → F) : F := (List.finRange n).foldl (fun acc j => acc + g j) (lit 0)

/-- `arma::dot` (newton.hpp 274, irk.hpp 446) -/
def dot (u v : Vec F n) : F := sumFin n (fun i => u i * v i)

/-- matrix times vector (newton.hpp 309) -/
def mulVec (M : Mat F n) (v : Vec F n) : Vec F n := fun i => sumFin n (fun j => M i j * v j)

/-- matrix times matrix (newton.hpp 439) -/
def matMul (M N : Mat F n) : Mat F n := fun i k => sumFin n (fun j => M i j * N j k)

/-- transposed vector times matrix, `v.t()*M` (newton.hpp 325) -/
def vecMul (v : Vec F n) (M : Mat F n) : Vec F n := fun j => sumFin n (fun i => v i * M i j)

/-- `arma::norm(v, "inf")` (newton.hpp 317, 491) -/
def normInf (v : Vec F n) : F := (List.finRange n).foldl (fun acc i => cmax acc (sabs (v i))) (lit 0)

/-- `arma::eye` (irk.hpp 426) -/
def eye (n : ℕ) : Mat F n := fun i j => if i = j then lit 1 else lit 0

/-- zero matrix (newton.hpp 379): `arma::mat M(n,n)` zero-fills since Armadillo 10.5 -/
def zeroMat (n : ℕ) : Mat F n := fun _ _ => lit 0

end ops

/-- Armadillo's factorisations (calls at irk.hpp 432, 461-464, 599, 718, 730 and newton.hpp 392, 439-455), parameters of the model.  `none`: the call throws (`solve`, `inv`,
`solve(trimatl(..))`, `solve(trimatu(..))`) or returns `false` (`lu`). -/
structure LinAlg (F : Type) where
  /-- `arma::solve(M, v)` -/
  solve : ∀ {n : ℕ}, Mat F n → Vec F n → Option (Vec F n)
  /-- `arma::inv(M)` -/
  inv : ∀ {n : ℕ}, Mat F n → Option (Mat F n)
  /-- `arma::lu(L, U, P, M)`, giving `(L, U, P)` with `P.t()*L*U = M` -/
  lu : ∀ {n : ℕ}, Mat F n → Option (Mat F n × Mat F n × Mat F n)
  /-- `arma::solve(arma::trimatl(L), v)` -/
  solveL : ∀ {n : ℕ}, Mat F n → Vec F n → Option (Vec F n)
  /-- `arma::solve(arma::trimatu(U), v)` -/
  solveU : ∀ {n : ℕ}, Mat F n → Vec F n → Option (Vec F n)

/-- What exact linear algebra means: invertible systems are solved exactly, singular matrices have no inverse, and
`lu` is a permuted triangular factorisation. -/
structure LinAlg.Exact (la : LinAlg ℝ) : Prop where
  solve : ∀ {n : ℕ} (M : Mat ℝ n) (v : Vec ℝ n), IsUnit (Matrix.of M).det →
    la.solve M v = some ((Matrix.of M)⁻¹.mulVec v)
  inv : ∀ {n : ℕ} (M : Mat ℝ n), IsUnit (Matrix.of M).det →
    la.inv M = some (fun i j => (Matrix.of M)⁻¹ i j)
  inv_none : ∀ {n : ℕ} (M : Mat ℝ n), ¬ IsUnit (Matrix.of M).det → la.inv M = none
  lu : ∀ {n : ℕ} (M L U P : Mat ℝ n), la.lu M = some (L, U, P) →
    (Matrix.of P).transpose * Matrix.of L * Matrix.of U = Matrix.of M ∧
    (Matrix.of P).transpose * Matrix.of P = 1 ∧
    (∀ i j, i < j → L i j = 0) ∧ (∀ i, L i i = 1) ∧ (∀ i j, j < i → U i j = 0)
  solveL : ∀ {n : ℕ} (L : Mat ℝ n) (v : Vec ℝ n), (∀ i j, i < j → L i j = 0) →
    IsUnit (Matrix.of L).det → la.solveL L v = some ((Matrix.of L)⁻¹.mulVec v)
  solveU : ∀ {n : ℕ} (U : Mat ℝ n) (v : Vec ℝ n), (∀ i j, j < i → U i j = 0) →
    IsUnit (Matrix.of U).det → la.solveU U v = some ((Matrix.of U)⁻¹.mulVec v)

/-- what `arma::lu` promises -/
def IsLU {n : ℕ} (M L U P : Mat ℝ n) : Prop :=
  (Matrix.of P).transpose * Matrix.of L * Matrix.of U = Matrix.of M ∧
  (Matrix.of P).transpose * Matrix.of P = 1 ∧
  (∀ i j, i < j → L i j = 0) ∧ (∀ i, L i i = 1) ∧ (∀ i j, j < i → U i j = 0)

open Classical in
/-- exact linear algebra exists: the oracle that inverts -/
noncomputable def laReal : LinAlg ℝ where
  solve M v := if IsUnit (Matrix.of M).det then some ((Matrix.of M)⁻¹.mulVec v) else none
  inv M := if IsUnit (Matrix.of M).det then some (fun i j => (Matrix.of M)⁻¹ i j) else none
  lu M := if h : ∃ q : Mat ℝ _ × Mat ℝ _ × Mat ℝ _, IsLU M q.1 q.2.1 q.2.2 then some h.choose else none
  solveL M v := if IsUnit (Matrix.of M).det then some ((Matrix.of M)⁻¹.mulVec v) else none
  solveU M v := if IsUnit (Matrix.of M).det then some ((Matrix.of M)⁻¹.mulVec v) else none

theorem laReal_exact : laReal.Exact where
  solve M v h := if_pos h
  inv M h := if_pos h
  inv_none M h := if_neg h
  lu {n} M L U P h := by
    unfold laReal at h
    simp only at h
    split_ifs at h with hx
    simp only [Option.some.injEq] at h
    have := hx.choose_spec
    rw [h] at this
    exact this
  solveL L v _ h := if_pos h
  solveU U v _ h := if_pos h

theorem sumFin_real {n : ℕ} (g : Fin n → ℝ) : sumFin n g = ∑ i, g i := by
  unfold sumFin
  rw [show (lit 0 : ℝ) = 0 by simp]
  have h : ∀ (l : List (Fin n)) (a : ℝ), l.foldl (fun acc j => acc + g j) a = a + (l.map g).sum := by
    intro l
    induction l with
    | nil => simp
    | cons x l ih => intro a; simp [ih, add_assoc]
  rw [h, zero_add]
  exact (Fin.sum_univ_def g).symm

end Verif
