import Mathlib.Algebra.BigOperators.Fin
import Mathlib.Algebra.Field.Defs
import Mathlib.Data.Real.Basic

/-!
# Rooted trees and Butcher's order conditions (no reference to the model)
-/

namespace Verif.Spec

/-- rooted trees (with ordered children; the quantities below do not depend on the order) -/
inductive RTree where
  | node (children : List RTree)

namespace RTree

mutual
/-- number of nodes -/
def order : RTree → ℕ
  | node ts => orderList ts + 1
/-- number of nodes of a forest -/
def orderList : List RTree → ℕ
  | [] => 0
  | t :: ts => order t + orderList ts
end

mutual
/-- density `γ(t) = |t| Π γ(children)` (Butcher; Hairer–Nørsett–Wanner II.2) -/
def density : RTree → ℕ
  | node ts => (orderList ts + 1) * densityList ts
/-- product of the densities of a forest -/
def densityList : List RTree → ℕ
  | [] => 1
  | t :: ts => density t * densityList ts
end

variable {R : Type} [CommSemiring R] {s : ℕ}

mutual
/-- internal weights `Φ_i(t) = Π_{u child of the root} Σ_j a_ij Φ_j(u)` -/
def weight (A : Fin s → Fin s → R) : RTree → Fin s → R
  | node ts => weightList A ts
/-- product over a forest of `Σ_j a_ij Φ_j(u)` -/
def weightList (A : Fin s → Fin s → R) : List RTree → Fin s → R
  | [] => fun _ => 1
  | t :: ts => fun i => (∑ j, A i j * weight A t j) * weightList A ts i
end

end RTree

/-- The Runge–Kutta method with matrix `A` and weights `b` satisfies Butcher's conditions for order `p`:
`Σ b_i Φ_i(t) = 1/γ(t)` for every rooted tree with at most `p` nodes. -/
def HasOrder {K : Type} [Field K] {s : ℕ} (A : Fin s → Fin s → K) (b : Fin s → K) (p : ℕ) : Prop :=
  ∀ t : RTree, t.order ≤ p → ∑ i, b i * t.weight A i = 1 / (t.density : K)

end Verif.Spec
