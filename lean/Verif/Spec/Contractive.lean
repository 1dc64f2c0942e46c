import Mathlib.Analysis.SpecialFunctions.Pow.Real
import Mathlib.Algebra.BigOperators.Fin
import Mathlib.Analysis.Calculus.Deriv.Basic

/-!
# Specification: contractive differential equations

A system `y' = f(t, y)` with `⟨f(t,y) - f(t,z), y - z⟩ ≤ 0` brings its solutions closer together; however stiff it is, a suitable method
must do so for every step size (Butcher's B-stability).
-/

namespace Verif.Spec

variable {n : ℕ}

/-- the Euclidean norm -/
noncomputable def eucl (y : Fin n → ℝ) : ℝ := Real.sqrt (∑ k, y k ^ 2)

/-- one-sided Lipschitz condition with constant 0 in the Euclidean inner product -/
def Contractive (f : ℝ → (Fin n → ℝ) → Fin n → ℝ) : Prop :=
  ∀ t y z, ∑ k, (f t y k - f t z k) * (y k - z k) ≤ 0

/-- Lipschitz constant in the Euclidean norm -/
def LipschitzE (f : ℝ → (Fin n → ℝ) → Fin n → ℝ) (L : ℝ) : Prop :=
  ∀ t y z, eucl (fun k => f t y k - f t z k) ≤ L * eucl fun k => y k - z k

/-- the successive derivatives of `u` on `[t0, t1]`: `v 0 = u` and `v (k+1)` is the derivative of `v k` for `k ≤ p` -/
def Derivatives (t0 t1 : ℝ) (p : ℕ) (u : ℝ → Fin n → ℝ) (v : ℕ → ℝ → Fin n → ℝ) : Prop :=
  v 0 = u ∧ ∀ k ≤ p, ∀ t ∈ Set.Icc t0 t1, HasDerivWithinAt (v k) (v (k + 1) t) (Set.Icc t0 t1) t

end Verif.Spec
