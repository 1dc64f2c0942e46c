import Mathlib.Analysis.Real.Sqrt
import Mathlib.Algebra.BigOperators.Fin
import Mathlib.Algebra.Module.Pi

/-!
# Textbook definitions for Runge–Kutta methods (no reference to the model)
-/

namespace Verif.Spec

/-- One step of the Runge–Kutta method `(A, b, c)` (explicit or implicit) with stages `k`, from `(t, y)` with
step `h` to `y'` (Hairer–Wanner): `k_i = f(t + c_i h, y + h Σ_j a_ij k_j)`, `y' = y + h Σ b_i k_i`. -/
def IsRKStep {s n : ℕ} (A : Fin s → Fin s → ℝ) (b c : Fin s → ℝ)
    (f : ℝ → (Fin n → ℝ) → (Fin n → ℝ)) (t h : ℝ) (y y' : Fin n → ℝ) (k : Fin s → Fin n → ℝ) :
    Prop :=
  (∀ i, k i = f (t + c i * h) (y + h • ∑ j, A i j • k j)) ∧ y' = y + h • ∑ i, b i • k i

/-- Weighted root-mean-square norm used for error control (Hairer–Wanner, II.4):
`sqrt(1/n Σ (e_i / (atol + rtol max(|y_i|,|y'_i|)))²)`. -/
noncomputable def wrms {n : ℕ} (atol rtol : ℝ) (y y' e : Fin n → ℝ) : ℝ :=
  Real.sqrt ((1 / n) * ∑ i, (e i / (atol + rtol * max |y i| |y' i|)) ^ 2)

end Verif.Spec
