import Verif.StabilityLemmas
import Verif.ErkShipped

/-!
# The stability functions of the explicit methods are polynomials
-/

set_option linter.unusedSectionVars false

set_option linter.unusedSimpArgs false

namespace Verif

/-- coefficients `1, 2, …` of the stability polynomial -/
def erkStab (m : ℤ) : List ℚ :=
  if m = 100 then [1]
  else if m = 110 then [1, 1 / 2, 1 / 6, 1 / 24]
  else if m = 120 then [1, 1 / 2, 1 / 6, 0]
  else if m = 130 then [1, 1 / 2, 1 / 6, 1 / 24, 1 / 120, 1 / 800]
  else if m = 131 then [1, 1 / 2, 1 / 6, 1 / 24, 1 / 120, 1 / 600, 0]
  else [1, 1 / 2, 1 / 6, 1 / 24, 1 / 120, 1 / 2080]

theorem flOK_erk : ∀ m ∈ erkImplemented, flOK (erkCoeffs m : SolverCoeffs (QS 3)).A
    (erkCoeffs m : SolverCoeffs (QS 3)).b (List.replicate (erkStab m).length 0) (erkStab m) = true := by
  decide +kernel

theorem img_erk {m : ℤ} (hm : m ∈ erkImplemented) :
    (erkCoeffs m : SolverCoeffs ℝ).A = (erkCoeffs m : SolverCoeffs (QS 3)).A.map (List.map QS.ev) ∧
    (erkCoeffs m : SolverCoeffs ℝ).b = (erkCoeffs m : SolverCoeffs (QS 3)).b.map QS.ev := by
  simp only [erkImplemented, List.mem_cons, List.not_mem_nil, or_false] at hm
  rcases hm with rfl | rfl | rfl | rfl | rfl | rfl
  · show (explicitEuler : SolverCoeffs ℝ).A = (explicitEuler : SolverCoeffs (QS 3)).A.map _ ∧
      (explicitEuler : SolverCoeffs ℝ).b = (explicitEuler : SolverCoeffs (QS 3)).b.map _
    constructor <;> simp only [explicitEuler, List.map, map_neg, QS.ev_lit]
  · show (rungeKutta4 : SolverCoeffs ℝ).A = (rungeKutta4 : SolverCoeffs (QS 3)).A.map _ ∧
      (rungeKutta4 : SolverCoeffs ℝ).b = (rungeKutta4 : SolverCoeffs (QS 3)).b.map _
    constructor <;> simp only [rungeKutta4, List.map, map_neg, QS.ev_lit, ev_q, ev_nq]
  · show (bogackiShampine32 : SolverCoeffs ℝ).A = (bogackiShampine32 : SolverCoeffs (QS 3)).A.map _ ∧
      (bogackiShampine32 : SolverCoeffs ℝ).b = (bogackiShampine32 : SolverCoeffs (QS 3)).b.map _
    constructor <;> simp only [bogackiShampine32, List.map, map_neg, QS.ev_lit, ev_q, ev_nq]
  · show (cashKarp54 : SolverCoeffs ℝ).A = (cashKarp54 : SolverCoeffs (QS 3)).A.map _ ∧
      (cashKarp54 : SolverCoeffs ℝ).b = (cashKarp54 : SolverCoeffs (QS 3)).b.map _
    constructor <;> simp only [cashKarp54, List.map, map_neg, QS.ev_lit, ev_q, ev_nq]
  · show (dormandPrince54 : SolverCoeffs ℝ).A = (dormandPrince54 : SolverCoeffs (QS 3)).A.map _ ∧
      (dormandPrince54 : SolverCoeffs ℝ).b = (dormandPrince54 : SolverCoeffs (QS 3)).b.map _
    constructor <;> simp only [dormandPrince54, List.map, map_neg, QS.ev_lit, ev_q, ev_nq]
  · show (fehlberg54 : SolverCoeffs ℝ).A = (fehlberg54 : SolverCoeffs (QS 3)).A.map _ ∧
      (fehlberg54 : SolverCoeffs ℝ).b = (fehlberg54 : SolverCoeffs (QS 3)).b.map _
    constructor <;> simp only [fehlberg54, List.map, map_neg, QS.ev_lit, ev_q, ev_nq]

theorem horner_zeros (z : ℂ) (k : ℕ) : horner z ((List.replicate k (0 : ℚ)).map fun x : ℚ => (x : ℂ)) = 0 := by
  induction k with
  | zero => rfl
  | succ k ih => rw [List.replicate_succ, List.map_cons, horner, ih]; simp

/-- the stability function of an explicit method, at every `z` -/
theorem stab_erk {m : ℤ} (hm : m ∈ erkImplemented) (z : ℂ) :
    stabilityFunction z (erkCoeffs m : SolverCoeffs ℝ).A (erkCoeffs m : SolverCoeffs ℝ).b =
      .ret (1 + z * horner z ((erkStab m).map fun x : ℚ => (x : ℂ))) := by
  have hs : ∀ m ∈ erkImplemented, (erkCoeffs m : SolverCoeffs (QS 3)).A.length =
      (erkCoeffs m : SolverCoeffs (QS 3)).b.length ∧
      ((erkCoeffs m : SolverCoeffs (QS 3)).A.headD []).length =
      (erkCoeffs m : SolverCoeffs (QS 3)).b.length := by decide +kernel
  rw [stab_of_flOK (img_erk hm).1 (img_erk hm).2 (hs m hm).1 (hs m hm).2 (flOK_erk m hm) z (by
    rw [horner_zeros]; simp), horner_zeros]
  simp

end Verif
