import Verif.TableauFP
import Verif.FloatInst

/-!
# Property C132: the shipped tableaux in binary64
-/

set_option autoImplicit false

namespace Verif
open FP

/-- **C132 (implicit methods).**  Every number that `get_coefficients` computes in double precision for an implemented implicit method is finite and within
`2^-54 (1 + |x|)` of the exact coefficient `x`, square roots included. -/
theorem C132_implicit [Libm] {m : ℤ} (hm : m ∈ irkImplemented) : CloseTab (1 / 2 ^ 54) (irkCoeffs m) (irkCoeffs m) := by
  refine closeTab_of (by positivity) (img_shipped hm) ?_
  rw [irk_nums _ hm]
  exact closeTab_irk m hm

/-- **C132 (explicit methods).**  The same for the explicit methods, within `2^-53 (1 + |x|)`. -/
theorem C132_explicit [Libm] {m : ℤ} (hm : m ∈ erkImplemented) : CloseTab (1 / 2 ^ 53) (erkCoeffs m) (erkCoeffs m) := by
  refine closeTab_of (by positivity) (imgFP_erk hm) ?_
  rw [erk_nums _ hm]
  exact closeTab_erk m hm

/-- exact sum of doubles -/
def exactSum (l : List FP) : ℚ := (l.map FP.val).sum

/-- weights and rows of a tableau: the weights miss 1 by at most `e`, the rows miss the nodes by at most `e'`; `x` tells whether the weights sum up to 1 -/
def sumsOK (e e' : ℚ) (x : Bool) (t : TabNums) : Bool :=
  decide (|exactSum t.b - 1| ≤ e) && all2 (fun r c => decide (|exactSum r - c.val| ≤ e')) t.A t.c && (decide (exactSum t.b = 1) == x)

theorem sums_irk : ∀ m ∈ irkImplemented, sumsOK (1 / 2 ^ 54) (1 / 2 ^ 53) (decide (m ∈ ([200, 210, 211, 222, 240] : List ℤ)))
    (tabNums (letI := anyPow; (irkCoeffs m : SolverCoeffs FP))) = true := by decide +kernel

theorem sums_erk : ∀ m ∈ erkImplemented, sumsOK (1 / 2 ^ 54) (11 / 2 ^ 54) (decide (m ∈ ([100, 130] : List ℤ)))
    (tabNums (letI := anyPow; (erkCoeffs m : SolverCoeffs FP))) = true := by decide +kernel

theorem sums_of {e e' : ℚ} {x : Bool} {sc : SolverCoeffs FP} (h : sumsOK e e' x (tabNums sc) = true) :
    |exactSum sc.b - 1| ≤ e ∧ List.Forall₂ (fun r c => |exactSum r - c.val| ≤ e') sc.A sc.c ∧ (exactSum sc.b = 1 ↔ x = true) := by
  simp only [sumsOK, Bool.and_eq_true, tabNums, beq_iff_eq] at h
  obtain ⟨⟨h1, h2⟩, h3⟩ := h
  refine ⟨of_decide_eq_true h1, ?_, ?_⟩
  · have := forall2_of_all2 (g := id) (R := fun r c => |exactSum r - FP.val c| ≤ e') (fun a b hab => of_decide_eq_true hab) h2
    rwa [List.map_id] at this
  · exact ⟨fun h => by rw [← h3]; exact decide_eq_true h, fun h => of_decide_eq_true (h3.trans h)⟩

/-- **C132 (consistency, implicit methods).**  Added without rounding, the weights in double precision miss 1 by at most `2^-54` and the rows of `A` miss the
nodes by at most `2^-53`; the weights sum up to 1 exactly for IMPLICIT_EULER, RADAU_IIA_32, RADAU_IIA_53, LOBATTO_IIIA_127 and GAUSS_LEGENDRE_42 only. -/
theorem C132_sums_irk [Libm] {m : ℤ} (hm : m ∈ irkImplemented) :
    |exactSum (irkCoeffs m : SolverCoeffs FP).b - 1| ≤ 1 / 2 ^ 54 ∧
      List.Forall₂ (fun r c => |exactSum r - c.val| ≤ 1 / 2 ^ 53) (irkCoeffs m : SolverCoeffs FP).A (irkCoeffs m : SolverCoeffs FP).c ∧
      (exactSum (irkCoeffs m : SolverCoeffs FP).b = 1 ↔ m ∈ ([200, 210, 211, 222, 240] : List ℤ)) := by
  have := sums_of (sc := (irkCoeffs m : SolverCoeffs FP)) (by rw [irk_nums _ hm]; exact sums_irk m hm)
  simpa only [decide_eq_true_eq] using this

/-- **C132 (consistency, explicit methods).**  The rows miss the nodes by at most `11 · 2^-54`; the weights sum up to 1 exactly for EULER and CASH_KARP_54 only. -/
theorem C132_sums_erk [Libm] {m : ℤ} (hm : m ∈ erkImplemented) :
    |exactSum (erkCoeffs m : SolverCoeffs FP).b - 1| ≤ 1 / 2 ^ 54 ∧
      List.Forall₂ (fun r c => |exactSum r - c.val| ≤ 11 / 2 ^ 54) (erkCoeffs m : SolverCoeffs FP).A (erkCoeffs m : SolverCoeffs FP).c ∧
      (exactSum (erkCoeffs m : SolverCoeffs FP).b = 1 ↔ m ∈ ([100, 130] : List ℤ)) := by
  have := sums_of (sc := (erkCoeffs m : SolverCoeffs FP)) (by rw [erk_nums _ hm]; exact sums_erk m hm)
  simpa only [decide_eq_true_eq] using this

/-- binary64 tableaux meet the hypothesis of the convergence theorems -/
theorem nearTableau_fp [Libm] (hpow : ∀ x y, x ≠ negZero → lt x (fin 0) = false → lt (Libm.pow x y) (fin 0) = false) {m : ℤ} (hm : m ∈ irkImplemented) :
    NearTableau (fpArith hpow) (irkCoeffs m) (irkCoeffs m) := by
  have h := C132_implicit hm
  have key : ∀ (v : FP) (x : ℝ), Close (1 / 2 ^ 54) v x → NearCoef (fpArith hpow) v x := by
    rintro v x ⟨h1, h2⟩
    refine ⟨h1, h2.trans ?_⟩
    refine mul_le_mul_of_nonneg_right ?_ (by positivity)
    push_cast
    exact one_div_le_one_div_of_le (by positivity) (pow_le_pow_right₀ (by norm_num) (by norm_num))
  refine ⟨h.A.imp fun _ _ hr => hr.imp key, h.b.imp key, h.c.imp key, ?_⟩
  simp only [irkImplemented, List.mem_cons, List.not_mem_nil, or_false] at hm
  rcases hm with rfl | rfl | rfl | rfl | rfl | rfl | rfl | rfl | rfl | rfl | rfl | rfl <;> rfl

/-- the first node of RADAU_IIA_53 in double precision, `(4 - √6)/10` -/
example [Libm] : ∃ (v : FP) (l : List FP), (irkCoeffs 211 : SolverCoeffs FP).c = v :: l ∧ v.isFinite = true ∧
    |(v.val : ℝ) - (4 - Real.sqrt 6) / 10| ≤ 1 / 2 ^ 53 := by
  have h := (C132_implicit (m := 211) (by decide)).c
  refine ⟨_, _, rfl, ?_⟩
  have h1 : Close (1 / 2 ^ 54) _ ((lit 4 - ssqrt (lit 6)) / lit 10 : ℝ) := (List.forall₂_cons.1 h).1
  refine ⟨h1.1, ?_⟩
  have e : ((lit 4 - ssqrt (lit 6)) / lit 10 : ℝ) = (4 - Real.sqrt 6) / 10 := by
    show ((((4 : ℚ) : ℝ)) - Real.sqrt ((6 : ℚ) : ℝ)) / ((10 : ℚ) : ℝ) = _
    norm_num
  have h2 := h1.2
  rw [e] at h2
  refine h2.trans ?_
  have h6 : 0 ≤ Real.sqrt 6 ∧ Real.sqrt 6 ≤ 4 := ⟨Real.sqrt_nonneg _, Real.sqrt_le_iff.2 ⟨by norm_num, by norm_num⟩⟩
  have : |(4 - Real.sqrt 6) / 10| ≤ 1 := by
    rw [abs_le]
    constructor <;> linarith
  push_cast
  nlinarith

end Verif
