import Verif.ErkShipped
import Verif.Spec.RK
import Mathlib.RingTheory.Nilpotent.Exp
import Mathlib.Analysis.Calculus.Deriv.Pow
import Mathlib.Analysis.Calculus.Deriv.Add
import Mathlib.Analysis.Calculus.Deriv.Mul
import Mathlib.Tactic.Module

/-!
# Explicit Runge-Kutta steps on linear systems are polynomials of the matrix
-/

set_option autoImplicit false

namespace Verif
open Spec Finset
open scoped Nat

/-- The stages of an explicit method on `y' = L y`.  `T m i` is the entry `i` of `A^m (1, …, 1)`. -/
theorem rkStage_linearMap {s n M : ℕ} {A : Fin s → Fin s → ℝ} {b c : Fin s → ℝ} {L : (Fin n → ℝ) →ₗ[ℝ] (Fin n → ℝ)} {t h : ℝ} {y y' : Fin n → ℝ}
    {k : Fin s → Fin n → ℝ} {T : ℕ → Fin s → ℝ} (hA : ∀ i j, i ≤ j → A i j = 0) (h0 : ∀ i, T 0 i = 1) (hT : ∀ m < M, ∀ i, T (m + 1) i = ∑ j, A i j * T m j)
    (hM : ∀ i, T M i = 0) (hk : IsRKStep A b c (fun _ y => L y) t h y y' k) :
    ∀ i, k i = ∑ m ∈ range M, (h ^ m * T m i) • (L ^ (m + 1)) y := by
  intro i
  induction i using WellFoundedLT.induction with
  | ind i ih =>
    have h1 : ∑ j, A i j • k j = ∑ m ∈ range M, (h ^ m * T (m + 1) i) • (L ^ (m + 1)) y := by
      have h2 : ∀ j, A i j • k j = ∑ m ∈ range M, (h ^ m * (A i j * T m j)) • (L ^ (m + 1)) y := by
        intro j
        by_cases hij : i ≤ j
        · simp [hA i j hij]
        · rw [ih j (not_le.mp hij), smul_sum]
          refine sum_congr rfl fun m _ => ?_
          rw [smul_smul]; congr 1; ring
      rw [sum_congr rfl fun j _ => h2 j, sum_comm]
      refine sum_congr rfl fun m hm => ?_
      rw [hT m (mem_range.mp hm) i, mul_sum, sum_smul]
    have h3 : k i = L y + h • ∑ m ∈ range M, (h ^ m * T (m + 1) i) • (L ^ (m + 1 + 1)) y := by
      rw [hk.1 i, h1]
      simp only [map_add, map_smul, map_sum, pow_succ' L, Module.End.mul_apply]
    have h4 := sum_range_succ' (fun m => (h ^ m * T m i) • (L ^ (m + 1)) y) M
    rw [sum_range_succ, hM i] at h4
    simp only [mul_zero, zero_smul, add_zero, pow_zero, h0 i, one_mul, one_smul, zero_add, pow_one] at h4
    rw [h3, h4, smul_sum, add_comm]
    congr 1
    refine sum_congr rfl fun m _ => ?_
    rw [smul_smul]; congr 1; ring

/-- One step of an explicit method on `y' = L y`. -/
theorem rkStep_linearMap {s n M : ℕ} {A : Fin s → Fin s → ℝ} {b c : Fin s → ℝ} {L : (Fin n → ℝ) →ₗ[ℝ] (Fin n → ℝ)} {t h : ℝ} {y y' : Fin n → ℝ}
    {k : Fin s → Fin n → ℝ} {T : ℕ → Fin s → ℝ} (hA : ∀ i j, i ≤ j → A i j = 0) (h0 : ∀ i, T 0 i = 1) (hT : ∀ m < M, ∀ i, T (m + 1) i = ∑ j, A i j * T m j)
    (hM : ∀ i, T M i = 0) (hk : IsRKStep A b c (fun _ y => L y) t h y y' k) :
    y' = y + ∑ m ∈ range M, (h ^ (m + 1) * ∑ i, b i * T m i) • (L ^ (m + 1)) y := by
  have hstage := rkStage_linearMap hA h0 hT hM hk
  rw [hk.2]
  congr 1
  simp only [hstage, smul_sum]
  rw [sum_comm]
  refine sum_congr rfl fun m _ => ?_
  rw [mul_sum, sum_smul]
  refine sum_congr rfl fun i _ => ?_
  rw [smul_smul, smul_smul]; congr 1; ring

/-- the vectors `A^m (1, …, 1)` of the shipped tableaux -/
def powOnes (m : ℤ) : List (List ℚ) :=
    if m = 100 then [[1]]
    else if m = 110 then [[1, 1, 1, 1], [0, 1 / 2, 1 / 2, 1], [0, 0, 1 / 4, 1 / 2], [0, 0, 0, 1 / 4]]
    else if m = 120 then [[1, 1, 1, 1], [0, 1 / 2, 3 / 4, 1], [0, 0, 3 / 8, 1 / 2], [0, 0, 0, 1 / 6]]
    else if m = 130 then [[1, 1, 1, 1, 1, 1], [0, 1 / 5, 3 / 10, 3 / 5, 1, 7 / 8], [0, 0, 9 / 200, 9 / 50, 1 / 2, 49 / 128], [0, 0, 0, 27 / 500, 7 / 60, 161 / 1536], [0, 0, 0, 0, 7 / 100, 1771 / 61440], [0, 0, 0, 0, 0, 1771 / 409600]]
    else if m = 131 then [[1, 1, 1, 1, 1, 1, 1], [0, 1 / 5, 3 / 10, 4 / 5, 8 / 9, 1, 1], [0, 0, 9 / 200, 8 / 25, 32 / 81, 1 / 2, 1 / 2], [0, 0, 0, 4 / 25, 424 / 1215, 21 / 55, 1 / 6], [0, 0, 0, 0, -848 / 18225, -14 / 275, 1 / 24], [0, 0, 0, 0, 0, 7 / 550, 1 / 120], [0, 0, 0, 0, 0, 0, 1 / 600]]
    else [[1, 1, 1, 1, 1, 1], [0, 1 / 4, 3 / 8, 12 / 13, 1, 1 / 2], [0, 0, 9 / 128, 72 / 169, 1 / 2, 1 / 8], [0, 0, 0, 513 / 2197, 5 / 12, -1 / 24], [0, 0, 0, 0, -5 / 104, -11 / 1248], [0, 0, 0, 0, 0, 11 / 832]]

/-- degree up to which the stability polynomial is that of the exponential function -/
def expDegree (m : ℤ) : ℕ := if m = 100 then 1 else if m = 110 then 4 else if m = 120 then 3 else 5

/-- the next coefficient of the stability polynomial; there are no further ones -/
def lastCoef (m : ℤ) : ℚ := if m = 130 then 1 / 800 else if m = 131 then 1 / 600 else if m = 132 then 1 / 2080 else 0

def polyCoef (m : ℤ) (j : ℕ) : ℚ := if j ≤ expDegree m then 1 / j ! else if j = expDegree m + 1 then lastCoef m else 0

def powOnesOK (m : ℤ) : Bool :=
  let sc : SolverCoeffs ℚ := erkCoeffs m
  let T := fun j i => ((powOnes m).getD j []).getD i 0
  ((List.range sc.ns).all fun i => decide (T 0 i = 1) && decide (T 7 i = 0)) &&
  ((List.range 7).all fun j => ((List.range sc.ns).all fun i => decide (T (j + 1) i = ∑ l ∈ range sc.ns, sc.a i l * T j l)) &&
    decide (∑ i ∈ range sc.ns, sc.bw i * T j i = polyCoef m (j + 1)))

theorem powOnesOK_shipped : ∀ m ∈ erkImplemented, powOnesOK m = true := by
  decide +kernel

/-- one step of a shipped method on `y' = L y` -/
theorem shipped_linear {m : ℤ} (hm : m ∈ erkImplemented) {n : ℕ} {L : (Fin n → ℝ) →ₗ[ℝ] (Fin n → ℝ)} {t h : ℝ} {y y' : Fin n → ℝ}
    {k : Fin (erkCoeffs m : SolverCoeffs ℝ).ns → Fin n → ℝ}
    (hk : IsRKStep (fun i j => (erkCoeffs m : SolverCoeffs ℝ).a i j) (fun i => (erkCoeffs m : SolverCoeffs ℝ).bw i)
      (fun i => (erkCoeffs m : SolverCoeffs ℝ).cn i) (fun _ y => L y) t h y y' k) :
    y' = ∑ j ∈ range (expDegree m + 1), (h ^ j / j !) • (L ^ j) y + (h ^ (expDegree m + 1) * (lastCoef m : ℚ)) • (L ^ (expDegree m + 1)) y := by
  have hok := powOnesOK_shipped m hm
  have hex := (shipped_facts hm).1
  have key : y' = y + ∑ j ∈ range 7, (h ^ (j + 1) * ((polyCoef m (j + 1) : ℚ) : ℝ)) • (L ^ (j + 1)) y := by
    revert k hex
    rw [erkCoeffs_cast]
    simp only [powOnesOK, Bool.and_eq_true, List.all_eq_true, List.mem_range, decide_eq_true_eq] at hok
    generalize polyCoef m = P at hok ⊢
    generalize (erkCoeffs m : SolverCoeffs ℚ) = sc at *
    intro k hk hex
    have e := SolverCoeffs.ns_cast (sc := sc)
    have hlt : ∀ i : Fin (sc.map fun x : ℚ => (x : ℝ)).ns, (i : ℕ) < sc.ns := fun i => by rw [← e]; exact i.isLt
    have := rkStep_linearMap (M := 7) (T := fun j i => ((((powOnes m).getD j []).getD i 0 : ℚ) : ℝ)) (fun i j hij => hex i j i.2 j.2 hij)
      (fun i => by rw [(hok.1 i (hlt i)).1]; simp) (fun j hj i => ?_) (fun i => by rw [(hok.1 i (hlt i)).2]; simp) hk
    · rw [this]
      congr 1
      refine sum_congr rfl fun j hj => ?_
      have h1 := congrArg (fun x : ℚ => (x : ℝ)) (hok.2 j (mem_range.mp hj)).2
      push_cast at h1
      rw [← h1]
      simp only [SolverCoeffs.bw_cast]
      rw [Fin.sum_univ_eq_sum_range (fun i => ((sc.bw i : ℚ) : ℝ) * ((((powOnes m).getD j []).getD i 0 : ℚ) : ℝ)), e]
    · have h1 := congrArg (fun x : ℚ => (x : ℝ)) ((hok.2 j hj).1 i (hlt i))
      push_cast at h1
      simp only [SolverCoeffs.a_cast]
      generalize i.val = iv at h1 ⊢
      rw [Fin.sum_univ_eq_sum_range (fun l => ((sc.a iv l : ℚ) : ℝ) * ((((powOnes m).getD j []).getD l 0 : ℚ) : ℝ)), e]
      exact h1
  rw [key]
  simp only [erkImplemented, List.mem_cons, List.not_mem_nil, or_false] at hm
  rcases hm with rfl | rfl | rfl | rfl | rfl | rfl <;>
    simp [sum_range_succ, polyCoef, expDegree, lastCoef, Nat.factorial] <;> module

/-- coefficients of the error estimate: lowest power and three coefficients -/
def estCoef (m : ℤ) (j : ℕ) : ℚ :=
  if m = 120 then if j = 2 then 1 / 48 else if j = 3 then 1 / 48 else 0
  else if m = 130 then if j = 4 then 277 / 1228800 else if j = 5 then -277 / 1638400 else 0
  else if m = 131 then if j = 4 then 97 / 120000 else if j = 5 then -13 / 40000 else if j = 6 then 1 / 24000 else 0
  else if j = 4 then 1 / 780 else if j = 5 then -1 / 2080 else 0

def estOK (m : ℤ) : Bool :=
  let sc : SolverCoeffs ℚ := erkCoeffs m
  let T := fun j i => ((powOnes m).getD j []).getD i 0
  (List.range 7).all fun j => decide (∑ i ∈ range sc.ns, (sc.bw2 i - sc.bw i) * T j i = estCoef m j)

theorem estOK_shipped : ∀ m ∈ ([120, 130, 131, 132] : List ℤ), estOK m = true := by
  decide +kernel

/-- the error estimate of an embedded method on `y' = L y` -/
theorem shipped_estimate {m : ℤ} (hm : m ∈ ([120, 130, 131, 132] : List ℤ)) {n : ℕ} {L : (Fin n → ℝ) →ₗ[ℝ] (Fin n → ℝ)} {t h : ℝ} {y y' : Fin n → ℝ}
    {k : Fin (erkCoeffs m : SolverCoeffs ℝ).ns → Fin n → ℝ}
    (hk : IsRKStep (fun i j => (erkCoeffs m : SolverCoeffs ℝ).a i j) (fun i => (erkCoeffs m : SolverCoeffs ℝ).bw i)
      (fun i => (erkCoeffs m : SolverCoeffs ℝ).cn i) (fun _ y => L y) t h y y' k) :
    h • ∑ i : Fin (erkCoeffs m : SolverCoeffs ℝ).ns, ((erkCoeffs m : SolverCoeffs ℝ).bw2 i - (erkCoeffs m : SolverCoeffs ℝ).bw i) • k i =
      ∑ j ∈ range 7, (h ^ (j + 1) * ((estCoef m j : ℚ) : ℝ)) • (L ^ (j + 1)) y := by
  have hm' : m ∈ erkImplemented := by
    simp only [List.mem_cons, List.not_mem_nil, or_false] at hm
    rcases hm with rfl | rfl | rfl | rfl <;> decide
  have hok := powOnesOK_shipped m hm'
  have hest := estOK_shipped m hm
  have hex := (shipped_facts hm').1
  revert k hex
  rw [erkCoeffs_cast]
  simp only [powOnesOK, Bool.and_eq_true, List.all_eq_true, List.mem_range, decide_eq_true_eq] at hok
  simp only [estOK, List.all_eq_true, List.mem_range, decide_eq_true_eq] at hest
  generalize estCoef m = E at hest ⊢
  generalize (erkCoeffs m : SolverCoeffs ℚ) = sc at *
  intro k hk hex
  have e := SolverCoeffs.ns_cast (sc := sc)
  have hlt : ∀ i : Fin (sc.map fun x : ℚ => (x : ℝ)).ns, (i : ℕ) < sc.ns := fun i => by rw [← e]; exact i.isLt
  have := rkStage_linearMap (M := 7) (T := fun j i => ((((powOnes m).getD j []).getD i 0 : ℚ) : ℝ)) (fun i j hij => hex i j i.2 j.2 hij)
    (fun i => by rw [(hok.1 i (hlt i)).1]; simp) (fun j hj i => ?_) (fun i => by rw [(hok.1 i (hlt i)).2]; simp) hk
  · simp only [this, smul_sum]
    rw [sum_comm]
    refine sum_congr rfl fun j hj => ?_
    have h1 := congrArg (fun x : ℚ => (x : ℝ)) (hest j (mem_range.mp hj))
    push_cast at h1
    rw [← h1, ← e, ← Fin.sum_univ_eq_sum_range (fun i => (((sc.bw2 i : ℚ) : ℝ) - ((sc.bw i : ℚ) : ℝ)) * ((((powOnes m).getD j []).getD i 0 : ℚ) : ℝ)),
      mul_sum, sum_smul]
    refine sum_congr rfl fun i _ => ?_
    simp only [SolverCoeffs.bw_cast, SolverCoeffs.bw2_cast]
    rw [smul_smul, smul_smul]; congr 1; ring
  · have h1 := congrArg (fun x : ℚ => (x : ℝ)) ((hok.2 j hj).1 i (hlt i))
    push_cast at h1
    simp only [SolverCoeffs.a_cast]
    generalize i.val = iv at h1 ⊢
    rw [Fin.sum_univ_eq_sum_range (fun l => ((sc.a iv l : ℚ) : ℝ) * ((((powOnes m).getD j []).getD l 0 : ℚ) : ℝ)), e]
    exact h1

/-- the exponential series of a nilpotent map solves `y' = L y` -/
theorem nilpotent_solution {n p : ℕ} {L : (Fin n → ℝ) →ₗ[ℝ] (Fin n → ℝ)} (hL : L ^ (p + 1) = 0) (t0 : ℝ) (y : Fin n → ℝ) (t : ℝ) :
    HasDerivAt (fun s => ∑ j ∈ range (p + 1), ((s - t0) ^ j / j !) • (L ^ j) y) (L (∑ j ∈ range (p + 1), ((t - t0) ^ j / j !) • (L ^ j) y)) t := by
  have h1 : ∀ j ∈ range (p + 1), HasDerivAt (fun s => ((s - t0) ^ j / (j ! : ℝ)) • (L ^ j) y) (((j : ℝ) * (t - t0) ^ (j - 1) / j !) • (L ^ j) y) t := by
    intro j _
    have h2 := ((((hasDerivAt_id t).sub_const t0).pow j).div_const (j ! : ℝ)).smul_const ((L ^ j) y)
    simpa using h2
  have h2 := HasDerivAt.fun_sum h1
  have h3 : L (∑ j ∈ range (p + 1), ((t - t0) ^ j / (j ! : ℝ)) • (L ^ j) y) = ∑ j ∈ range (p + 1), ((j : ℝ) * (t - t0) ^ (j - 1) / j !) • (L ^ j) y := by
    rw [sum_range_succ' (fun j => ((j : ℝ) * (t - t0) ^ (j - 1) / j !) • (L ^ j) y), map_sum, sum_range_succ]
    have h4 : L (((t - t0) ^ p / (p ! : ℝ)) • (L ^ p) y) = 0 := by
      rw [map_smul, ← Module.End.mul_apply, ← pow_succ', hL]; simp
    rw [h4]
    simp only [add_zero, Nat.cast_zero, zero_mul, zero_div, zero_smul]
    refine sum_congr rfl fun j _ => ?_
    rw [map_smul, ← Module.End.mul_apply, ← pow_succ', Nat.factorial_succ]
    congr 1
    have : ((j + 1 : ℕ) : ℝ) ≠ 0 := by positivity
    push_cast at this ⊢
    field_simp
  rw [h3]
  exact h2

/-- the series for the sum of two times -/
theorem nilpotent_add {n p : ℕ} {L : (Fin n → ℝ) →ₗ[ℝ] (Fin n → ℝ)} (hL : L ^ (p + 1) = 0) (s h : ℝ) (y : Fin n → ℝ) :
    ∑ j ∈ range (p + 1), (h ^ j / j !) • (L ^ j) (∑ i ∈ range (p + 1), (s ^ i / i !) • (L ^ i) y) =
      ∑ j ∈ range (p + 1), ((s + h) ^ j / j !) • (L ^ j) y := by
  have hn : ∀ r : ℝ, (r • L) ^ (p + 1) = 0 := fun r => by rw [smul_pow, hL, smul_zero]
  have he : ∀ (r : ℝ) (z : Fin n → ℝ), IsNilpotent.exp (r • L) z = ∑ j ∈ range (p + 1), (r ^ j / j !) • (L ^ j) z := by
    intro r z
    rw [IsNilpotent.exp_eq_sum (hn r), LinearMap.sum_apply]
    refine sum_congr rfl fun j _ => ?_
    rw [smul_pow, LinearMap.smul_apply, LinearMap.smul_apply, ← Rat.cast_smul_eq_qsmul ℝ, smul_smul]
    congr 1
    push_cast
    rw [div_eq_inv_mul]
  have hc : Commute (h • L) (s • L) := ((Commute.refl L).smul_left h).smul_right s
  have h1 := IsNilpotent.exp_add_of_commute hc ⟨_, hn h⟩ ⟨_, hn s⟩
  rw [← add_smul] at h1
  have h2 := congrArg (fun f => f y) h1
  simp only [Module.End.mul_apply, he] at h2
  rw [add_comm s h]
  exact h2.symm

end Verif
