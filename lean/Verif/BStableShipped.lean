import Verif.BStable
import Verif.Prop.IrkDecimal

/-!
# Algebraic stability of the shipped implicit tableaux, evaluated in `ℚ(√d)` (helper lemmas for C94, C95)
-/

set_option autoImplicit false
set_option linter.unusedSectionVars false

namespace Verif
open Spec

/-- a sufficient test for `0 ≤ x` -/
def posQ {d : ℕ} (x : QS d) : Bool := decide (0 ≤ x.re) && decide (d * x.im ^ 2 ≤ x.re ^ 2)

theorem pos_ev {d : ℕ} {x : QS d} (h : posQ x = true) : 0 ≤ QS.ev x := by
  simp only [posQ, Bool.and_eq_true, decide_eq_true_eq] at h
  obtain ⟨h1, h2⟩ := h
  change 0 ≤ (x.re : ℝ) + x.im * √(d : ℝ)
  have g1 : (0 : ℝ) ≤ x.re := by exact_mod_cast h1
  have g2 : (d : ℝ) * (x.im : ℝ) ^ 2 ≤ (x.re : ℝ) ^ 2 := by exact_mod_cast h2
  have g3 : ((x.im : ℝ) * √(d : ℝ)) ^ 2 ≤ (x.re : ℝ) ^ 2 := by
    rw [mul_pow, Real.sq_sqrt (Nat.cast_nonneg d)]; linarith
  have := (abs_le.mp (abs_le_of_sq_le_sq g3 g1)).1
  linarith

section checks
variable {d : ℕ} (sq : SolverCoeffs (QS d))

/-- entry of the matrix of algebraic stability -/
def algEnt (i j : ℕ) : QS d := sq.b.getD i 0 * ent sq.A i j + sq.b.getD j 0 * ent sq.A j i - sq.b.getD i 0 * sq.b.getD j 0

/-- for stiffly accurate methods the matrix is `v vᵀ / b_s²`, `v_i = b_i a_is` -/
def algVec (i : ℕ) : QS d := sq.b.getD i 0 * ent sq.A i (sq.ns - 1)

/-- the weight `1/b_s²` -/
def algW : ℚ := 1 / (sq.b.getD (sq.ns - 1) 0).re ^ 2

/-- the matrix of algebraic stability is `w v vᵀ` up to `ε`, and the weights are not negative -/
def algOK (ε w : ℚ) : Bool :=
  decide (0 ≤ w) && ((List.range sq.ns).all fun i => posQ (sq.b.getD i 0)) &&
    (List.range sq.ns).all fun i => (List.range sq.ns).all fun j => smallQ ε (algEnt sq i j - lit w * (algVec sq i * algVec sq j))

/-- `D_i = b_i/c_i` -/
def coerD (i : ℕ) : QS d := sq.b.getD i 0 / sq.c.getD i 0

/-- `E_i = b_i/c_i²` -/
def coerE (i : ℕ) : QS d := coerD sq i / sq.c.getD i 0

/-- the symmetric part of `D ω` is half the diagonal matrix `E + e_s e_sᵀ` up to `ε` -/
def coerOK (ε β : ℚ) : Bool :=
  let ω := gjInv sq.ns sq.A
  ((List.range sq.ns).all fun i => posQ (coerD sq i) && posQ (coerE sq i - lit β)) &&
    (List.range sq.ns).all fun i => (List.range sq.ns).all fun j =>
      smallQ ε (coerD sq i * ent ω i j + coerD sq j * ent ω j i - if i = j then coerE sq i + (if i = sq.ns - 1 then 1 else 0) else 0)

end checks

theorem alg_shipped : ∀ m ∈ ([200, 210, 211, 230, 231, 232] : List ℤ),
    algOK (irkCoeffs m : SolverCoeffs (QS (rootOf m))) 0 (algW (irkCoeffs m : SolverCoeffs (QS (rootOf m)))) = true := by
  decide +kernel

theorem alg_shipped_gauss : algOK (irkCoeffs 240 : SolverCoeffs (QS 3)) 0 0 = true := by
  decide +kernel

/-- defect of the matrix of algebraic stability of the decimal tableaux -/
def algEps (m : ℤ) : ℚ := if m = 212 then 3 / 10 ^ 17 else if m = 213 then 1 / 10 ^ 39 else 1 / 10 ^ 18

theorem alg_shipped_decimal : ∀ m ∈ ([212, 213] : List ℤ),
    algOK (irkCoeffs m : SolverCoeffs (QS (rootOf m))) (algEps m) (algW (irkCoeffs m : SolverCoeffs (QS (rootOf m)))) = true := by
  decide +kernel

theorem alg_shipped_gauss_decimal : algOK (irkCoeffs 243 : SolverCoeffs (QS 3)) (algEps 243) 0 = true := by
  decide +kernel

theorem coer_shipped : ∀ m ∈ ([210, 211] : List ℤ), coerOK (irkCoeffs m : SolverCoeffs (QS (rootOf m))) 0 (1 / 100) = true := by
  decide +kernel

theorem coer_shipped_decimal : ∀ m ∈ ([212, 213] : List ℤ),
    coerOK (irkCoeffs m : SolverCoeffs (QS (rootOf m))) (1 / 10 ^ 13) (1 / 100) = true := by
  decide +kernel

section transfer
variable {d : ℕ} {sc : SolverCoeffs ℝ} {sq : SolverCoeffs (QS d)}
open scoped RealInnerProductSpace

theorem Img.weights_nonneg (h : Img sc sq) {ε w : ℚ} (ha : algOK sq ε w = true) (j : Fin sc.ns) : 0 ≤ sc.bw j := by
  simp only [algOK, Bool.and_eq_true, List.all_eq_true, List.mem_range] at ha
  rw [h.bw]
  exact pos_ev (ha.1.2 j (by rw [← h.ns]; exact j.2))

theorem Img.algMat_near (h : Img sc sq) {ε w : ℚ} (ha : algOK sq ε w = true) (i j : Fin sc.ns) :
    |algMat (fun i j : Fin sc.ns => sc.a i j) (fun i => sc.bw i) i j - w * (QS.ev (algVec sq i) * QS.ev (algVec sq j))| ≤ ε := by
  simp only [algOK, Bool.and_eq_true, List.all_eq_true, List.mem_range] at ha
  have := small_ev (ha.2 i (by rw [← h.ns]; exact i.2) j (by rw [← h.ns]; exact j.2))
  rw [algEnt] at this
  simp only [map_sub, map_add, map_mul, QS.ev_lit, lit_real] at this
  simp only [algMat, h.a, h.bw]
  exact this

theorem Img.alg (h : Img sc sq) {ε w : ℚ} (ha : algOK sq ε w = true) {V : Type} [NormedAddCommGroup V] [InnerProductSpace ℝ V]
    (u : Fin sc.ns → V) :
    -(sc.ns * (ε : ℝ) * ∑ i, ‖u i‖ ^ 2) ≤ form (algMat (fun i j : Fin sc.ns => sc.a i j) fun i => sc.bw i) u := by
  have hw : 0 ≤ (w : ℝ) := by
    simp only [algOK, Bool.and_eq_true, decide_eq_true_eq] at ha
    exact_mod_cast ha.1.1
  have h1 := form_small (h.algMat_near ha) u
  have h2 : form (algMat (fun i j : Fin sc.ns => sc.a i j) fun i => sc.bw i) u =
      form (fun i j => algMat (fun i j : Fin sc.ns => sc.a i j) (fun i => sc.bw i) i j - w * (QS.ev (algVec sq i) * QS.ev (algVec sq j))) u +
        w * ‖∑ i : Fin sc.ns, QS.ev (algVec sq i) • u i‖ ^ 2 := by
    rw [norm_sum_smul_sq, ← form_smul, ← form_add]
    congr 1
    funext i j
    ring
  have h3 : 0 ≤ (w : ℝ) * ‖∑ i : Fin sc.ns, QS.ev (algVec sq i) • u i‖ ^ 2 := by positivity
  have h4 := neg_abs_le (form (fun i j => algMat (fun i j : Fin sc.ns => sc.a i j) (fun i => sc.bw i) i j -
    w * (QS.ev (algVec sq i) * QS.ev (algVec sq j))) u)
  linarith

/-- the matrix of algebraic stability vanishes up to `ε` -/
theorem Img.alg_zero (h : Img sc sq) {ε : ℚ} (ha : algOK sq ε 0 = true) (i j : Fin sc.ns) :
    |algMat (fun i j : Fin sc.ns => sc.a i j) (fun i => sc.bw i) i j| ≤ ε := by
  have := h.algMat_near ha i j
  simpa using this

/-- the inverse of `A` -/
noncomputable def invEnt (sq : SolverCoeffs (QS d)) (i j : ℕ) : ℝ := QS.ev (ent (gjInv sq.ns sq.A) i j)

theorem Img.right_inv (h : Img sc sq) (hi : isInv sq.ns sq.A (gjInv sq.ns sq.A) = true) (i k : Fin sc.ns) :
    ∑ j : Fin sc.ns, sc.a i j * invEnt sq j k = if i = k then 1 else 0 := by
  simp only [isInv, List.all_eq_true, List.mem_range, beq_iff_eq, sumR_eq] at hi
  have := congrArg QS.ev (hi i (by rw [← h.ns]; exact i.2) k (by rw [← h.ns]; exact k.2))
  simp only [map_sum, map_mul] at this
  simp only [h.a, invEnt]
  rw [h.sum fun j => QS.ev (ent sq.A i j) * QS.ev (ent (gjInv sq.ns sq.A) j k), this]
  by_cases e : (i : ℕ) = k
  · simp [Fin.ext_iff, e]
  · simp [Fin.ext_iff, e]

theorem Img.left_inv (h : Img sc sq) (hi : isInv sq.ns sq.A (gjInv sq.ns sq.A) = true) (i k : Fin sc.ns) :
    ∑ j : Fin sc.ns, invEnt sq i j * sc.a j k = if i = k then 1 else 0 := by
  have h1 : Matrix.of (fun i j : Fin sc.ns => sc.a i j) * Matrix.of (fun i j : Fin sc.ns => invEnt sq i j) = 1 := by
    ext i k
    rw [Matrix.mul_apply, Matrix.one_apply]
    exact h.right_inv hi i k
  have h3 := _root_.mul_eq_one_comm.mp h1
  have h2 := congrFun (congrFun h3 i) k
  rw [Matrix.mul_apply, Matrix.one_apply] at h2
  exact h2

theorem Img.coer (h : Img sc sq) {ε β : ℚ} (hc : coerOK sq ε β = true) {V : Type} [NormedAddCommGroup V] [InnerProductSpace ℝ V]
    (u : Fin sc.ns → V) :
    ((β : ℝ) - sc.ns * (ε : ℝ)) / 2 * ∑ i, ‖u i‖ ^ 2 ≤ form (fun j k : Fin sc.ns => QS.ev (coerD sq j) * invEnt sq j k) u := by
  simp only [coerOK, Bool.and_eq_true, List.all_eq_true, List.mem_range] at hc
  obtain ⟨h1, h2⟩ := hc
  obtain ⟨W, hW⟩ : ∃ W : Fin sc.ns → ℝ, W = fun i : Fin sc.ns => QS.ev (coerE sq i) + if (i : ℕ) = sq.ns - 1 then 1 else 0 := ⟨_, rfl⟩
  have hsm : ∀ i j : Fin sc.ns, |QS.ev (coerD sq i) * invEnt sq i j + QS.ev (coerD sq j) * invEnt sq j i - if i = j then W i else 0| ≤ ε := by
    intro i j
    have := small_ev (h2 i (by rw [← h.ns]; exact i.2) j (by rw [← h.ns]; exact j.2))
    simp only [map_sub, map_add, map_mul] at this
    have e : QS.ev (if (i : ℕ) = j then coerE sq i + (if (i : ℕ) = sq.ns - 1 then 1 else 0) else 0) = if i = j then W i else 0 := by
      by_cases hij : i = j
      · subst hij
        rw [if_pos rfl, if_pos rfl, hW, map_add]
        congr 1
        split <;> simp
      · rw [if_neg hij, if_neg (fun hc => hij (Fin.ext hc)), map_zero]
    rw [e] at this
    exact this
  have hW0 : ∀ i, (β : ℝ) ≤ W i := by
    intro i
    have := pos_ev (h1 i (by rw [← h.ns]; exact i.2)).2
    rw [map_sub, QS.ev_lit, lit_real] at this
    rw [hW]
    dsimp only
    have : (0 : ℝ) ≤ if (i : ℕ) = sq.ns - 1 then 1 else 0 := by split <;> norm_num
    linarith
  have e1 : form (fun j k : Fin sc.ns => QS.ev (coerD sq j) * invEnt sq j k) u + form (fun j k : Fin sc.ns => QS.ev (coerD sq j) * invEnt sq j k) u =
      form (fun i j : Fin sc.ns => QS.ev (coerD sq i) * invEnt sq i j + QS.ev (coerD sq j) * invEnt sq j i - if i = j then W i else 0) u +
        ∑ i, W i * ‖u i‖ ^ 2 := by
    have q1 := form_sym (fun j k : Fin sc.ns => QS.ev (coerD sq j) * invEnt sq j k) u
    have q2 := form_add (fun j k : Fin sc.ns => QS.ev (coerD sq j) * invEnt sq j k) (fun j k => QS.ev (coerD sq k) * invEnt sq k j) u
    rw [q1] at q2
    rw [← q2, ← form_diag, ← form_add]
    congr 1
    funext i j
    ring
  have e2 := form_small hsm u
  have e3 : (β : ℝ) * ∑ i, ‖u i‖ ^ 2 ≤ ∑ i, W i * ‖u i‖ ^ 2 := by
    rw [Finset.mul_sum]
    exact Finset.sum_le_sum fun i _ => mul_le_mul_of_nonneg_right (hW0 i) (sq_nonneg _)
  have e4 := neg_abs_le (form (fun i j : Fin sc.ns => QS.ev (coerD sq i) * invEnt sq i j + QS.ev (coerD sq j) * invEnt sq j i -
    if i = j then W i else 0) u)
  linarith

/-- the Radau IIA tableaux are stable -/
theorem Img.stable (h : Img sc sq) {ε ε' w β : ℚ} (ha : algOK sq ε w = true) (hc : coerOK sq ε' β = true)
    (hi : isInv sq.ns sq.A (gjInv sq.ns sq.A) = true) (hε : 0 ≤ ε) (hβ : (sc.ns : ℚ) * ε' < β) :
    StableData (fun i j : Fin sc.ns => sc.a i j) (fun i => sc.bw i) (fun i j => invEnt sq i j) (fun j => QS.ev (coerD sq j))
      (((β : ℝ) - sc.ns * (ε' : ℝ)) / 2) (sc.ns * ε) where
  hb := h.weights_nonneg ha
  hε := by have : (0 : ℝ) ≤ ε := by exact_mod_cast hε
           positivity
  hβ := by
    have : ((sc.ns : ℚ) * ε' : ℚ) < ((β : ℚ) : ℝ) := by exact_mod_cast hβ
    push_cast at this
    linarith
  hD := fun j => by
    simp only [coerOK, Bool.and_eq_true, List.all_eq_true, List.mem_range] at hc
    exact pos_ev (hc.1 j (by rw [← h.ns]; exact j.2)).1
  right := h.right_inv hi
  left := h.left_inv hi
  alg := fun V _ _ u => h.alg ha u
  coer := fun V _ _ u => h.coer hc u

end transfer

end Verif
