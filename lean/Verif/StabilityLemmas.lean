import Verif.Stability
import Verif.IrkShipped
import Mathlib.Tactic.Module
import Mathlib.Tactic.NoncommRing

/-!
# The stability function as a rational function

`(I - zA)⁻¹` by the Faddeev–LeVerrier recursion: with `B₀ = I`, `B_k = A B_{k-1} + q_k I` and
`A B_{s-1} + q_s I = 0` one has `(I - zA) Σ z^k B_k = (1 + Σ q_k z^k) I`.  The recursion is evaluated in `ℚ(√d)`.
-/

set_option linter.unusedSectionVars false

namespace Verif

/-- polynomial with coefficients `l`, lowest first -/
def horner {R : Type} [Add R] [Mul R] [Zero R] (z : R) : List R → R
  | [] => 0
  | q :: qs => q + z * horner z qs

section matrices
variable {s : ℕ} (A : Matrix (Fin s) (Fin s) ℂ) (z : ℂ)

/-- `Σ z^k B_k` -/
def flSum : List ℂ → Matrix (Fin s) (Fin s) ℂ → Matrix (Fin s) (Fin s) ℂ
  | [], _ => 0
  | q :: qs, B => B + z • flSum qs (A * B + q • 1)

/-- the last matrix of the recursion -/
def flEnd : List ℂ → Matrix (Fin s) (Fin s) ℂ → Matrix (Fin s) (Fin s) ℂ
  | [], B => B
  | q :: qs, B => flEnd qs (A * B + q • 1)

theorem flSum_spec (qs : List ℂ) (B : Matrix (Fin s) (Fin s) ℂ) :
    (1 - z • A) * flSum A z qs B + z ^ qs.length • flEnd A qs B = B + (z * horner z qs) • 1 := by
  induction qs generalizing B with
  | nil => simp [flSum, flEnd, horner]
  | cons q qs ih =>
    have h := ih (A * B + q • 1)
    simp only [flSum, flEnd, horner, List.length_cons, pow_succ']
    have e : (1 - z • A) * (B + z • flSum A z qs (A * B + q • 1)) + (z * z ^ qs.length) • flEnd A qs (A * B + q • 1) =
        (1 - z • A) * B + z • ((1 - z • A) * flSum A z qs (A * B + q • 1) +
          z ^ qs.length • flEnd A qs (A * B + q • 1)) := by
      rw [mul_add, smul_add, Matrix.mul_smul, mul_smul, add_assoc]
    rw [e, h, sub_mul, one_mul, Matrix.smul_mul]
    module

/-- `bᵀ B e` for all matrices of the recursion -/
def flDots (b : Fin s → ℂ) : List ℂ → Matrix (Fin s) (Fin s) ℂ → List ℂ
  | [], _ => []
  | q :: qs, B => (∑ i, b i * ∑ j, B i j) :: flDots b qs (A * B + q • 1)

theorem flDots_spec (b : Fin s → ℂ) (qs : List ℂ) (B : Matrix (Fin s) (Fin s) ℂ) :
    ∑ i, b i * ∑ j, flSum A z qs B i j = horner z (flDots A b qs B) := by
  induction qs generalizing B with
  | nil => simp [flSum, flDots, horner]
  | cons q qs ih =>
    simp only [flSum, flDots, horner, ← ih (A * B + q • 1), Matrix.add_apply, Matrix.smul_apply, smul_eq_mul,
      Finset.sum_add_distrib, mul_add, Finset.mul_sum]
    congr 1
    refine Finset.sum_congr rfl fun i _ => Finset.sum_congr rfl fun j _ => ?_
    ring

end matrices

section lists
variable {R : Type} [CommRing R]

/-- `A B + q I` with matrices given by rows -/
def flStep (s : ℕ) (A : List (List R)) (q : R) (B : List (List R)) : List (List R) :=
  (List.range s).map fun i => (List.range s).map fun k =>
    sumR s (fun j => ent A i j * ent B j k) + if i = k then q else 0

def idL (s : ℕ) : List (List R) := (List.range s).map fun i => (List.range s).map fun k => if i = k then 1 else 0

def flEndL (s : ℕ) (A : List (List R)) : List R → List (List R) → List (List R)
  | [], B => B
  | q :: qs, B => flEndL s A qs (flStep s A q B)

def flDotsL (s : ℕ) (A : List (List R)) (b : List R) : List R → List (List R) → List R
  | [], _ => []
  | q :: qs, B => sumR s (fun i => b.getD i 0 * sumR s fun j => ent B i j) :: flDotsL s A b qs (flStep s A q B)

theorem ent_tab (s : ℕ) (g : ℕ → ℕ → R) (i j : Fin s) :
    ent ((List.range s).map fun i => (List.range s).map fun k => g i k) i j = g i j := by
  simp [ent, List.getD_eq_getElem?_getD]

end lists

section transfer
variable {d s : ℕ}

/-- the real number as a complex number -/
noncomputable def evC : QS d →+* ℂ := (algebraMap ℝ ℂ).comp QS.ev

/-- the complex matrix -/
noncomputable def toM (s : ℕ) (B : List (List (QS d))) : Matrix (Fin s) (Fin s) ℂ := fun i j => evC (ent B i j)

theorem toM_step (A B : List (List (QS d))) (q : QS d) :
    toM s (flStep s A q B) = toM s A * toM s B + evC q • 1 := by
  ext i k
  rw [toM, flStep, ent_tab s (fun i k => sumR s (fun j => ent A i j * ent B j k) + if i = k then q else 0)]
  rw [sumR_eq, map_add, map_sum]
  simp only [map_mul, Matrix.add_apply, Matrix.mul_apply, toM, Matrix.smul_apply, Matrix.one_apply, smul_eq_mul]
  congr 1
  by_cases h : i = k
  · simp [h]
  · simp [h, Fin.val_inj]

theorem toM_id : toM (d := d) s (idL s) = 1 := by
  ext i k
  rw [toM, idL, ent_tab s (fun i k => if i = k then (1 : QS d) else 0), Matrix.one_apply]
  by_cases h : i = k
  · simp [h]
  · simp [h, Fin.val_inj]

theorem toM_end (A : List (List (QS d))) (qs : List (QS d)) (B : List (List (QS d))) :
    toM s (flEndL s A qs B) = flEnd (toM s A) (qs.map evC) (toM s B) := by
  induction qs generalizing B with
  | nil => rfl
  | cons q qs ih => rw [flEndL, ih, toM_step]; rfl

theorem toM_dots (A : List (List (QS d))) (b : List (QS d)) (qs : List (QS d)) (B : List (List (QS d))) :
    (flDotsL s A b qs B).map evC = flDots (toM s A) (fun i => evC (b.getD i 0)) (qs.map evC) (toM s B) := by
  induction qs generalizing B with
  | nil => rfl
  | cons q qs ih =>
    simp only [flDotsL, List.map_cons, flDots, ih, toM_step]
    congr 1
    rw [sumR_eq, map_sum]
    refine Finset.sum_congr rfl fun i _ => ?_
    rw [map_mul, sumR_eq, map_sum]
    rfl

/-- The recursion with coefficients `qs` ends in the zero matrix, and `bᵀ B_k e` are the `ds`. -/
def flOK [DecidableEq (QS d)] (A : List (List (QS d))) (b : List (QS d)) (qs ds : List ℚ) : Bool :=
  let q : List (QS d) := qs.map fun x => ⟨x, 0⟩
  (flEndL b.length A q (idL b.length)).all (fun r => r.all (· == 0)) &&
    flDotsL b.length A b q (idL b.length) == ds.map fun x => ⟨x, 0⟩

theorem evC_rat (x : ℚ) : evC (⟨x, 0⟩ : QS d) = (x : ℂ) := by
  show ((QS.ev (⟨x, 0⟩ : QS d) : ℝ) : ℂ) = _
  have : QS.ev (⟨x, 0⟩ : QS d) = (x : ℝ) := by
    show ((x : ℚ) : ℝ) + ((0 : ℚ) : ℝ) * _ = (x : ℝ)
    simp
  rw [this]; simp

theorem ent_of_all {B : List (List (QS d))} (h : B.all (fun r => r.all (· == 0)) = true) (i j : ℕ) : ent B i j = 0 := by
  simp only [List.all_eq_true, beq_iff_eq] at h
  rw [ent, List.getD_eq_getElem?_getD, List.getD_eq_getElem?_getD]
  cases hi : B[i]? with
  | none => simp
  | some r =>
    simp only [Option.getD_some]
    cases hj : r[j]? with
    | none => simp
    | some x => simpa using h r (List.mem_of_getElem? hi) x (List.mem_of_getElem? hj)

/-- Where the denominator is not zero the stability function returns the quotient. -/
theorem stab_of_flOK {A : List (List ℝ)} {b : List ℝ} {Aq : List (List (QS d))} {bq : List (QS d)} {qs ds : List ℚ}
    (hA : A = Aq.map (List.map QS.ev)) (hb : b = bq.map QS.ev) (h1 : Aq.length = bq.length)
    (h2 : (Aq.headD []).length = bq.length) (hok : flOK Aq bq qs ds = true) (z : ℂ)
    (hz : 1 + z * horner z (qs.map fun x : ℚ => (x : ℂ)) ≠ 0) :
    stabilityFunction z A b = .ret (1 + z * (horner z (ds.map fun x : ℚ => (x : ℂ)) /
      (1 + z * horner z (qs.map fun x : ℚ => (x : ℂ))))) := by
  simp only [flOK, Bool.and_eq_true, beq_iff_eq] at hok
  obtain ⟨k1, k2⟩ := hok
  have hlen : b.length = bq.length := by rw [hb]; simp
  have hM : stabMat bq.length z A = 1 - z • toM bq.length Aq := by
    ext i j
    have : cxEntry A i j = evC (ent Aq i j) := by
      show (((A.getD i []).getD j 0 : ℝ) : ℂ) = ((QS.ev (ent Aq i j) : ℝ) : ℂ)
      rw [hA, ent, show ([] : List ℝ) = List.map (QS.ev (d := d)) [] from rfl, List.getD_map,
        show (0 : ℝ) = QS.ev (0 : QS d) by simp, List.getD_map]
    simp [stabMat, this, toM, Matrix.one_apply]
  have hq : (qs.map fun x : ℚ => (x : ℂ)) = (qs.map fun x => (⟨x, 0⟩ : QS d)).map evC := by
    rw [List.map_map]; refine List.map_congr_left fun x _ => (evC_rat x).symm
  have hd : (ds.map fun x : ℚ => (x : ℂ)) = (ds.map fun x => (⟨x, 0⟩ : QS d)).map evC := by
    rw [List.map_map]; refine List.map_congr_left fun x _ => (evC_rat x).symm
  have hE : flEnd (toM bq.length Aq) ((qs.map fun x => (⟨x, 0⟩ : QS d)).map evC) 1 = 0 := by
    rw [← toM_id, ← toM_end]
    ext i j
    rw [toM, ent_of_all k1]; simp
  have hS := flSum_spec (toM bq.length Aq) z ((qs.map fun x => (⟨x, 0⟩ : QS d)).map evC) 1
  rw [hE, smul_zero, add_zero] at hS
  have hD := flDots_spec (toM bq.length Aq) z (fun i => evC (bq.getD i 0)) ((qs.map fun x => (⟨x, 0⟩ : QS d)).map evC) 1
  rw [← toM_id, ← toM_dots, k2, toM_id, ← hd] at hD
  rw [← hq] at hS hD
  set Q := 1 + z * horner z (qs.map fun x : ℚ => (x : ℂ)) with hQ
  set S := flSum (toM bq.length Aq) z (qs.map fun x : ℚ => (x : ℂ)) 1 with hSdef
  have hS' : (1 - z • toM bq.length Aq) * (Q⁻¹ • S) = 1 := by
    rw [Matrix.mul_smul, hS, ← one_smul ℂ (1 : Matrix (Fin bq.length) (Fin bq.length) ℂ), smul_smul, ← add_smul,
      smul_smul, mul_one, ← hQ, inv_mul_cancel₀ hz]
  have hdet := Matrix.isUnit_det_of_right_inverse hS'
  have hinv : (1 - z • toM bq.length Aq)⁻¹ = Q⁻¹ • S := Matrix.inv_eq_right_inv hS'
  unfold stabilityFunction
  simp only
  have hbw : ∀ i, ((b.getD i 0 : ℝ) : ℂ) = evC (bq.getD i 0) := by
    intro i
    rw [hb, show (0 : ℝ) = QS.ev (0 : QS d) by simp, List.getD_map]; rfl
  have hcols : (A.headD []).length = bq.length := by
    rw [← h2, hA]; cases Aq <;> simp
  rw [if_neg (by rw [hlen, hcols, hA, List.length_map, h1]; simp)]
  have key : ∀ N, N = bq.length → (stabMat N z A).det ≠ 0 ∧ ∑ i : Fin N, ((b.getD i 0 : ℝ) : ℂ) *
      ∑ j, (stabMat N z A)⁻¹ i j * 1 = horner z (ds.map fun x : ℚ => (x : ℂ)) / Q := by
    rintro N rfl
    rw [hM]
    refine ⟨hdet.ne_zero, ?_⟩
    rw [hinv, ← hD, Finset.sum_div]
    refine Finset.sum_congr rfl fun i _ => ?_
    rw [hbw, mul_div_assoc, Finset.sum_div]
    congr 1
    refine Finset.sum_congr rfl fun j _ => ?_
    rw [Matrix.smul_apply, smul_eq_mul, mul_one, div_eq_inv_mul]
  obtain ⟨e1, e2⟩ := key b.length hlen
  rw [if_neg e1, e2]

end transfer
end Verif
