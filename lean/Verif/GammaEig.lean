import Mathlib.Topology.Order.IntermediateValue
import Mathlib.LinearAlgebra.Matrix.ToLinearEquiv
import Verif.StabilityAll

/-!
# Real eigenvalues of the tableaux, located by interval arithmetic

Helper lemmas for C90.
-/

set_option linter.unusedSectionVars false
set_option autoImplicit false

namespace Verif

/-- bounds of a polynomial on an interval of positive numbers -/
def ivHorner (lo hi : ℚ) : List ℚ → ℚ × ℚ
  | [] => (0, 0)
  | a :: l => match ivHorner lo hi l with
    | (p, r) => (a + min (p * lo) (p * hi), a + max (r * lo) (r * hi))

theorem ivHorner_spec {lo hi : ℚ} (h0 : 0 ≤ lo) {x : ℝ} (h1 : (lo : ℝ) ≤ x) (h2 : x ≤ hi) : ∀ l : List ℚ,
    ((ivHorner lo hi l).1 : ℝ) ≤ horner x (l.map fun q : ℚ => (q : ℝ)) ∧
      horner x (l.map fun q : ℚ => (q : ℝ)) ≤ ((ivHorner lo hi l).2 : ℝ)
  | [] => by simp [ivHorner, horner]
  | a :: l => by
    obtain ⟨i1, i2⟩ := ivHorner_spec h0 h1 h2 l
    have hx : 0 ≤ x := le_trans (by exact_mod_cast h0) h1
    simp only [ivHorner, List.map_cons, horner]
    set y := horner x (l.map fun q : ℚ => (q : ℝ))
    set p := (ivHorner lo hi l).1
    set r := (ivHorner lo hi l).2
    push_cast
    constructor
    · have hb : min ((p : ℝ) * lo) (p * hi) ≤ x * y := by
        refine le_trans ?_ (by nlinarith : (p : ℝ) * x ≤ x * y)
        rcases le_total 0 (p : ℝ) with hp | hp
        · exact (min_le_left _ _).trans (by nlinarith)
        · exact (min_le_right _ _).trans (by nlinarith)
      linarith
    · have hb : x * y ≤ max ((r : ℝ) * lo) (r * hi) := by
        refine le_trans (by nlinarith : x * y ≤ (r : ℝ) * x) ?_
        rcases le_total 0 (r : ℝ) with hp | hp
        · exact le_trans (by nlinarith) (le_max_right _ _)
        · exact le_trans (by nlinarith) (le_max_left _ _)
      linarith

/-- the polynomial has no zero in the interval -/
def ivNe (lo hi : ℚ) (l : List ℚ) : Bool :=
  match ivHorner lo hi l with
  | (p, r) => decide (0 < p) || decide (r < 0)

theorem ivNe_spec {lo hi : ℚ} (h0 : 0 ≤ lo) {x : ℝ} (h1 : (lo : ℝ) ≤ x) (h2 : x ≤ hi) {l : List ℚ} (h : ivNe lo hi l = true) :
    horner x (l.map fun q : ℚ => (q : ℝ)) ≠ 0 := by
  obtain ⟨i1, i2⟩ := ivHorner_spec h0 h1 h2 l
  unfold ivNe at h
  simp only [Bool.or_eq_true, decide_eq_true_eq] at h
  rcases h with h | h
  · have : (0 : ℝ) < (ivHorner lo hi l).1 := by exact_mod_cast h
    exact (lt_of_lt_of_le this i1).ne'
  · have : ((ivHorner lo hi l).2 : ℝ) < 0 := by exact_mod_cast h
    exact (lt_of_le_of_lt i2 this).ne

/-- the same, with the interval cut into `k` pieces -/
def ivNeSub (k : ℕ) (lo hi : ℚ) (l : List ℚ) : Bool :=
  (List.range k).all fun i => ivNe (lo + (hi - lo) / k * i) (lo + (hi - lo) / k * (i + 1)) l

theorem ivNeSub_spec {k : ℕ} (hk : 0 < k) {lo hi : ℚ} (h0 : 0 ≤ lo) {x : ℝ} (h1 : (lo : ℝ) ≤ x) (h2 : x ≤ hi) {l : List ℚ}
    (h : ivNeSub k lo hi l = true) : horner x (l.map fun q : ℚ => (q : ℝ)) ≠ 0 := by
  have hle : (lo : ℝ) ≤ hi := h1.trans h2
  have hle' : lo ≤ hi := by exact_mod_cast hle
  have hk' : (0 : ℝ) < k := by exact_mod_cast hk
  have hkq : (0 : ℚ) < k := by exact_mod_cast hk
  rcases eq_or_lt_of_le hle with he | hlt
  · have hx : x = lo := le_antisymm (by rw [he]; exact h2) h1
    have h' := List.all_eq_true.mp h 0 (List.mem_range.mpr hk)
    have hd : (0 : ℚ) ≤ (hi - lo) / k := div_nonneg (by linarith) hkq.le
    refine ivNe_spec (lo := lo + (hi - lo) / k * (0 : ℕ)) (hi := lo + (hi - lo) / k * ((0 : ℕ) + 1)) (by simpa using h0) ?_ ?_ h'
    · rw [hx]; simp
    · rw [hx]
      have : (lo : ℚ) ≤ lo + (hi - lo) / k * ((0 : ℕ) + 1) := by simpa using hd
      exact_mod_cast this
  · set w : ℝ := ((hi : ℝ) - lo) / k with hw
    have hwpos : 0 < w := div_pos (by linarith) hk'
    -- the piece that contains `x`
    have hmain : ∃ i < k, (lo : ℝ) + w * i ≤ x ∧ x ≤ lo + w * (i + 1) := by
      by_cases hx : x < hi
      · refine ⟨⌊(x - lo) / w⌋₊, ?_, ?_, ?_⟩
        · rw [Nat.floor_lt (div_nonneg (by linarith) hwpos.le), div_lt_iff₀ hwpos, hw]
          field_simp
          linarith
        · have := Nat.floor_le (div_nonneg (by linarith : 0 ≤ x - lo) hwpos.le)
          rw [le_div_iff₀ hwpos] at this
          linarith
        · have := (Nat.lt_floor_add_one ((x - lo) / w)).le
          rw [div_le_iff₀ hwpos] at this
          linarith
      · have hx' : x = hi := le_antisymm h2 (not_lt.mp hx)
        refine ⟨k - 1, by omega, ?_, ?_⟩
        · have e : w * k = hi - lo := by rw [hw]; field_simp
          have : ((k - 1 : ℕ) : ℝ) ≤ k := by exact_mod_cast Nat.sub_le _ _
          nlinarith
        · have e : w * k = hi - lo := by rw [hw]; field_simp
          have : ((k - 1 : ℕ) : ℝ) + 1 = k := by
            rw [Nat.cast_sub hk]; simp
          rw [this, e, hx']; linarith
    obtain ⟨i, hi1, hi2, hi3⟩ := hmain
    have h' := List.all_eq_true.mp h i (List.mem_range.mpr hi1)
    refine ivNe_spec (lo := lo + (hi - lo) / k * (i : ℕ)) (hi := lo + (hi - lo) / k * ((i : ℕ) + 1)) ?_ ?_ ?_ h'
    · have hd : (0 : ℚ) ≤ (hi - lo) / k := div_nonneg (by linarith) hkq.le
      positivity
    · push_cast; exact hi2
    · push_cast; exact hi3

/-- value at a rational point -/
theorem horner_cast (x : ℚ) : ∀ l : List ℚ, horner (x : ℝ) (l.map fun q : ℚ => (q : ℝ)) = ((horner x l : ℚ) : ℝ)
  | [] => by simp [horner]
  | a :: l => by simp only [List.map_cons, horner, horner_cast x l]; push_cast; ring

theorem horner_ofReal (x : ℝ) : ∀ l : List ℚ, horner (x : ℂ) (l.map fun q : ℚ => (q : ℂ)) =
    ((horner x (l.map fun q : ℚ => (q : ℝ)) : ℝ) : ℂ)
  | [] => by simp [horner]
  | a :: l => by simp only [List.map_cons, horner, horner_ofReal x l]; push_cast; ring

theorem continuous_hornerR (l : List ℝ) : Continuous fun z => horner z l := by
  induction l with
  | nil => exact continuous_const
  | cons a l ih => exact continuous_const.add (continuous_id.mul ih)

/-- where the denominator vanishes and the numerator does not, the matrix is singular -/
theorem singular_of_flOK {d : ℕ} {A : List (List ℝ)} {Aq : List (List (QS d))} {bq : List (QS d)} {qs ds : List ℚ}
    (hA : A = Aq.map (List.map QS.ev)) (hok : flOK Aq bq qs ds = true) (z : ℂ)
    (hz : 1 + z * horner z (qs.map fun x : ℚ => (x : ℂ)) = 0) (hd0 : horner z (ds.map fun x : ℚ => (x : ℂ)) ≠ 0) :
    (stabMat bq.length z A).det = 0 := by
  simp only [flOK, Bool.and_eq_true, beq_iff_eq] at hok
  obtain ⟨k1, k2⟩ := hok
  have hM : stabMat bq.length z A = 1 - z • toM bq.length Aq := by
    ext i j
    have : cxEntry A i j = evC (ent Aq i j) := by
      show (((A.getD i []).getD j 0 : ℝ) : ℂ) = ((QS.ev (ent Aq i j) : ℝ) : ℂ)
      rw [hA, ent, show ([] : List ℝ) = List.map (QS.ev (d := d)) [] from rfl, List.getD_map,
        show (0 : ℝ) = QS.ev (0 : QS d) by simp, List.getD_map]
    simp [stabMat, this, toM, Matrix.one_apply]
  have hq : (qs.map fun x : ℚ => (x : ℂ)) = (qs.map fun x => (⟨x, 0⟩ : QS d)).map evC := by
    rw [List.map_map]; refine List.map_congr_left fun x _ => (evC_rat x).symm
  have hd : (ds.map fun x : ℚ => (x : ℂ)) = (ds.map fun x => (⟨x, 0⟩ : QS d)).map evC := by
    rw [List.map_map]; refine List.map_congr_left fun x _ => (evC_rat x).symm
  have hE : flEnd (toM bq.length Aq) ((qs.map fun x => (⟨x, 0⟩ : QS d)).map evC) 1 = 0 := by
    rw [← toM_id, ← toM_end]
    ext i j
    rw [toM, ent_of_all k1]; simp
  have hS := flSum_spec (toM bq.length Aq) z ((qs.map fun x => (⟨x, 0⟩ : QS d)).map evC) 1
  rw [hE, smul_zero, add_zero] at hS
  have hD := flDots_spec (toM bq.length Aq) z (fun i => evC (bq.getD i 0)) ((qs.map fun x => (⟨x, 0⟩ : QS d)).map evC) 1
  rw [← toM_id, ← toM_dots, k2, toM_id, ← hd] at hD
  rw [← hq] at hS hD
  by_contra hne
  have hu : IsUnit (1 - z • toM bq.length Aq) := by
    rw [Matrix.isUnit_iff_isUnit_det, ← hM]; exact isUnit_iff_ne_zero.mpr hne
  have h0 : (1 - z • toM bq.length Aq) * flSum (toM bq.length Aq) z (qs.map fun x : ℚ => (x : ℂ)) 1 = 0 := by
    rw [hS]
    have : (1 : Matrix (Fin bq.length) (Fin bq.length) ℂ) + (z * horner z (qs.map fun x : ℚ => (x : ℂ))) • 1 =
        (1 + z * horner z (qs.map fun x : ℚ => (x : ℂ))) • 1 := by rw [add_smul, one_smul]
    rw [this, hz, zero_smul]
  have hS0 := hu.mul_right_eq_zero.mp h0
  apply hd0
  rw [← hD, hS0]
  simp

/-- `λ` is a real eigenvalue of the matrix of the tableau -/
def IsEigenvalue (sc : SolverCoeffs ℝ) (l : ℝ) : Prop :=
  ∃ v : Fin sc.ns → ℝ, v ≠ 0 ∧ ∀ i : Fin sc.ns, ∑ j : Fin sc.ns, sc.a i j * v j = l * v i

/-- eigenvalues and singular matrices `I - z A` -/
theorem eigen_iff {sc : SolverCoeffs ℝ} {l : ℝ} (hl : l ≠ 0) :
    IsEigenvalue sc l ↔ (stabMat sc.ns ((l⁻¹ : ℝ) : ℂ) sc.A).det = 0 := by
  let M : Matrix (Fin sc.ns) (Fin sc.ns) ℝ := fun i j => (if i = j then 1 else 0) - l⁻¹ * sc.a i j
  have hM : stabMat sc.ns ((l⁻¹ : ℝ) : ℂ) sc.A = M.map Complex.ofRealHom := by
    ext i j
    show (if i = j then 1 else 0) - ((l⁻¹ : ℝ) : ℂ) * cxEntry sc.A i j = (((if i = j then 1 else 0) - l⁻¹ * sc.a i j : ℝ) : ℂ)
    simp only [cxEntry, SolverCoeffs.a, lit_real, Rat.cast_zero]
    by_cases h : i = j <;> simp [h]
  have hdet : (stabMat sc.ns ((l⁻¹ : ℝ) : ℂ) sc.A).det = ((M.det : ℝ) : ℂ) := by
    rw [hM]
    exact (RingHom.map_det Complex.ofRealHom M).symm
  rw [hdet, Complex.ofReal_eq_zero, ← Matrix.exists_mulVec_eq_zero_iff]
  unfold IsEigenvalue
  refine exists_congr fun v => and_congr_right fun _ => ?_
  rw [funext_iff]
  refine forall_congr' fun i => ?_
  have e2 : M.mulVec v i = v i - l⁻¹ * ∑ j : Fin sc.ns, sc.a i j * v j := by
    simp only [Matrix.mulVec, dotProduct, M, sub_mul, Finset.sum_sub_distrib, ite_mul, one_mul, zero_mul,
      Finset.sum_ite_eq, Finset.mem_univ, if_true, Finset.mul_sum, mul_assoc]
  rw [e2, Pi.zero_apply, sub_eq_zero]
  constructor
  · intro h; rw [h]; field_simp
  · intro h; rw [h]; field_simp

/-- the exact value of `gamma` as a fraction -/
def gammaQ (m : ℤ) : ℚ := (irkCoeffs m : SolverCoeffs (QS (rootOf m))).gamma.re

/-- a sign change of the denominator and a numerator without zeros near `1 / gamma` -/
def nearOK (m : ℤ) (e : ℚ) : Bool :=
  decide ((irkCoeffs m : SolverCoeffs (QS (rootOf m))).gamma.im = 0) && decide (0 < e) && decide (e < gammaQ m) &&
    decide (horner (1 / (gammaQ m - e)) (denAll m) * horner (1 / (gammaQ m + e)) (denAll m) < 0) &&
    ivNe (1 / (gammaQ m + e)) (1 / (gammaQ m - e)) (numTail m)

/-- no zero of the denominator near `1 / gamma` -/
def farOK (k : ℕ) (m : ℤ) (e : ℚ) : Bool :=
  decide ((irkCoeffs m : SolverCoeffs (QS (rootOf m))).gamma.im = 0) && decide (0 < e) && decide (e < gammaQ m) &&
    ivNeSub (k + 1) (1 / (gammaQ m + e)) (1 / (gammaQ m - e)) (denAll m)

theorem gamma_eq {m : ℤ} (hm : m ∈ irkImplemented) (h : (irkCoeffs m : SolverCoeffs (QS (rootOf m))).gamma.im = 0) :
    (irkCoeffs m : SolverCoeffs ℝ).gamma = (gammaQ m : ℝ) := by
  rw [(img_shipped hm).gamma]
  show ((_ : ℚ) : ℝ) + ((_ : ℚ) : ℝ) * _ = _
  rw [h]
  simp [gammaQ]

theorem denR {m : ℤ} (x : ℝ) : denOf m x = ((horner x ((denAll m).map fun q : ℚ => (q : ℝ)) : ℝ) : ℂ) := by
  rw [denOf, horner_ofReal]

/-- an eigenvalue near `gamma` -/
theorem near_spec {m : ℤ} (hm : m ∈ irkImplemented) {e : ℚ} (h : nearOK m e = true) :
    ∃ l : ℝ, |l - (irkCoeffs m : SolverCoeffs ℝ).gamma| ≤ e ∧ IsEigenvalue (irkCoeffs m) l := by
  simp only [nearOK, Bool.and_eq_true, decide_eq_true_eq] at h
  obtain ⟨⟨⟨⟨h1, h2⟩, h3⟩, h4⟩, h5⟩ := h
  rw [gamma_eq hm h1]
  have h2' : (0 : ℝ) < e := by exact_mod_cast h2
  have h3' : (e : ℝ) < gammaQ m := by exact_mod_cast h3
  have hab : (1 : ℝ) / (gammaQ m + e) ≤ 1 / (gammaQ m - e) := one_div_le_one_div_of_le (by linarith) (by linarith)
  set f : ℝ → ℝ := fun x => horner x ((denAll m).map fun q : ℚ => (q : ℝ)) with hf
  have hcont : ContinuousOn f (Set.Icc (1 / (gammaQ m + e) : ℝ) (1 / (gammaQ m - e))) := (continuous_hornerR _).continuousOn
  have hsign : f (1 / (gammaQ m - e)) * f (1 / (gammaQ m + e)) < 0 := by
    have e1 := horner_cast (1 / (gammaQ m - e)) (denAll m)
    have e2 := horner_cast (1 / (gammaQ m + e)) (denAll m)
    push_cast at e1 e2
    simp only [hf]
    rw [e1, e2]
    exact_mod_cast h4
  obtain ⟨z, hz, hz0⟩ : ∃ z ∈ Set.Icc (1 / (gammaQ m + e) : ℝ) (1 / (gammaQ m - e)), f z = 0 := by
    rcases mul_neg_iff.mp hsign with ⟨a, b⟩ | ⟨a, b⟩
    · exact intermediate_value_Icc hab hcont ⟨b.le, a.le⟩
    · exact intermediate_value_Icc' hab hcont ⟨a.le, b.le⟩
  have hzpos : 0 < z := lt_of_lt_of_le (by have : (0 : ℝ) < gammaQ m + e := by linarith
                                           positivity) hz.1
  refine ⟨z⁻¹, ?_, ?_⟩
  · have u1 : z⁻¹ ≤ gammaQ m + e := by
      rw [inv_le_comm₀ hzpos (by linarith), ← one_div]; exact hz.1
    have u2 : (gammaQ m : ℝ) - e ≤ z⁻¹ := by
      rw [le_inv_comm₀ (by linarith) hzpos, ← one_div]; exact hz.2
    exact abs_le.mpr ⟨by linarith, by linarith⟩
  · rw [eigen_iff (inv_ne_zero hzpos.ne'), inv_inv]
    have hok := allOK_shipped m hm
    simp only [allOK, Bool.and_eq_true, beq_iff_eq] at hok
    obtain ⟨⟨⟨⟨k1, k2⟩, k3⟩, -⟩, -⟩ := hok
    have img := img_shipped hm
    have hns : (irkCoeffs m : SolverCoeffs ℝ).ns = (irkCoeffs m : SolverCoeffs (QS (rootOf m))).b.length := by
      show (irkCoeffs m : SolverCoeffs ℝ).b.length = _
      rw [img.b]; simp
    rw [hns]
    refine singular_of_flOK img.A k3 _ ?_ ?_
    · have hd : denOf m z = 1 + z * horner (z : ℂ) ((denTail m).map fun x : ℚ => (x : ℂ)) := by
        simp [denOf, denAll, horner]
      rw [← hd, denR]
      exact_mod_cast hz0
    · rw [horner_ofReal]
      have := ivNe_spec (lo := 1 / (gammaQ m + e)) (hi := 1 / (gammaQ m - e)) (x := z) (by
        have : 0 < gammaQ m + e := by linarith
        positivity) (by push_cast; exact hz.1) (by push_cast; exact hz.2) h5
      exact_mod_cast this

/-- no eigenvalue near `gamma` -/
theorem far_spec {k : ℕ} {m : ℤ} (hm : m ∈ irkImplemented) {e : ℚ} (h : farOK k m e = true) {l : ℝ}
    (hl : |l - (irkCoeffs m : SolverCoeffs ℝ).gamma| ≤ e) : ¬ IsEigenvalue (irkCoeffs m) l := by
  simp only [farOK, Bool.and_eq_true, decide_eq_true_eq] at h
  obtain ⟨⟨⟨h1, h2⟩, h3⟩, h5⟩ := h
  rw [gamma_eq hm h1] at hl
  have h2' : (0 : ℝ) < e := by exact_mod_cast h2
  have h3' : (e : ℝ) < gammaQ m := by exact_mod_cast h3
  obtain ⟨a1, a2⟩ := abs_le.mp hl
  have hlpos : 0 < l := by linarith
  rw [eigen_iff hlpos.ne']
  have hne : denOf m ((l⁻¹ : ℝ) : ℂ) ≠ 0 := by
    rw [denR]
    have := ivNeSub_spec (k := k + 1) (Nat.succ_pos k) (lo := 1 / (gammaQ m + e)) (hi := 1 / (gammaQ m - e)) (x := l⁻¹) (by
        have : 0 < gammaQ m + e := by linarith
        positivity) (by
          push_cast
          rw [one_div]
          exact inv_anti₀ hlpos (by linarith)) (by
          push_cast
          rw [one_div]
          exact inv_anti₀ (by linarith) (by linarith)) h5
    exact_mod_cast this
  intro h0
  have hs := stab_all hm hne
  unfold stabilityFunction at hs
  simp only at hs
  change (stabMat (irkCoeffs m : SolverCoeffs ℝ).b.length _ _).det = 0 at h0
  split at hs
  · cases hs
  · simp at hs

end Verif
