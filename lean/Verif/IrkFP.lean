import Verif.IrkReal
import Verif.FloatInst
import Verif.Prop.ErkFP

/-!
# The sign bit in binary64, and the step sizes of the implicit integrator

Lemmas for `Verif.Prop.IrkFP`.
-/

set_option linter.unusedSectionVars false

namespace Verif
open FP

/-! ### the sign bit -/

theorem isNeg_rnd {q : ℚ} (hq : 0 ≤ q) : (rnd false q).isNeg = false := by
  rcases rnd_spec false q with ⟨h1, h2, -⟩ | ⟨h, -⟩
  · cases hr : rnd false q with
    | nan => rfl
    | inf b => rw [hr] at h1; cases h1
    | negZero =>
      exfalso
      unfold rnd at hr
      simp only at hr
      split_ifs at hr <;> simp [zeroS] at hr
      exact absurd hr (not_lt.mpr hq)
    | fin r =>
      rw [hr] at h2
      simp only [val] at h2
      have := rnQ_nonneg hq
      simp only [isNeg, decide_eq_false_iff_not, not_lt]
      rw [h2]; exact this
  · rw [h]
    simp [isNeg, hq]

theorem val_nonneg {x : FP} (h : x.isNeg = false) : 0 ≤ x.val := by
  cases x with
  | fin q => exact not_lt.mp (of_decide_eq_false h)
  | _ => simp [val]

theorem isNeg_mul {x y : FP} (hx : x.isNeg = false) (hy : y.isNeg = false) : (x * y).isNeg = false := by
  have h := mul_nonneg (val_nonneg hx) (val_nonneg hy)
  show (FP.mul x y).isNeg = false
  unfold FP.mul
  split
  · rfl
  · rfl
  · simp_all [isNeg]
  · split_ifs
    · rfl
    · simp_all [isNeg]
  · split_ifs
    · rfl
    · simp_all [isNeg]
  · rw [hx, hy]; exact isNeg_rnd h

/-- a square has no sign bit -/
theorem isNeg_sq (x : FP) : (x * x).isNeg = false := by
  cases x with
  | nan => rfl
  | inf b => cases b <;> rfl
  | negZero =>
    show (rnd false (0 * 0)).isNeg = false
    exact isNeg_rnd (by norm_num)
  | fin q =>
    show (rnd (xor (fin q).isNeg (fin q).isNeg) (q * q)).isNeg = false
    rw [Bool.xor_self]
    exact isNeg_rnd (mul_self_nonneg q)

theorem isNeg_div {x y : FP} (hx : x.isNeg = false) (hy : y.isNeg = false) : (x / y).isNeg = false := by
  have h := div_nonneg (val_nonneg hx) (val_nonneg hy)
  show (FP.div x y).isNeg = false
  unfold FP.div
  split
  · rfl
  · rfl
  · rfl
  · simp_all [isNeg]
  · simp_all [isNeg, zeroS]
  · split_ifs
    · rfl
    · simp_all [isNeg]
    · rw [hx, hy]; exact isNeg_rnd h

theorem isNeg_add {x y : FP} (hx : x.isNeg = false) (hy : y.isNeg = false) : (x + y).isNeg = false := by
  have h := add_nonneg (val_nonneg hx) (val_nonneg hy)
  show (FP.add x y).isNeg = false
  unfold FP.add
  split
  · rfl
  · rfl
  · simp_all [isNeg]
  · simp_all [isNeg]
  · simp_all [isNeg]
  · simp_all [isNeg]
  · exact isNeg_rnd h

theorem isNeg_sqrt {x : FP} (hx : x.isNeg = false) : (FP.sqrt x).isNeg = false := by
  cases x with
  | nan => rfl
  | inf b => cases b <;> simp_all [isNeg, FP.sqrt]
  | negZero => simp [isNeg] at hx
  | fin q =>
    unfold FP.sqrt
    simp only
    split_ifs
    · rfl
    · rfl
    · unfold sqrtQ
      exact isNeg_rnd (by positivity)

theorem isNeg_lit [Libm] {q : ℚ} (hq : 0 ≤ q) : (lit q : FP).isNeg = false := isNeg_rnd hq

theorem isNeg_cmin [Libm] {x y : FP} (hx : x.isNeg = false) (hy : y.isNeg = false) : (cmin x y).isNeg = false := by
  unfold cmin; split_ifs <;> assumption

/-- a number without sign bit is NaN or not negative -/
theorem le_of_isNeg {x : FP} (h : x.isNeg = false) (hn : x ≠ nan) : le (fin 0) x = true := by
  cases x with
  | nan => exact absurd rfl hn
  | inf b => cases b <;> simp_all [isNeg, FP.le, lt]
  | negZero => simp [isNeg] at h
  | fin q =>
    rw [le_fin_iff rfl rfl]
    exact val_nonneg h

/-- `FP.isNeg x = false` for the numbers which `fpArith` allows as bases of `pow` -/
theorem isNeg_iff {x : FP} : x.isNeg = false ↔ x ≠ negZero ∧ lt x (fin 0) = false := by
  cases x with
  | nan => simp [isNeg, lt]
  | inf b => simp [isNeg, lt]
  | negZero => simp [isNeg]
  | fin q => exact ⟨fun h => ⟨by simp, h⟩, fun h => h.2⟩

/-- a `pow` that gives no sign bit to the power of a number without sign bit meets the condition of `fpArith` -/
theorem hpow_of_sign [Libm] (hpow : ∀ x y, x.isNeg = false → (Libm.pow x y).isNeg = false) :
    ∀ x y, x ≠ negZero → lt x (fin 0) = false → lt (Libm.pow x y) (fin 0) = false :=
  fun x y h1 h2 => (isNeg_iff.mp (hpow x y (isNeg_iff.mpr ⟨h1, h2⟩))).2

section
variable [Libm] {n : ℕ}

/-- the error norm has no sign bit -/
theorem isNeg_errNorm (m : ℕ) {et : FP} (h : et.isNeg = false) : (errNorm m et).isNeg = false := by
  unfold errNorm
  simp only
  split_ifs
  · exact isNeg_lit (by norm_num)
  · exact isNeg_sqrt (isNeg_div h (isNeg_lit (by positivity)))

/-- the sum of squares has no sign bit -/
theorem isNeg_errTot (o : ErkOpts FP) (y yn e : Vec FP n) : (errTot o y yn e).isNeg = false := by
  unfold errTot
  have : ∀ (l : List (Fin n)) (z : FP), z.isNeg = false → (l.foldl (fun acc i =>
      let sci := o.absTol + o.relTol * cmax (sabs (y i)) (sabs (yn i))
      let add := e i / sci
      acc + add * add) z).isNeg = false := by
    intro l
    induction l with
    | nil => exact fun z hz => hz
    | cons a l ih => exact fun z hz => ih _ (isNeg_add hz (isNeg_sq _))
  exact this _ _ (isNeg_lit le_rfl)

variable {o : IrkOpts FP} {mo iters : ℕ} {maxit : ℤ} {dt err e0 e1 d0 d1 : FP}

/-- the proposal before `max_dt` is applied (irk.hpp 771-796) -/
def proposalFP (mo : ℕ) (dt err errs0 errs1 dts0 dts1 : FP) (maxit : ℤ) (iters : ℕ) : FP :=
  lit (9/10) * (lit (maxit : ℚ) + lit 1) / lit ((maxit + iters : ℤ) : ℚ) * dt *
    cmin (lit 8) (cmin (spow (lit 1 / err) (lit 1 / (lit 1 + lit (mo : ℚ))))
      (spow (lit 1 / err) (lit 1 / (lit 1 + lit (mo : ℚ))) * (dts0 / dts1) *
        spow (if eqb errs1 (lit 0) || eqb errs0 (lit 0) then lit 1 else errs1 / errs0) (lit 1 / (lit 1 + lit (mo : ℚ)))))

theorem newDtI_fp : newDtI o mo dt err e0 e1 d0 d1 maxit iters =
    if lt (fin 0) o.maxDt then cmin o.maxDt (proposalFP mo dt err e0 e1 d0 d1 maxit iters)
    else proposalFP mo dt err e0 e1 d0 d1 maxit iters := rfl

theorem isNeg_scale (hpow : ∀ x y, x.isNeg = false → (Libm.pow x y).isNeg = false) (he : err.isNeg = false) (he0 : e0.isNeg = false)
    (he1 : e1.isNeg = false) (hd0 : d0.isNeg = false) (hd1 : d1.isNeg = false) (x : FP) :
    (cmin (lit 8) (cmin (spow (lit 1 / err) x) (spow (lit 1 / err) x * (d0 / d1) *
        spow (if eqb e1 (lit 0) || eqb e0 (lit 0) then lit 1 else e1 / e0) x)) : FP).isNeg = false := by
  have h1 : (lit 1 : FP).isNeg = false := isNeg_lit zero_le_one
  have hs : (spow (lit 1 / err) x : FP).isNeg = false := hpow _ _ (isNeg_div h1 he)
  refine isNeg_cmin (isNeg_lit (by norm_num)) (isNeg_cmin hs (isNeg_mul (isNeg_mul hs (isNeg_div hd0 hd1)) (hpow _ _ ?_)))
  split_ifs
  · exact h1
  · exact isNeg_div he1 he0

theorem isNeg_proposal (hpow : ∀ x y, x.isNeg = false → (Libm.pow x y).isNeg = false) (hdt : dt.isNeg = false) (he : err.isNeg = false)
    (he0 : e0.isNeg = false) (he1 : e1.isNeg = false) (hd0 : d0.isNeg = false) (hd1 : d1.isNeg = false) (hm : 0 ≤ maxit) :
    (proposalFP mo dt err e0 e1 d0 d1 maxit iters).isNeg = false := by
  unfold proposalFP
  refine isNeg_mul (isNeg_mul (isNeg_div (isNeg_mul (isNeg_lit (by norm_num)) (isNeg_add (isNeg_lit ?_) (isNeg_lit zero_le_one))) (isNeg_lit ?_)) hdt)
    (isNeg_scale hpow he he0 he1 hd0 hd1 _)
  · exact_mod_cast hm
  · have : (0 : ℤ) ≤ maxit + iters := by positivity
    exact_mod_cast this

/-- integers below `2^53` are exact -/
theorem lit_int {k : ℤ} (h0 : 0 ≤ k) (hk : k ≤ 2 ^ 53) : (lit (k : ℚ) : FP) = fin k := by
  have e := rnQ_of_mult (m := k) (e := 0) (by norm_num) (by rw [abs_of_nonneg h0]; exact hk)
  simp only [zpow_zero, mul_one] at e
  have hq : |(((k : ℚ) : ℝ))| ≤ 2 ^ 1023 := by
    have h1 : ((k : ℤ) : ℝ) ≤ 2 ^ 53 := by exact_mod_cast hk
    have h2 : (0 : ℝ) ≤ (k : ℝ) := by exact_mod_cast h0
    rw [Rat.cast_intCast, abs_of_nonneg h2]
    exact h1.trans (pow_le_pow_right₀ (by norm_num) (by norm_num))
  obtain ⟨r1, -, r3⟩ := rnd_float false hq
  have hs := isNeg_rnd (q := (k : ℚ)) (by exact_mod_cast h0)
  show rnd false (k : ℚ) = fin k
  rw [e] at r3
  cases hr : rnd false (k : ℚ) with
  | nan => rw [hr] at r1; cases r1
  | inf b => rw [hr] at r1; cases r1
  | negZero => rw [hr] at hs; cases hs
  | fin r => rw [hr] at r3; simp only [val] at r3; rw [r3]

/-- a rounded number between zero and a double is a number between zero and that double -/
theorem rnd_le {b : Bool} {q r : ℚ} (h0 : 0 ≤ q) (hr : rnQ r = r) (hb : |r| < 2 ^ (1024 : ℤ)) (h : q ≤ r) :
    (rnd b q).isFinite = true ∧ 0 ≤ (rnd b q).val ∧ (rnd b q).val ≤ r := by
  have h1 := rnQ_nonneg h0
  have h2 := rnQ_mono h
  rw [hr] at h2
  rcases rnd_spec b q with ⟨k1, k2, -⟩ | ⟨-, k2⟩
  · exact ⟨k1, by rw [k2]; exact h1, by rw [k2]; exact h2⟩
  · exfalso
    rw [abs_of_nonneg h1] at k2
    rw [abs_of_nonneg (h0.trans h)] at hb
    linarith

/-- the safety factor `0.9 (maxit+1)/(maxit+iters)` (irk.hpp 773-775) lies between 0 and 1 -/
theorem fac_fp (hm : 0 ≤ maxit) (hm2 : maxit + iters ≤ 2 ^ 53) (hi : 1 ≤ iters) :
    (lit (9/10) * (lit (maxit : ℚ) + lit 1) / lit ((maxit + iters : ℤ) : ℚ) : FP).isFinite = true ∧
      0 ≤ (lit (9/10) * (lit (maxit : ℚ) + lit 1) / lit ((maxit + iters : ℤ) : ℚ) : FP).val ∧
      (lit (9/10) * (lit (maxit : ℚ) + lit 1) / lit ((maxit + iters : ℤ) : ℚ) : FP).val ≤ 1 := by
  have hi' : (1 : ℤ) ≤ iters := by exact_mod_cast hi
  have h1 : (lit 1 : FP) = fin 1 := by show rnd false 1 = fin 1; decide +kernel
  have hone : rnQ 1 = 1 := by decide +kernel
  have hbig : ∀ k : ℤ, 0 ≤ k → k ≤ 2 ^ 53 → rnQ (k : ℚ) = k ∧ |(k : ℚ)| < 2 ^ (1024 : ℤ) := by
    intro k h0 hk
    have e := rnQ_of_mult (m := k) (e := 0) (by norm_num) (by rw [abs_of_nonneg h0]; exact hk)
    simp only [zpow_zero, mul_one] at e
    refine ⟨e, ?_⟩
    have h2 : (0 : ℚ) ≤ k := by exact_mod_cast h0
    have h3 : (k : ℚ) ≤ 2 ^ 53 := by exact_mod_cast hk
    rw [abs_of_nonneg h2]
    refine lt_of_le_of_lt h3 ?_
    have : (2 : ℚ) ^ (53 : ℕ) = 2 ^ (53 : ℤ) := by rw [← zpow_natCast]; rfl
    rw [this]
    exact zpow_lt_zpow_right₀ (by norm_num) (by norm_num)
  rw [lit_int hm (by omega), lit_int (by omega) hm2, h1]
  have hs : (fin (maxit : ℚ) + fin 1 : FP) = fin ((maxit + 1 : ℤ) : ℚ) := by
    show rnd false ((maxit : ℚ) + 1) = _
    have := lit_int (k := maxit + 1) (by omega) (by omega)
    rw [← this]
    show rnd false _ = rnd false _
    push_cast; rfl
  rw [hs]
  have h9 : (lit (9 / 10) : FP).isFinite = true ∧ 0 ≤ (lit (9 / 10) : FP).val ∧ (lit (9 / 10) : FP).val ≤ 1 := by
    show (rnd false (9 / 10)).isFinite = true ∧ 0 ≤ (rnd false (9 / 10)).val ∧ (rnd false (9 / 10)).val ≤ 1
    decide +kernel
  have hM : (0 : ℚ) < ((maxit + 1 : ℤ) : ℚ) := by
    have : (0 : ℤ) < maxit + 1 := by omega
    exact_mod_cast this
  obtain ⟨b, eb⟩ := fmul_fin (x := lit (9/10)) (y := fin ((maxit + 1 : ℤ) : ℚ)) h9.1 rfl
  have hb := hbig (maxit + 1) (by omega) (by omega)
  obtain ⟨k1, k2, k3⟩ := rnd_le (b := b) (q := (lit (9/10) : FP).val * ((maxit + 1 : ℤ) : ℚ)) (mul_nonneg h9.2.1 hM.le) hb.1 hb.2
    (mul_le_of_le_one_left hM.le h9.2.2)
  have eb' : (lit (9/10) * fin ((maxit + 1 : ℤ) : ℚ) : FP) = rnd b ((lit (9/10) : FP).val * ((maxit + 1 : ℤ) : ℚ)) := eb
  rw [eb']
  have hN : ((maxit + 1 : ℤ) : ℚ) ≤ ((maxit + iters : ℤ) : ℚ) := by
    have : maxit + 1 ≤ maxit + iters := by omega
    exact_mod_cast this
  obtain ⟨c, ec⟩ := fdiv_fin (y := fin ((maxit + iters : ℤ) : ℚ)) k1 rfl (by simp only [val]; linarith)
  rw [ec]
  refine rnd_le (r := 1) (div_nonneg k2 (by simp only [val]; linarith)) hone (by rw [abs_one]; exact one_lt_zpow₀ (by norm_num) (by norm_num)) ?_
  simp only [val]
  rw [div_le_one (by linarith)]
  exact k3.trans hN

/-- without `max_dt` the proposal is a number that is not negative -/
theorem proposal_ne_nan (hpow : ∀ x y, x.isNeg = false → (Libm.pow x y).isNeg = false) (hdt : dt.isNeg = false) (hdd : dt.IsDouble) (hf : dt.isFinite = true)
    (he : err.isNeg = false) (he0 : e0.isNeg = false) (he1 : e1.isNeg = false) (hd0 : d0.isNeg = false) (hd1 : d1.isNeg = false) (hm : 0 ≤ maxit)
    (hm2 : maxit + iters ≤ 2 ^ 53) (hi : 1 ≤ iters) : proposalFP mo dt err e0 e1 d0 d1 maxit iters ≠ nan := by
  unfold proposalFP
  obtain ⟨f1, f2, f3⟩ := fac_fp hm hm2 hi
  have hs := isNeg_scale hpow he he0 he1 hd0 hd1 (lit 1 / (lit 1 + lit (mo : ℚ)))
  generalize hsc : (cmin (spow (lit 1 / err) (lit 1 / (lit 1 + lit (mo : ℚ)))) _ : FP) = z at hs ⊢
  have h8 : (lit 8 : FP) = fin 8 := by show rnd false 8 = fin 8; decide +kernel
  have hc : (cmin (lit 8) z : FP).isFinite = true := by
    rw [h8] at hs ⊢
    unfold cmin at hs ⊢
    split_ifs at hs ⊢ with hlt
    · have hlt' : lt z (fin 8) = true := hlt
      cases z with
      | nan => simp [lt] at hlt'
      | inf b => cases b <;> simp_all [lt, isNeg]
      | negZero => rfl
      | fin q => rfl
    · rfl
  obtain ⟨b, eb⟩ := fmul_fin f1 hf
  rw [eb]
  obtain ⟨hr, hb⟩ := rep_val hdd hf
  have hk := rnd_le (b := b) (mul_nonneg f2 (val_nonneg hdt)) hr hb (mul_le_of_le_one_left (val_nonneg hdt) f3)
  obtain ⟨c, ec⟩ := fmul_fin hk.1 hc
  rw [ec]
  exact rnd_ne_nan _ _

/-- with a positive, finite `max_dt` the new step size is finite and at most `max_dt` -/
theorem newDtI_limit (hmx : lt (fin 0) o.maxDt = true) (hmf : o.maxDt.isFinite = true)
    (hp : (proposalFP mo dt err e0 e1 d0 d1 maxit iters).isNeg = false) :
    (newDtI o mo dt err e0 e1 d0 d1 maxit iters).isFinite = true ∧ (newDtI o mo dt err e0 e1 d0 d1 maxit iters).val ≤ o.maxDt.val := by
  rw [newDtI_fp, if_pos hmx]
  generalize proposalFP mo dt err e0 e1 d0 d1 maxit iters = z at hp
  unfold cmin
  split_ifs with h
  · have h' : lt z o.maxDt = true := h
    have hz : z.isFinite = true := by
      cases z with
      | nan => simp [lt] at h'
      | inf b => cases b <;> cases hc : o.maxDt <;> simp_all [lt, isNeg]
      | negZero => rfl
      | fin q => rfl
    rw [lt_fin_iff hz hmf] at h'
    exact ⟨hz, h'.le⟩
  · exact ⟨hmf, le_rfl⟩

theorem isNeg_newDtI (hmx : o.maxDt.isNeg = false ∨ lt (fin 0) o.maxDt = false) (hp : (proposalFP mo dt err e0 e1 d0 d1 maxit iters).isNeg = false) :
    (newDtI o mo dt err e0 e1 d0 d1 maxit iters).isNeg = false := by
  rw [newDtI_fp]
  split_ifs with h
  · rcases hmx with h' | h'
    · exact isNeg_cmin h' hp
    · rw [h'] at h; cases h
  · exact hp

theorem isNeg_of_pos {x : FP} (h : lt (fin 0) x = true) : x.isNeg = false := by
  cases x with
  | nan => rfl
  | inf b => simpa [lt, isNeg] using h
  | negZero => simp [lt, val] at h
  | fin q =>
    have h' : (0 : ℚ) < q := of_decide_eq_true h
    exact decide_eq_false (not_lt.mpr h'.le)

end
end Verif
