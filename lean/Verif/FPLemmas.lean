import Verif.FP
import Mathlib.Tactic.Linarith
import Mathlib.Tactic.Positivity
import Mathlib.Algebra.Order.Field.Power
import Mathlib.Data.Rat.Lemmas

/-!
# Facts about binary64 rounding
-/

namespace Verif.FP

/-! ### Rounding to integers -/

theorem rhe_int (k : ℤ) : rhe (k : ℚ) = k := by
  simp [rhe]

theorem rhe_ge_floor (r : ℚ) : ⌊r⌋ ≤ rhe r := by
  unfold rhe; simp only; split_ifs <;> omega

theorem rhe_le_floor_add_one (r : ℚ) : rhe r ≤ ⌊r⌋ + 1 := by
  unfold rhe; simp only; split_ifs <;> omega

theorem rhe_mono {r s : ℚ} (h : r ≤ s) : rhe r ≤ rhe s := by
  have hf : ⌊r⌋ ≤ ⌊s⌋ := Int.floor_mono h
  rcases hf.lt_or_eq with hlt | heq
  · have := rhe_le_floor_add_one r
    have := rhe_ge_floor s
    omega
  · unfold rhe
    simp only [heq]
    split_ifs <;> first | omega | (exfalso; linarith)

theorem rhe_le_of_le {r : ℚ} {k : ℤ} (h : r ≤ k) : rhe r ≤ k := by
  have := rhe_mono h; rwa [rhe_int] at this

theorem le_rhe_of_le {r : ℚ} {k : ℤ} (h : (k : ℚ) ≤ r) : k ≤ rhe r := by
  have := rhe_mono h; rwa [rhe_int] at this

theorem rhe_neg (r : ℚ) : rhe (-r) = - rhe r := by
  by_cases hint : (⌊r⌋ : ℚ) = r
  · rw [← hint, ← Int.cast_neg, rhe_int, rhe_int]
  · have h1 : (⌊r⌋ : ℚ) < r := lt_of_le_of_ne (Int.floor_le r) hint
    have h2 := Int.lt_floor_add_one r
    have hfl : ⌊-r⌋ = -⌊r⌋ - 1 := by
      rw [Int.floor_eq_iff]; push_cast; constructor <;> linarith
    unfold rhe
    simp only [hfl]
    push_cast
    have e : (-⌊r⌋ - 1) % 2 = 0 ↔ ¬ (⌊r⌋ % 2 = 0) := by omega
    by_cases ha : r - ⌊r⌋ < 1 / 2
    · rw [if_neg (by linarith), if_pos (by linarith), if_pos ha]; ring
    · by_cases hb : 1 / 2 < r - ⌊r⌋
      · rw [if_pos (by linarith), if_neg ha, if_pos hb]; ring
      · rw [if_neg (by linarith), if_neg (by linarith), if_neg ha, if_neg hb]
        by_cases hc : ⌊r⌋ % 2 = 0
        · rw [if_neg (by omega), if_pos hc]; ring
        · rw [if_pos (by omega), if_neg hc]; ring

/-! ### The exponent -/

theorem ilog_spec {q : ℚ} (hq : 0 < q) : (2 : ℚ) ^ ilog q ≤ q ∧ q < (2 : ℚ) ^ (ilog q + 1) := by
  have hn : 0 < q.num := Rat.num_pos.mpr hq
  set a := q.num.natAbs with ha
  have ha0 : a ≠ 0 := by omega
  have hd0 : q.den ≠ 0 := q.den_ne_zero
  have hqe : q = (a : ℚ) / (q.den : ℚ) := by
    conv_lhs => rw [← Rat.num_div_den q]
    congr 1
    have : (q.num : ℤ) = (a : ℤ) := by omega
    rw [this]; norm_cast
  have a1 : (2 : ℚ) ^ (Nat.log2 a : ℤ) ≤ a := by
    rw [zpow_natCast]; exact_mod_cast Nat.log2_self_le ha0
  have a2 : (a : ℚ) < (2 : ℚ) ^ ((Nat.log2 a : ℤ) + 1) := by
    have := Nat.lt_log2_self (n := a)
    have h : (a : ℚ) < ((2 ^ (Nat.log2 a + 1) : ℕ) : ℚ) := by exact_mod_cast this
    rw [show (Nat.log2 a : ℤ) + 1 = ((Nat.log2 a + 1 : ℕ) : ℤ) by push_cast; ring, zpow_natCast]
    simpa using h
  have d1 : (2 : ℚ) ^ (Nat.log2 q.den : ℤ) ≤ q.den := by
    rw [zpow_natCast]; exact_mod_cast Nat.log2_self_le hd0
  have d2 : (q.den : ℚ) < (2 : ℚ) ^ ((Nat.log2 q.den : ℤ) + 1) := by
    have := Nat.lt_log2_self (n := q.den)
    have h : (q.den : ℚ) < ((2 ^ (Nat.log2 q.den + 1) : ℕ) : ℚ) := by exact_mod_cast this
    rw [show (Nat.log2 q.den : ℤ) + 1 = ((Nat.log2 q.den + 1 : ℕ) : ℤ) by push_cast; ring, zpow_natCast]
    simpa using h
  have hdpos : (0 : ℚ) < q.den := by exact_mod_cast Nat.pos_of_ne_zero hd0
  set la := (Nat.log2 a : ℤ)
  set ld := (Nat.log2 q.den : ℤ)
  have p2 : (0 : ℚ) < 2 := by norm_num
  have lower : (2 : ℚ) ^ (la - ld - 1) < q := by
    rw [hqe, lt_div_iff₀ hdpos]
    calc (2 : ℚ) ^ (la - ld - 1) * q.den < (2 : ℚ) ^ (la - ld - 1) * 2 ^ (ld + 1) :=
          mul_lt_mul_of_pos_left d2 (zpow_pos p2 _)
      _ = (2 : ℚ) ^ la := by rw [← zpow_add₀ p2.ne']; congr 1; ring
      _ ≤ a := a1
  have upper : q < (2 : ℚ) ^ (la - ld + 1) := by
    rw [hqe, div_lt_iff₀ hdpos]
    calc (a : ℚ) < 2 ^ (la + 1) := a2
      _ = (2 : ℚ) ^ (la - ld + 1) * 2 ^ ld := by rw [← zpow_add₀ p2.ne']; congr 1; ring
      _ ≤ (2 : ℚ) ^ (la - ld + 1) * q.den := mul_le_mul_of_nonneg_left d1 (zpow_pos p2 _).le
  have hil : ilog q = if (2 : ℚ) ^ (la - ld) ≤ q then la - ld else la - ld - 1 := rfl
  rw [hil]
  split_ifs with h
  · exact ⟨h, upper⟩
  · push Not at h
    refine ⟨lower.le, ?_⟩
    rw [sub_add_cancel]; exact h

theorem zpow2_pos (e : ℤ) : (0 : ℚ) < 2 ^ e := zpow_pos (by norm_num) e

theorem zpow2_le {a b : ℤ} (h : a ≤ b) : (2 : ℚ) ^ a ≤ 2 ^ b :=
  zpow_le_zpow_right₀ (by norm_num) h

theorem zpow2_lt_iff {a b : ℤ} : (2 : ℚ) ^ a < 2 ^ b ↔ a < b :=
  zpow_lt_zpow_iff_right₀ (by norm_num)

theorem zpow2_add (a b : ℤ) : (2 : ℚ) ^ (a + b) = 2 ^ a * 2 ^ b := zpow_add₀ (by norm_num) a b

theorem ilog_mono {x y : ℚ} (hx : 0 < x) (h : x ≤ y) : ilog x ≤ ilog y := by
  have h1 := (ilog_spec hx).1
  have h2 := (ilog_spec (hx.trans_le h)).2
  have := zpow2_lt_iff.mp (lt_of_le_of_lt (h1.trans h) h2)
  omega

theorem ilog_eq {x : ℚ} {e : ℤ} (h1 : (2 : ℚ) ^ e ≤ x) (h2 : x < 2 ^ (e + 1)) : ilog x = e := by
  have hx : 0 < x := (zpow2_pos e).trans_le h1
  obtain ⟨g1, g2⟩ := ilog_spec hx
  have a := zpow2_lt_iff.mp (lt_of_le_of_lt h1 g2)
  have b := zpow2_lt_iff.mp (lt_of_le_of_lt g1 h2)
  omega

/-! ### Rounding of rationals -/

theorem ulpExp_neg (q : ℚ) : ulpExp (-q) = ulpExp q := by simp [ulpExp]

theorem rnQ_neg (q : ℚ) : rnQ (-q) = - rnQ q := by
  unfold rnQ
  rw [ulpExp_neg]
  by_cases h : q = 0
  · simp [h]
  · rw [if_neg (by simpa using h), if_neg h, neg_div, rhe_neg]; push_cast; ring

@[simp] theorem rnQ_zero : rnQ 0 = 0 := by simp [rnQ]

theorem rnQ_le_mult {q : ℚ} (hq : q ≠ 0) {k : ℤ} (h : q ≤ k * 2 ^ ulpExp q) :
    rnQ q ≤ k * 2 ^ ulpExp q := by
  unfold rnQ
  rw [if_neg hq]
  have hp := zpow2_pos (ulpExp q)
  apply mul_le_mul_of_nonneg_right _ hp.le
  have : q / 2 ^ ulpExp q ≤ (k : ℚ) := by rw [div_le_iff₀ hp]; exact h
  exact_mod_cast rhe_le_of_le this

theorem mult_le_rnQ {q : ℚ} (hq : q ≠ 0) {k : ℤ} (h : k * 2 ^ ulpExp q ≤ q) :
    k * 2 ^ ulpExp q ≤ rnQ q := by
  unfold rnQ
  rw [if_neg hq]
  have hp := zpow2_pos (ulpExp q)
  apply mul_le_mul_of_nonneg_right _ hp.le
  have : (k : ℚ) ≤ q / 2 ^ ulpExp q := by rw [le_div_iff₀ hp]; exact h
  exact_mod_cast le_rhe_of_le this

theorem rnQ_nonneg {q : ℚ} (h : 0 ≤ q) : 0 ≤ rnQ q := by
  rcases h.eq_or_lt with rfl | h
  · simp
  · have := mult_le_rnQ (k := 0) h.ne' (by simpa using h.le)
    simpa using this

theorem rnQ_nonpos {q : ℚ} (h : q ≤ 0) : rnQ q ≤ 0 := by
  have := rnQ_nonneg (q := -q) (by linarith)
  rw [rnQ_neg] at this; linarith

theorem rnQ_mono_pos {x y : ℚ} (hx : 0 < x) (h : x ≤ y) : rnQ x ≤ rnQ y := by
  have hy : 0 < y := hx.trans_le h
  have hil := ilog_mono hx h
  have ex : ulpExp x = max (ilog x - 52) (-1074) := by simp [ulpExp, abs_of_pos hx]
  have ey : ulpExp y = max (ilog y - 52) (-1074) := by simp [ulpExp, abs_of_pos hy]
  have hle : ulpExp x ≤ ulpExp y := by omega
  rcases hle.eq_or_lt with heq | hlt
  · unfold rnQ
    rw [if_neg hx.ne', if_neg hy.ne', heq]
    have hp := zpow2_pos (ulpExp y)
    apply mul_le_mul_of_nonneg_right _ hp.le
    exact_mod_cast rhe_mono (div_le_div_of_nonneg_right h hp.le)
  · -- the binade boundary separates them
    have hey : ulpExp y = ilog y - 52 := by omega
    have hB : (2 : ℚ) ^ (ilog y) ≤ y := (ilog_spec hy).1
    have hxB : x ≤ 2 ^ (ilog y) := (ilog_spec hx).2.le.trans (zpow2_le (by omega))
    have ry : (2 : ℚ) ^ (ilog y) ≤ rnQ y := by
      have e : ((2 ^ 52 : ℤ) : ℚ) * 2 ^ ulpExp y = 2 ^ (ilog y) := by
        have h52 : ((2 ^ 52 : ℤ) : ℚ) = 2 ^ (52 : ℤ) := by norm_num
        rw [hey, h52, ← zpow2_add]; congr 1; ring
      have := mult_le_rnQ (k := 2 ^ 52) hy.ne' (by rw [e]; exact hB)
      rwa [e] at this
    have rx : rnQ x ≤ 2 ^ (ilog y) := by
      obtain ⟨d, hd⟩ : ∃ d : ℕ, ilog y = d + ulpExp x := ⟨(ilog y - ulpExp x).toNat, by omega⟩
      have e : ((2 ^ d : ℤ) : ℚ) * 2 ^ ulpExp x = 2 ^ (ilog y) := by
        rw [hd]; push_cast
        rw [← zpow_natCast (2 : ℚ) d, ← zpow2_add]
      have := rnQ_le_mult (k := 2 ^ d) hx.ne' (by rw [e]; exact hxB)
      rwa [e] at this
    exact rx.trans ry

/-- rounding is monotone -/
theorem rnQ_mono {x y : ℚ} (h : x ≤ y) : rnQ x ≤ rnQ y := by
  rcases lt_or_ge 0 x with hx | hx
  · exact rnQ_mono_pos hx h
  · rcases lt_or_ge y 0 with hy | hy
    · have := rnQ_mono_pos (x := -y) (y := -x) (by linarith) (by linarith)
      rw [rnQ_neg, rnQ_neg] at this; linarith
    · exact (rnQ_nonpos hx).trans (rnQ_nonneg hy)

/-- multiples of a power of two with at most 53 bits are representable -/
theorem rnQ_of_mult {m e : ℤ} (he : -1074 ≤ e) (hm : |m| ≤ 2 ^ 53) :
    rnQ ((m : ℚ) * 2 ^ e) = m * 2 ^ e := by
  by_cases h0 : m = 0
  · simp [h0]
  have hq : (m : ℚ) * 2 ^ e ≠ 0 := mul_ne_zero (by exact_mod_cast h0) (zpow2_pos e).ne'
  set q := (m : ℚ) * 2 ^ e with hqd
  have habs : |q| = (|m| : ℤ) * 2 ^ e := by
    rw [hqd, abs_mul, abs_of_pos (zpow2_pos e)]; push_cast; ring
  have hqpos : 0 < |q| := abs_pos.mpr hq
  -- the quotient by the ulp is an integer
  have key : ∃ k : ℤ, q = k * 2 ^ ulpExp q := by
    rcases (show |m| < 2 ^ 53 ∨ |m| = 2 ^ 53 by omega) with hlt | heq
    · have hu : ulpExp q ≤ e := by
        have hl : ilog |q| ≤ e + 52 := by
          have h1 := (ilog_spec hqpos).1
          have h2 : |q| < 2 ^ (e + 53) := by
            rw [habs, zpow2_add, mul_comm]
            apply mul_lt_mul_of_pos_left _ (zpow2_pos e)
            have : ((|m| : ℤ) : ℚ) < ((2 ^ 53 : ℤ) : ℚ) := by exact_mod_cast hlt
            calc ((|m| : ℤ) : ℚ) < ((2 ^ 53 : ℤ) : ℚ) := this
              _ = 2 ^ (53 : ℤ) := by norm_num
          have := zpow2_lt_iff.mp (lt_of_le_of_lt h1 h2); omega
        unfold ulpExp; omega
      obtain ⟨d, hd⟩ : ∃ d : ℕ, e = d + ulpExp q := ⟨(e - ulpExp q).toNat, by omega⟩
      refine ⟨m * 2 ^ d, ?_⟩
      conv_lhs => rw [hqd, hd, zpow2_add]
      push_cast; rw [zpow_natCast]; ring
    · have hu : ulpExp q = e + 1 := by
        have : |q| = 2 ^ (e + 53) := by
          rw [habs, heq, zpow2_add, mul_comm]; norm_num
        have hl : ilog |q| = e + 53 := by
          rw [this]; exact ilog_eq (le_refl _) (zpow2_lt_iff.mpr (by omega))
        unfold ulpExp; omega
      obtain ⟨c, hc⟩ : ∃ c, m = 2 * c := by
        rcases abs_choice m with h | h <;> rw [heq] at h
        · exact ⟨2 ^ 52, by omega⟩
        · exact ⟨-2 ^ 52, by omega⟩
      refine ⟨c, ?_⟩
      rw [hqd, hu, zpow2_add, hc]; push_cast; ring
  obtain ⟨k, hk⟩ := key
  exact le_antisymm ((rnQ_le_mult hq hk.le).trans hk.ge) (hk.le.trans (mult_le_rnQ hq hk.ge))

/-- a rounded value is a multiple of a power of two with at most 53 bits -/
theorem rnQ_mult (q : ℚ) : ∃ m e : ℤ, -1074 ≤ e ∧ |m| ≤ 2 ^ 53 ∧ rnQ q = m * 2 ^ e := by
  by_cases h : q = 0
  · exact ⟨0, 0, by norm_num, by norm_num, by simp [h]⟩
  refine ⟨rhe (q / 2 ^ ulpExp q), ulpExp q, by unfold ulpExp; omega, ?_, by unfold rnQ; rw [if_neg h]⟩
  have hp := zpow2_pos (ulpExp q)
  have hb : |q| < 2 ^ (53 : ℤ) * 2 ^ ulpExp q := by
    rw [← zpow2_add]
    exact (ilog_spec (abs_pos.mpr h)).2.trans_le (zpow2_le (by unfold ulpExp; omega))
  have hb1 : q / 2 ^ ulpExp q ≤ ((2 ^ 53 : ℤ) : ℚ) := by
    rw [div_le_iff₀ hp]; push_cast
    exact (le_abs_self q).trans (by norm_num at hb ⊢; exact hb.le)
  have hb2 : ((-2 ^ 53 : ℤ) : ℚ) ≤ q / 2 ^ ulpExp q := by
    rw [le_div_iff₀ hp]; push_cast
    have := neg_abs_le q
    norm_num at hb ⊢; linarith
  have := rhe_le_of_le hb1
  have := le_rhe_of_le hb2
  rw [abs_le]; constructor <;> omega

theorem rnQ_idem (q : ℚ) : rnQ (rnQ q) = rnQ q := by
  obtain ⟨m, e, he, hm, h⟩ := rnQ_mult q
  rw [h]; exact rnQ_of_mult he hm

/-! ### Order and operations -/

theorem isDouble_zeroS (b : Bool) : (zeroS b).IsDouble := by
  cases b <;> simp [zeroS, IsDouble]

theorem isDouble_rnd (b : Bool) (q : ℚ) : (rnd b q).IsDouble := by
  unfold rnd
  simp only
  by_cases h1 : q = 0
  · rw [if_pos h1]; exact isDouble_zeroS _
  rw [if_neg h1]
  by_cases h2 : rnQ q = 0
  · rw [if_pos h2]; exact isDouble_zeroS _
  rw [if_neg h2]
  by_cases h3 : (2 : ℚ) ^ (1024 : ℤ) ≤ |rnQ q|
  · rw [if_pos h3]; trivial
  · rw [if_neg h3]; exact ⟨rnQ_idem q, not_le.mp h3⟩

theorem le_refl' {x : FP} (h : x ≠ nan) : le x x = true := by
  cases x with
  | nan => exact absurd rfl h
  | inf b => simp [le, lt, eq]
  | negZero => simp [le, lt, eq]
  | fin q => simp [le, lt, eq]

/-- comparison of finite values is comparison of rationals -/
theorem le_fin_iff {x y : FP} (hx : x.isFinite = true) (hy : y.isFinite = true) :
    le x y = true ↔ x.val ≤ y.val := by
  cases x <;> cases y <;> simp [isFinite] at hx hy <;>
    simp only [le, lt, eq, val, Bool.or_eq_true, decide_eq_true_eq]
  · simp
  all_goals exact (or_congr decide_eq_true_iff decide_eq_true_iff).trans le_iff_lt_or_eq.symm

theorem lt_fin_iff {x y : FP} (hx : x.isFinite = true) (hy : y.isFinite = true) :
    lt x y = true ↔ x.val < y.val := by
  cases x <;> cases y <;> simp [isFinite] at hx hy <;> simp only [lt, decide_eq_true_eq]

theorem le_trans' {x y z : FP} (h1 : le x y = true) (h2 : le y z = true) : le x z = true := by
  by_cases hx : x.isFinite = true
  · by_cases hy : y.isFinite = true
    · by_cases hz : z.isFinite = true
      · rw [le_fin_iff hx hy] at h1
        rw [le_fin_iff hy hz] at h2
        rw [le_fin_iff hx hz]
        exact h1.trans h2
      · cases x <;> cases y <;> cases z <;> simp [isFinite, le, lt, eq] at *
        all_goals exact h2
    · cases x <;> cases y <;> cases z <;> simp [isFinite, le, lt, eq] at *
      all_goals simp_all
  · cases x with
    | inf a =>
      cases y with
      | inf b => cases z with
        | inf c => revert h1 h2; cases a <;> cases b <;> cases c <;> decide
        | _ => revert h1 h2; cases a <;> cases b <;> simp [le, lt, eq]
      | nan => simp [le, lt, eq] at h1
      | negZero => cases z with
        | inf c => revert h1 h2; cases a <;> cases c <;> simp [le, lt, eq]
        | _ => revert h1 h2; cases a <;> simp [le, lt, eq]
      | fin q => cases z with
        | inf c => revert h1 h2; cases a <;> cases c <;> simp [le, lt, eq]
        | _ => revert h1 h2; cases a <;> simp [le, lt, eq]
    | nan => simp [le, lt, eq] at h1
    | negZero => simp [isFinite] at hx
    | fin q => simp [isFinite] at hx

theorem isFinite_zeroS (b : Bool) : (zeroS b).isFinite = true ∧ (zeroS b).val = 0 := by
  cases b <;> simp [zeroS, isFinite, val]

/-- a rounding is finite with the rounded value, or overflows -/
theorem rnd_spec (b : Bool) (q : ℚ) :
    ((rnd b q).isFinite = true ∧ (rnd b q).val = rnQ q ∧ |rnQ q| < 2 ^ (1024 : ℤ)) ∨
    (rnd b q = inf (decide (q < 0)) ∧ (2 : ℚ) ^ (1024 : ℤ) ≤ |rnQ q|) := by
  unfold rnd
  simp only
  by_cases h1 : q = 0
  · rw [if_pos h1, h1]
    left
    refine ⟨(isFinite_zeroS _).1, ?_, ?_⟩
    · rw [(isFinite_zeroS _).2, rnQ_zero]
    · rw [rnQ_zero, abs_zero]; exact zpow2_pos _
  rw [if_neg h1]
  by_cases h2 : rnQ q = 0
  · rw [if_pos h2]
    left
    refine ⟨(isFinite_zeroS _).1, ?_, ?_⟩
    · rw [(isFinite_zeroS _).2, h2]
    · rw [h2, abs_zero]; exact zpow2_pos _
  rw [if_neg h2]
  by_cases h3 : (2 : ℚ) ^ (1024 : ℤ) ≤ |rnQ q|
  · rw [if_pos h3]; exact Or.inr ⟨rfl, h3⟩
  · rw [if_neg h3]; exact Or.inl ⟨rfl, rfl, not_le.mp h3⟩

theorem rnd_ne_nan (b : Bool) (q : ℚ) : rnd b q ≠ nan := by
  rcases rnd_spec b q with ⟨h, -⟩ | ⟨h, -⟩
  · intro hc; rw [hc] at h; cases h
  · rw [h]; intro hc; cases hc

theorem add_fin {x y : FP} (hx : x.isFinite = true) (hy : y.isFinite = true) :
    x + y = rnd false (x.val + y.val) ∨ (x = negZero ∧ y = negZero ∧ x + y = negZero) := by
  cases x <;> cases y <;> simp [isFinite] at hx hy
  · right; exact ⟨rfl, rfl, rfl⟩
  all_goals left; rfl

theorem neg_fin {x : FP} (hx : x.isFinite = true) : x.neg.isFinite = true ∧ x.neg.val = - x.val := by
  cases x with
  | nan => simp [isFinite] at hx
  | inf b => simp [isFinite] at hx
  | negZero => simp [neg, isFinite, val]
  | fin q => by_cases h : q = 0 <;> simp [neg, h, isFinite, val]

/-- the value of a finite double is representable -/
theorem rep_val {x : FP} (hd : x.IsDouble) (hf : x.isFinite = true) :
    rnQ x.val = x.val ∧ |x.val| < 2 ^ (1024 : ℤ) := by
  cases x with
  | nan => simp [isFinite] at hf
  | inf b => simp [isFinite] at hf
  | negZero => simp only [val]; exact ⟨rnQ_zero, by rw [abs_zero]; exact zpow2_pos _⟩
  | fin q => exact hd

/-- adding finite doubles: finite with the rounded sum, or overflow -/
theorem add_spec {x y : FP} (hx : x.isFinite = true) (hy : y.isFinite = true) :
    ((x + y).isFinite = true ∧ (x + y).val = rnQ (x.val + y.val)) ∨
    (x + y = inf (decide (x.val + y.val < 0)) ∧ (2 : ℚ) ^ (1024 : ℤ) ≤ |rnQ (x.val + y.val)|) := by
  rcases add_fin hx hy with h | ⟨h1, h2, h3⟩
  · rw [h]
    rcases rnd_spec false (x.val + y.val) with ⟨a, b, -⟩ | ⟨a, b⟩
    · exact Or.inl ⟨a, b⟩
    · exact Or.inr ⟨a, b⟩
  · left; rw [h3, h1, h2]; simp [isFinite, val]

theorem sub_spec {x y : FP} (hx : x.isFinite = true) (hy : y.isFinite = true) :
    ((x - y).isFinite = true ∧ (x - y).val = rnQ (x.val - y.val)) ∨
    (x - y = inf (decide (x.val - y.val < 0)) ∧ (2 : ℚ) ^ (1024 : ℤ) ≤ |rnQ (x.val - y.val)|) := by
  obtain ⟨h1, h2⟩ := neg_fin hy
  have := add_spec hx h1
  rw [h2, ← sub_eq_add_neg] at this
  exact this

/-- a double plus a non-negative double does not decrease -/
theorem le_add_nonneg {t d : FP} (ht : t.IsDouble) (hf : t.isFinite = true)
    (hd : le (fin 0) d = true) : le t (t + d) = true := by
  by_cases hdf : d.isFinite = true
  · rw [le_fin_iff rfl hdf] at hd
    have hv : t.val ≤ t.val + d.val := by simp only [val] at hd ⊢; linarith [hd]
    have hm := rnQ_mono hv
    rw [(rep_val ht hf).1] at hm
    rcases add_spec hf hdf with ⟨h1, h2⟩ | ⟨h1, h2⟩
    · rw [le_fin_iff hf h1, h2]; exact hm
    · have hpos : ¬ t.val + d.val < 0 := by
        intro hc
        have h3 := rnQ_nonpos hc.le
        have h4 : |rnQ (t.val + d.val)| ≤ |t.val| := by
          rw [abs_of_nonpos h3, abs_of_nonpos (hm.trans h3)]; linarith
        exact absurd (h2.trans h4) (not_le.mpr (rep_val ht hf).2)
      rw [h1]
      simp only [hpos, decide_false]
      cases t <;> simp [isFinite] at hf <;> simp [le, lt]
  · cases d with
    | nan => simp [le, lt, eq] at hd
    | inf b =>
      cases b with
      | true => simp [le, lt, eq] at hd
      | false => cases t <;> simp [isFinite] at hf <;> simp [le, lt, HAdd.hAdd, Add.add, add]
    | negZero => simp [isFinite] at hdf
    | fin q => simp [isFinite] at hdf

/-- sign and closure facts -/
theorem isDouble_add {x y : FP} (hx : x.isFinite = true) (hy : y.isFinite = true) :
    (x + y).IsDouble := by
  rcases add_fin hx hy with h | ⟨-, -, h⟩
  · rw [h]; exact isDouble_rnd _ _
  · rw [h]; trivial

theorem isDouble_mul (x y : FP) : (x * y).IsDouble := by
  show (mul x y).IsDouble
  unfold mul
  split <;> first | trivial | exact isDouble_rnd _ _ | (split_ifs <;> trivial)

end Verif.FP
