import Verif.FloatInst
import Verif.Prop.ErkFloat
import Verif.Prop.FPSpec

/-!
# Property C92: fixed-step explicit runs in binary64 end at exactly `t1`
-/

set_option autoImplicit false

namespace Verif
open FP

/-! ### roundings -/

theorem rnQ_error_abs (q : ℚ) : |rnQ q - q| ≤ 1 / 2 ^ 53 * |q| + 1 / 2 * 2 ^ (-1074 : ℤ) := by
  by_cases h0 : q = 0
  · subst h0
    have := zpow2_pos (-1074)
    simp only [rnQ, if_pos, sub_self, abs_zero, mul_zero, zero_add]
    positivity
  have hp := zpow2_pos (ulpExp q)
  have e : rnQ q - q = ((rhe (q / 2 ^ ulpExp q) : ℚ) - q / 2 ^ ulpExp q) * 2 ^ ulpExp q := by
    unfold rnQ; rw [if_neg h0, sub_mul, div_mul_cancel₀ _ hp.ne']
  rw [e, abs_mul, abs_of_pos hp]
  have hr := rhe_error (q / 2 ^ ulpExp q)
  have hq : 0 < |q| := abs_pos.mpr h0
  have hs := zpow2_pos (-1074)
  have hu : (2 : ℚ) ^ ulpExp q ≤ 1 / 2 ^ 52 * |q| + 2 ^ (-1074 : ℤ) := by
    unfold ulpExp
    rcases le_total (ilog |q| - 52) (-1074) with h | h
    · rw [max_eq_right h]
      have : 0 ≤ 1 / 2 ^ 52 * |q| := by positivity
      linarith
    · rw [max_eq_left h, sub_eq_add_neg, zpow2_add, mul_comm]
      have h2 : (2 : ℚ) ^ (-52 : ℤ) = 1 / 2 ^ 52 := by rw [zpow_neg, one_div]; rfl
      rw [h2]
      have := mul_le_mul_of_nonneg_left (ilog_spec hq).1 (by positivity : (0 : ℚ) ≤ 1 / 2 ^ 52)
      linarith
  calc |(rhe (q / 2 ^ ulpExp q) : ℚ) - q / 2 ^ ulpExp q| * 2 ^ ulpExp q ≤ 1 / 2 * (1 / 2 ^ 52 * |q| + 2 ^ (-1074 : ℤ)) :=
        mul_le_mul hr hu hp.le (by norm_num)
    _ = _ := by ring

/-- positive doubles are at least `2^-1074` -/
theorem min_double {d : ℚ} (hd : rnQ d = d) (h0 : 0 < d) : (2 : ℚ) ^ (-1074 : ℤ) ≤ d := by
  obtain ⟨m, e, he, -, h⟩ := rnQ_mult d
  rw [hd] at h
  rw [h] at h0 ⊢
  have hm : (0 : ℚ) < m := pos_of_mul_pos_left h0 (zpow2_pos e).le
  have hm1 : (1 : ℚ) ≤ m := by exact_mod_cast (by exact_mod_cast hm : 0 < m)
  calc (2 : ℚ) ^ (-1074 : ℤ) ≤ 2 ^ e := zpow2_le he
    _ ≤ m * 2 ^ e := le_mul_of_one_le_left (zpow2_pos e).le hm1

/-- **Sterbenz**: the difference of two doubles within a factor of two is exact -/
theorem sterbenz {x y : ℚ} (hx : rnQ x = x) (hy : rnQ y = y) (hpos : 0 < y) (h1 : y / 2 ≤ x) (h2 : x ≤ 2 * y) : rnQ (y - x) = y - x := by
  obtain ⟨m, e, he, hm, hme⟩ := rnQ_mult x
  obtain ⟨m1, e1, he1, hm1, hme1⟩ := rnQ_mult y
  rw [hx] at hme
  rw [hy] at hme1
  have hpt : 0 < x := by linarith
  rcases le_total e e1 with hee | hee
  · obtain ⟨d, hd⟩ : ∃ d : ℕ, e1 = d + e := ⟨(e1 - e).toNat, by omega⟩
    have hdiff : y - x = ((m1 * 2 ^ d - m : ℤ) : ℚ) * 2 ^ e := by
      rw [hme, hme1, hd, zpow2_add]; push_cast; rw [zpow_natCast]; ring
    rw [hdiff]
    apply rnQ_of_mult he
    have : |y - x| ≤ x := by rw [abs_le]; constructor <;> linarith
    rw [hdiff, hme, abs_mul, abs_of_pos (zpow2_pos e)] at this
    have := le_of_mul_le_mul_right this (zpow2_pos e)
    have h' : |m1 * 2 ^ d - m| ≤ m := by exact_mod_cast this
    exact h'.trans ((le_abs_self m).trans hm)
  · obtain ⟨d, hd⟩ : ∃ d : ℕ, e = d + e1 := ⟨(e - e1).toNat, by omega⟩
    have hdiff : y - x = ((m1 - m * 2 ^ d : ℤ) : ℚ) * 2 ^ e1 := by
      rw [hme, hme1, hd, zpow2_add]; push_cast; rw [zpow_natCast]; ring
    rw [hdiff]
    apply rnQ_of_mult he1
    have : |y - x| ≤ y := by rw [abs_le]; constructor <;> linarith
    rw [hdiff, hme1, abs_mul, abs_of_pos (zpow2_pos e1)] at this
    have := le_of_mul_le_mul_right this (zpow2_pos e1)
    have h' : |m1 - m * 2 ^ d| ≤ m1 := by exact_mod_cast this
    exact h'.trans ((le_abs_self m1).trans hm1)

/-- on either side of zero, and at zero -/
theorem sterbenz' {x y : ℚ} (hx : rnQ x = x) (hy : rnQ y = y) (h : |y - x| ≤ |y| / 2 ∨ y = 0) : rnQ (y - x) = y - x := by
  rcases h with h | rfl
  · rcases lt_trichotomy y 0 with hn | rfl | hp
    · rw [abs_of_neg hn] at h
      have h' := abs_le.mp h
      have := sterbenz (x := -x) (y := -y) (by rw [rnQ_neg, hx]) (by rw [rnQ_neg, hy]) (by linarith) (by linarith) (by linarith)
      have e : -y - -x = -(y - x) := by ring
      rw [e, rnQ_neg] at this
      linarith
    · simp at h
      simp [h]
    · rw [abs_of_pos hp] at h
      have h' := abs_le.mp h
      exact sterbenz hx hy hp (by linarith) (by linarith)
  · rw [zero_sub, rnQ_neg, hx]

/-- a sum of doubles below `2^-1021` is exact -/
theorem sum_small {x y : ℚ} (hx : rnQ x = x) (hy : rnQ y = y) (h : |x + y| ≤ 2 ^ (-1021 : ℤ)) : rnQ (x + y) = x + y := by
  obtain ⟨m, e, he, -, hme⟩ := rnQ_mult x
  obtain ⟨m1, e1, he1, -, hme1⟩ := rnQ_mult y
  rw [hx] at hme
  rw [hy] at hme1
  obtain ⟨a, ha⟩ : ∃ a : ℕ, e = a + (-1074) := ⟨(e + 1074).toNat, by omega⟩
  obtain ⟨b, hb⟩ : ∃ b : ℕ, e1 = b + (-1074) := ⟨(e1 + 1074).toNat, by omega⟩
  have hz := zpow2_pos (-1074)
  have hs : x + y = ((m * 2 ^ a + m1 * 2 ^ b : ℤ) : ℚ) * 2 ^ (-1074 : ℤ) := by
    rw [hme, hme1, ha, hb, zpow2_add, zpow2_add, zpow_natCast, zpow_natCast]
    simp only [Int.cast_add, Int.cast_mul, Int.cast_pow, Int.cast_ofNat]
    ring
  rw [hs] at h ⊢
  apply rnQ_of_mult (by norm_num)
  rw [abs_mul, abs_of_pos hz, show (-1021 : ℤ) = 53 + (-1074 : ℤ) from rfl, zpow2_add] at h
  have := le_of_mul_le_mul_right h hz
  exact_mod_cast this

/-- **the rounding error of a difference is itself a double** -/
theorem diff_error_double {x y : ℚ} (hx : rnQ x = x) (hy : rnQ y = y) : rnQ (y - x - rnQ (y - x)) = y - x - rnQ (y - x) := by
  have repx : Rep (-x) := rep_neg (by have := rep_rnQ x; rwa [hx] at this)
  have repy : Rep y := by have := rep_rnQ y; rwa [hy] at this
  have n1 := FP_nearest (y - x) repx
  have n2 := FP_nearest (y - x) repy
  have e1 : -x - (y - x) = -y := by ring
  have e2 : y - (y - x) = x := by ring
  rw [e1, abs_neg, abs_sub_comm] at n1
  rw [e2, abs_sub_comm] at n2
  obtain ⟨m, e, he, hm, hme⟩ := rnQ_mult x
  obtain ⟨m1, e1, he1, hm1, hme1⟩ := rnQ_mult y
  rw [hx] at hme
  rw [hy] at hme1
  -- the common exponent
  obtain ⟨g, M, hg, hM, hb⟩ : ∃ g M : ℤ, -1074 ≤ g ∧ y - x = M * 2 ^ g ∧ |y - x - rnQ (y - x)| ≤ 2 ^ 53 * 2 ^ g := by
    have bx : |x| ≤ 2 ^ 53 * 2 ^ e := by
      rw [hme, abs_mul, abs_of_pos (zpow2_pos e)]
      exact mul_le_mul_of_nonneg_right (by exact_mod_cast hm) (zpow2_pos e).le
    have by' : |y| ≤ 2 ^ 53 * 2 ^ e1 := by
      rw [hme1, abs_mul, abs_of_pos (zpow2_pos e1)]
      exact mul_le_mul_of_nonneg_right (by exact_mod_cast hm1) (zpow2_pos e1).le
    rcases le_total e e1 with hee | hee
    · obtain ⟨d, hd⟩ : ∃ d : ℕ, e1 = d + e := ⟨(e1 - e).toNat, by omega⟩
      refine ⟨e, m1 * 2 ^ d - m, he, ?_, n2.trans bx⟩
      rw [hme, hme1, hd, zpow2_add]; push_cast; rw [zpow_natCast]; ring
    · obtain ⟨d, hd⟩ : ∃ d : ℕ, e = d + e1 := ⟨(e - e1).toNat, by omega⟩
      refine ⟨e1, m1 - m * 2 ^ d, he1, ?_, n1.trans by'⟩
      rw [hme, hme1, hd, zpow2_add]; push_cast; rw [zpow_natCast]; ring
  obtain ⟨q, hq⟩ : ∃ q, q = y - x := ⟨_, rfl⟩
  rw [← hq] at hM hb ⊢
  have hp := zpow2_pos (ulpExp q)
  by_cases h0 : q = 0
  · rw [h0]; simp [rnQ]
  rcases lt_or_ge (ulpExp q) g with h | h
  · obtain ⟨d, hd⟩ : ∃ d : ℕ, g = d + ulpExp q := ⟨(g - ulpExp q).toNat, by omega⟩
    have hex : q / 2 ^ ulpExp q = ((M * 2 ^ d : ℤ) : ℚ) := by
      rw [div_eq_iff hp.ne', hM]
      conv_lhs => rw [hd, zpow2_add]
      rw [← hM]; push_cast; rw [zpow_natCast]; ring
    have : rnQ q = q := by
      have e : rnQ q = (rhe (q / 2 ^ ulpExp q) : ℚ) * 2 ^ ulpExp q := by unfold rnQ; rw [if_neg h0]
      rw [e, hex, rhe_int, ← hex, div_mul_cancel₀ _ hp.ne']
    rw [this]; simp [rnQ]
  · obtain ⟨d, hd⟩ : ∃ d : ℕ, ulpExp q = d + g := ⟨(ulpExp q - g).toNat, by omega⟩
    have hr : q - rnQ q = ((M - rhe (q / 2 ^ ulpExp q) * 2 ^ d : ℤ) : ℚ) * 2 ^ g := by
      have e : rnQ q = (rhe (q / 2 ^ ulpExp q) : ℚ) * 2 ^ ulpExp q := by unfold rnQ; rw [if_neg h0]
      have e' : (2 : ℚ) ^ ulpExp q = 2 ^ d * 2 ^ g := by rw [hd, zpow2_add, zpow_natCast]
      rw [e]
      push_cast
      generalize (rhe (q / 2 ^ ulpExp q) : ℚ) = r
      rw [e', sub_mul, ← hM]; ring
    rw [hr] at hb ⊢
    rw [abs_mul, abs_of_pos (zpow2_pos g)] at hb
    apply rnQ_of_mult hg
    exact_mod_cast le_of_mul_le_mul_right hb (zpow2_pos g)

/-- the relative error of a sum of doubles, subnormal ones included -/
theorem sum_error {x y : ℚ} (hx : rnQ x = x) (hy : rnQ y = y) : |rnQ (x + y) - (x + y)| ≤ 1 / 2 ^ 53 * |x + y| := by
  rcases le_or_gt |x + y| (2 ^ (-1021 : ℤ)) with h | h
  · rw [sum_small hx hy h, sub_self, abs_zero]; positivity
  · obtain ⟨q, hq⟩ : ∃ q, q = x + y := ⟨_, rfl⟩
    rw [← hq] at h ⊢
    have hz := zpow2_pos (-1021)
    have hq0 : 0 < |q| := hz.trans h
    have h0 : q ≠ 0 := abs_pos.mp hq0
    have hp := zpow2_pos (ulpExp q)
    have e : rnQ q - q = ((rhe (q / 2 ^ ulpExp q) : ℚ) - q / 2 ^ ulpExp q) * 2 ^ ulpExp q := by
      unfold rnQ; rw [if_neg h0, sub_mul, div_mul_cancel₀ _ hp.ne']
    obtain ⟨l1, l2⟩ := ilog_spec hq0
    have hil : -1074 ≤ ilog |q| - 52 := by
      by_contra hc
      have : (2 : ℚ) ^ (ilog |q| + 1) ≤ 2 ^ (-1021 : ℤ) := zpow2_le (by omega)
      linarith
    have hu : (2 : ℚ) ^ ulpExp q ≤ 1 / 2 ^ 52 * |q| := by
      unfold ulpExp
      rw [max_eq_left hil, sub_eq_add_neg, zpow2_add, mul_comm]
      have h2 : (2 : ℚ) ^ (-52 : ℤ) = 1 / 2 ^ 52 := by rw [zpow_neg, one_div]; rfl
      rw [h2]
      exact mul_le_mul_of_nonneg_left l1 (by positivity)
    rw [e, abs_mul, abs_of_pos hp]
    calc |(rhe (q / 2 ^ ulpExp q) : ℚ) - q / 2 ^ ulpExp q| * 2 ^ ulpExp q ≤ 1 / 2 * (1 / 2 ^ 52 * |q|) :=
          mul_le_mul (rhe_error _) hu hp.le (by norm_num)
      _ = _ := by ring

theorem rnQ_double {x : ℚ} (hx : rnQ x = x) : rnQ (2 * x) = 2 * x := by
  obtain ⟨m, e, he, hm, hme⟩ := rnQ_mult x
  rw [hx] at hme
  have : 2 * x = m * 2 ^ (e + 1) := by rw [hme, zpow2_add]; ring
  rw [this]
  exact rnQ_of_mult (by omega) hm

/-- half of a double is a double, or it is tiny -/
theorem rnQ_half {x : ℚ} (hx : rnQ x = x) : rnQ (x / 2) = x / 2 ∨ |x| ≤ 2 ^ (-1021 : ℤ) := by
  obtain ⟨m, e, he, hm, hme⟩ := rnQ_mult x
  rw [hx] at hme
  rcases he.eq_or_lt with rfl | he
  · right
    rw [hme, abs_mul, abs_of_pos (zpow2_pos _), show (-1021 : ℤ) = 53 + -1074 by norm_num, zpow2_add]
    refine mul_le_mul_of_nonneg_right ?_ (zpow2_pos _).le
    exact_mod_cast hm
  · left
    have : x / 2 = m * 2 ^ (e + -1) := by
      rw [hme, zpow2_add]; norm_num; ring
    rw [this]
    exact rnQ_of_mult (by omega) hm

/-- **the clipped step**: `d = y - x` and `t' = x + d` rounded; `t'` is within `2^-51 X` of `y`; if it falls short of `y` then the
remaining difference is a double and smaller than `d` -/
theorem clip_value {x y X : ℚ} (hx : rnQ x = x) (hy : rnQ y = y) (hlt : x < y) (hxX : |x| ≤ X) (hyX : |y| ≤ X) :
    0 < rnQ (y - x) ∧ rnQ (y - x) ≤ 5 / 2 * X ∧ |rnQ (x + rnQ (y - x)) - y| ≤ 1 / 2 ^ 51 * X ∧
      (rnQ (x + rnQ (y - x)) < y →
        rnQ (y - rnQ (x + rnQ (y - x))) = y - rnQ (x + rnQ (y - x)) ∧ y ≤ rnQ (x + rnQ (y - x)) + rnQ (y - x)) := by
  have hnx : rnQ (-x) = -x := by rw [rnQ_neg, hx]
  have hd1 := sum_error hy hnx
  rw [← sub_eq_add_neg, abs_of_pos (by linarith : (0 : ℚ) < y - x)] at hd1
  obtain ⟨d, hd⟩ : ∃ d, d = rnQ (y - x) := ⟨_, rfl⟩
  rw [← hd] at hd1 ⊢
  have hdd : rnQ d = d := by
    obtain ⟨m, e, he, hm, hme⟩ := rnQ_mult (y - x)
    rw [hd, hme]; exact rnQ_of_mult he hm
  have ht1 := sum_error hx hdd
  obtain ⟨t, ht⟩ : ∃ t, t = rnQ (x + d) := ⟨_, rfl⟩
  rw [← ht] at ht1 ⊢
  have htt : rnQ t = t := by
    obtain ⟨m, e, he, hm, hme⟩ := rnQ_mult (x + d)
    rw [ht, hme]; exact rnQ_of_mult he hm
  have hX := abs_le.mp hxX
  have hY := abs_le.mp hyX
  have hd2 := abs_le.mp hd1
  have hdpos : 0 < d := by norm_num at hd2 ⊢; linarith
  have hxd : |x + d| ≤ |y| + 1 / 2 ^ 53 * (y - x) := by
    have e : x + d = y + (d - (y - x)) := by ring
    rw [e]
    exact (abs_add_le _ _).trans (by linarith)
  refine ⟨hdpos, ?_, ?_, fun hs => ?_⟩
  · norm_num at hd2; linarith
  · have e : t - y = (t - (x + d)) + (d - (y - x)) := by ring
    rw [e]
    refine (abs_add_le _ _).trans ?_
    norm_num at hxd ht1 hd1 ⊢
    linarith
  · -- the difference was exact
    have exact1 : rnQ (y - x) = y - x → False := fun h => by
      rw [h] at hd
      have : x + d = y := by rw [hd]; ring
      rw [this, hy] at ht
      linarith
    -- the sum was exact
    have exact2 : rnQ (x + d) = x + d → rnQ (y - t) = y - t ∧ y ≤ t + d := fun h => by
      rw [h] at ht
      have e : y - t = y - x - rnQ (y - x) := by rw [ht, ← hd]; ring
      refine ⟨by rw [e]; exact diff_error_double hx hy, ?_⟩
      rw [ht]
      norm_num at hd2
      linarith
    -- neither, with `t1` positive and not small
    have near : 0 < y → y / 2 ≤ y - x → y - x ≤ 2 * y → rnQ (y - t) = y - t ∧ y ≤ t + d := fun h1 h2 h3 => by
      rw [abs_of_pos h1] at hxd
      have ht2 := abs_le.mp ht1
      have hr : y - t ≤ 1 / 2 ^ 50 * y := by
        norm_num at hxd ht2 hd2 ⊢
        linarith
      constructor
      · exact sterbenz htt hy h1 (by norm_num at hr; linarith) (by linarith)
      · norm_num at hr hd2 ⊢; linarith
    rcases le_or_gt y 0 with h0 | h0
    · by_cases hc : -x ≤ 2 * -y
      · exfalso
        apply exact1
        have h1 : y < 0 := by
          rcases h0.lt_or_eq with h | rfl
          · exact h
          · linarith
        have := sterbenz hnx (show rnQ (-y) = -y by rw [rnQ_neg, hy]) (by linarith) (by linarith) hc
        rw [show -y - -x = -(y - x) by ring, rnQ_neg] at this
        linarith
      · apply exact2
        have h1 : 0 < -x := by linarith
        have hdx : -x / 2 ≤ d := by
          rcases rnQ_half hnx with h | h
          · rw [← h, hd]; exact rnQ_mono (by linarith)
          · rw [hd, sub_eq_add_neg, sum_small hy hnx]
            · linarith
            · rw [abs_of_pos h1] at h; rw [abs_of_pos (by linarith)]; linarith
        have hdx2 : d ≤ 2 * -x := by
          rw [hd, ← rnQ_double hnx]; exact rnQ_mono (by linarith)
        have := sterbenz hdd hnx h1 hdx hdx2
        rw [show -x - d = -(x + d) by ring, rnQ_neg] at this
        linarith
    · by_cases hc : y / 2 ≤ x
      · exact (exact1 (sterbenz hx hy h0 hc (by linarith))).elim
      · by_cases hc2 : -x ≤ y
        · exact near h0 (by linarith) (by linarith)
        · apply exact2
          have h1 : 0 < -x := by linarith
          have hdx : -x ≤ d := by
            rw [hd, ← hnx]; exact rnQ_mono (by linarith)
          have hdx2 : d ≤ 2 * -x := by
            rw [hd, ← rnQ_double hnx]; exact rnQ_mono (by linarith)
          have := sterbenz hdd hnx h1 (by linarith) hdx2
          rw [show -x - d = -(x + d) by ring, rnQ_neg] at this
          linarith

/-! ### the loop -/

/-- a full step advances the time by at least an eighth of the step size -/
theorem full_step {t : FP} {d : FP} {X : ℚ} (hf : t.isFinite = true) (hdd : d.IsDouble) (hfd : d.isFinite = true)
    (hd0 : 0 < d.val) (hX : |t.val| ≤ X) (hXd : X ≤ 2 ^ 51 * d.val) (hXb : X ≤ 2 ^ 1022) (hdb : d.val ≤ 2 ^ 1022) :
    (t + d).isFinite = true ∧ (t + d).val = rnQ (t.val + d.val) ∧ t.val + d.val / 8 ≤ (t + d).val := by
  have hmin := min_double (rep_val hdd hfd).1 hd0
  have h1 : |t.val + d.val| ≤ X + d.val := (abs_add_le _ _).trans (by rw [abs_of_pos hd0]; linarith)
  have h2 := rnQ_error_abs (t.val + d.val)
  have h3 : (1 : ℚ) / 2 ^ 53 * |t.val + d.val| ≤ 1 / 2 ^ 53 * (2 ^ 51 * d.val + d.val) := mul_le_mul_of_nonneg_left (by linarith) (by positivity)
  have h4 : |rnQ (t.val + d.val) - (t.val + d.val)| ≤ 7 / 8 * d.val := by
    refine h2.trans ?_
    generalize (2 : ℚ) ^ (-1074 : ℤ) = z at *
    norm_num at h3 ⊢
    linarith
  have h5 := abs_le.mp h4
  rcases add_spec hf hfd with ⟨q1, q2⟩ | ⟨-, q2⟩
  · exact ⟨q1, q2, by rw [q2]; linarith⟩
  · exfalso
    have h6 := abs_add_le (rnQ (t.val + d.val) - (t.val + d.val)) (t.val + d.val)
    rw [sub_add_cancel] at h6
    have e : (2 : ℚ) ^ (1024 : ℤ) = 4 * 2 ^ 1022 := by
      rw [show (1024 : ℤ) = 2 + (1022 : ℕ) by norm_num, zpow2_add, zpow_natCast]; norm_num
    rw [e] at q2
    have h7 : (0 : ℚ) < 2 ^ 1022 := by positivity
    clear h2 h3 hmin e hXd
    generalize (2 : ℚ) ^ 1022 = z at *
    linarith

section
variable [Libm] {n : ℕ} {nd : Bool} {f : FP → Vec FP n → Vec FP n} {t0 t1 : FP} {y0 : Vec FP n}
  {o : ErkOpts FP} {dt : FP} {sc : SolverCoeffs FP} {oo : OutOpts} {mo : ℕ}

/-- a pass of the loop with fixed steps -/
theorem fixed_pass (hs : StreamOK oo) (had : o.adaptive = false) (hms : o.maxSteps < 0) {s : ErkState FP n} (hlt : ltb s.t t1 = true) :
    ∃ s', erkBody nd f t1 o oo sc mo s = .next s' ∧ s'.t = s.t + clipDt s.t t1 s.dt ∧ s'.dt = clipDt s.t t1 s.dt ∧
      s'.sol.status = s.sol.status ∧ s'.sol.tVals = s.sol.tVals ++ [s.t + clipDt s.t t1 s.dt] := by
  have hc := bodyCase nd f t1 o oo sc mo s
  generalize hb : erkBody nd f t1 o oo sc mo s = x at hc
  obtain ⟨L, e, -, -, hd, -⟩ := attempt_sol f o sc mo s (clipDt s.t t1 s.dt) s.sol.bump
  have hnd : (attempt f o sc mo s (clipDt s.t t1 s.dt) s.sol.bump).newDt = clipDt s.t t1 s.dt := by simp [attempt, had]
  have hst : (attempt f o sc mo s (clipDt s.t t1 s.dt) s.sol.bump).sol.status = s.sol.status := by rw [e]; rfl
  have htv : (attempt f o sc mo s (clipDt s.t t1 s.dt) s.sol.bump).sol.tVals = s.sol.tVals := by rw [e]; rfl
  cases hc with
  | finished h => rw [hlt] at h; cases h
  | maxSteps h h0 h1 => omega
  | throws h ha hb => rw [had] at ha; cases ha
  | assertFail h ha hnd a hA he => rw [had] at ha; cases ha
  | ub h hw hs' => rw [hs hw] at hs'; cases hs'
  | accepted h hm hb2 a hA hE hr =>
    subst hA
    refine ⟨_, rfl, ?_, ?_, ?_, ?_⟩
    · change s.t + (attemptAt f t1 o sc mo s).dt = _; unfold attemptAt; rw [hd]
    · exact hnd
    · unfold attemptAt
      cases hw : oo.writeToFile <;> simp [accept, ErkOutput.line, hw, hst]
    · unfold attemptAt
      cases hw : oo.writeToFile <;> simp [accept, ErkOutput.line, hw, htv, hd]
  | rejected h hm hb2 a hA hE had' hr => rw [had] at had'; cases had'

/-- the loop is over -/
theorem pass_done {s : ErkState FP n} (hlt : ltb s.t t1 = false) :
    ∃ out, runLoop (erkBody nd f t1 o oo sc mo) 1 s = some (.ret out) ∧ out.status = s.sol.status ∧ out.tVals = s.sol.tVals := by
  refine ⟨{ s.sol with acceptFrac := some (lit (s.step : ℚ) / lit (s.sol.attempt : ℚ)) }, ?_, rfl, rfl⟩
  have : erkBody nd f t1 o oo sc mo s = .done (.ret { s.sol with acceptFrac := some (lit (s.step : ℚ) / lit (s.sol.attempt : ℚ)) }) := by
    unfold erkBody
    rw [if_neg (by rw [hlt]; simp)]
  simp [runLoop, this]

omit [Libm] in
theorem e1022 : (2 : ℚ) ^ (1024 : ℤ) = 4 * 2 ^ 1022 := by
  rw [show (1024 : ℤ) = 2 + (1022 : ℕ) by norm_num, zpow2_add, zpow_natCast]; norm_num

/-- what is shown of the runs from a state: they return with the status of the state, a last time `tl` with `P tl.val`, and at most `k`
more samples -/
def EndsAt (nd : Bool) (f : FP → Vec FP n → Vec FP n) (t1 : FP) (o : ErkOpts FP) (oo : OutOpts) (sc : SolverCoeffs FP) (mo : ℕ)
    (P : ℚ → Prop) (s : ErkState FP n) (k : ℕ) : Prop :=
  ∃ fuel out, runLoop (erkBody nd f t1 o oo sc mo) fuel s = some (.ret out) ∧ out.status = s.sol.status ∧
    (∃ tl, out.tVals.getLast? = some tl ∧ tl.isFinite = true ∧ P tl.val) ∧ out.tVals.length ≤ s.sol.tVals.length + k

theorem EndsAt.mono {P : ℚ → Prop} {s : ErkState FP n} {k k' : ℕ} (h : EndsAt nd f t1 o oo sc mo P s k) (hk : k ≤ k') :
    EndsAt nd f t1 o oo sc mo P s k' := by
  obtain ⟨fuel, out, g1, g2, g3, g4⟩ := h
  exact ⟨fuel, out, g1, g2, g3, by omega⟩

/-- the step reaches the end -/
theorem ends_step {P : ℚ → Prop} (hs : StreamOK oo) (had : o.adaptive = false) (hms : o.maxSteps < 0) {s : ErkState FP n}
    (hlt : ltb s.t t1 = true) {d : FP} (hd : clipDt s.t t1 s.dt = d) (h1 : (s.t + d).isFinite = true) (h2 : t1.val ≤ (s.t + d).val)
    (hP : P (s.t + d).val) (hf1 : t1.isFinite = true) : EndsAt nd f t1 o oo sc mo P s 1 := by
  subst hd
  obtain ⟨s', hb, e1, e2, e3, e4⟩ := fixed_pass (nd := nd) (f := f) (sc := sc) (mo := mo) hs had hms hlt
  have hnl : ltb s'.t t1 = false := by
    rw [e1]
    show lt _ _ = false
    rw [Bool.eq_false_iff]
    intro h
    rw [lt_fin_iff h1 hf1] at h
    linarith
  obtain ⟨out, g1, g2, g3⟩ := pass_done (nd := nd) (f := f) (o := o) (oo := oo) (sc := sc) (mo := mo) hnl
  refine ⟨2, out, by rw [runLoop_next hb]; exact g1, by rw [g2, e3], ⟨_, by rw [g3, e4]; simp, h1, hP⟩, ?_⟩
  rw [g3, e4]
  simp

/-- the step does not reach the end -/
theorem ends_next {P : ℚ → Prop} (hs : StreamOK oo) (had : o.adaptive = false) (hms : o.maxSteps < 0) {s : ErkState FP n}
    (hlt : ltb s.t t1 = true) {d : FP} (hd : clipDt s.t t1 s.dt = d) {k : ℕ}
    (h : ∀ s' : ErkState FP n, s'.t = s.t + d → s'.dt = d → EndsAt nd f t1 o oo sc mo P s' k) : EndsAt nd f t1 o oo sc mo P s (k + 1) := by
  subst hd
  obtain ⟨s', hb, e1, e2, e3, e4⟩ := fixed_pass (nd := nd) (f := f) (sc := sc) (mo := mo) hs had hms hlt
  obtain ⟨fuel, out, g1, g2, g3, g4⟩ := h s' e1 e2
  refine ⟨fuel + 1, out, by rw [runLoop_next hb]; exact g1, by rw [g2, e3], g3, ?_⟩
  rw [e4] at g4
  simp at g4
  omega

/-- **the last steps**, from the first clipped one on: at most two -/
theorem ends_clipped {P : ℚ → Prop} (hs : StreamOK oo) (had : o.adaptive = false) (hms : o.maxSteps < 0) (ht1 : t1.IsDouble)
    (hf1 : t1.isFinite = true) {X : ℚ} (hX1 : |t1.val| ≤ X) (hXb : X ≤ 2 ^ 1022)
    (s : ErkState FP n) (htd : s.t.IsDouble) (hft : s.t.isFinite = true) (hlt : s.t.val < t1.val) (hX : |s.t.val| ≤ X)
    (hd : clipDt s.t t1 s.dt = t1 - s.t) (hP1 : P t1.val)
    (hP : ∀ v, t1.val < v → v ≤ t1.val + 1 / 2 ^ 51 * X → rnQ (t1.val - s.t.val) ≠ t1.val - s.t.val → P v) :
    EndsAt nd f t1 o oo sc mo P s 2 := by
  obtain ⟨r, -⟩ := rep_val htd hft
  obtain ⟨r1, -⟩ := rep_val ht1 hf1
  obtain ⟨c1, c2, c3, c4⟩ := clip_value r r1 hlt hX hX1
  have hX0 : 0 ≤ X := (abs_nonneg _).trans hX
  have h51 : 1 / 2 ^ 51 * X ≤ X := by clear hXb; norm_num; linarith
  have hz : (0 : ℚ) < 2 ^ 1022 := by positivity
  have hltb : ltb s.t t1 = true := (lt_fin_iff hft hf1).mpr hlt
  -- the difference
  obtain ⟨a1, a2⟩ : (t1 - s.t).isFinite = true ∧ (t1 - s.t).val = rnQ (t1.val - s.t.val) := by
    rcases sub_spec hf1 hft with h | ⟨-, h⟩
    · exact h
    · exfalso
      rw [abs_of_pos c1, e1022] at h
      generalize (2 : ℚ) ^ 1022 = z at *
      linarith
  have da : (t1 - s.t).IsDouble := isDouble_add hf1 (neg_fin hft).1
  -- the sum
  have c3' := abs_le.mp c3
  obtain ⟨b1, b2⟩ : (s.t + (t1 - s.t)).isFinite = true ∧ (s.t + (t1 - s.t)).val = rnQ (s.t.val + rnQ (t1.val - s.t.val)) := by
    rcases add_spec hft a1 with ⟨q1, q2⟩ | ⟨-, h⟩
    · exact ⟨q1, by rw [q2, a2]⟩
    · exfalso
      rw [a2, e1022] at h
      have h6 := abs_add_le (rnQ (s.t.val + rnQ (t1.val - s.t.val)) - t1.val) t1.val
      rw [sub_add_cancel] at h6
      have h7 := h51
      generalize (2 : ℚ) ^ 1022 = z at *
      linarith
  have db : (s.t + (t1 - s.t)).IsDouble := isDouble_add hft a1
  rcases lt_or_ge (s.t + (t1 - s.t)).val t1.val with hsh | hge
  · -- falls short: one more step, exact
    refine ends_next hs had hms hltb hd fun s' e1 e2 => ?_
    rw [b2] at hsh
    obtain ⟨x1, x2⟩ := c4 hsh
    rw [← b2] at hsh x1
    have hltb' : ltb s'.t t1 = true := by rw [e1]; exact (lt_fin_iff b1 hf1).mpr hsh
    by_cases hcl : ltb t1 (s'.t + s'.dt) = true
    · have hcd : clipDt s'.t t1 s'.dt = t1 - (s.t + (t1 - s.t)) := by unfold clipDt; rw [if_pos hcl, e1]
      have hsm : |t1.val - (s.t + (t1 - s.t)).val| < 2 ^ (1024 : ℤ) := by
        rw [b2, abs_sub_comm, e1022]
        have h7 := h51
        generalize (2 : ℚ) ^ 1022 = z at *
        linarith
      obtain ⟨g1, g2⟩ : (t1 - (s.t + (t1 - s.t))).isFinite = true ∧
          (t1 - (s.t + (t1 - s.t))).val = t1.val - (s.t + (t1 - s.t)).val := by
        rcases sub_spec hf1 b1 with h | ⟨-, h⟩
        · exact ⟨h.1, by rw [h.2, x1]⟩
        · rw [x1] at h; exact absurd h (not_le.mpr hsm)
      obtain ⟨k1, k2⟩ : (s'.t + (t1 - (s.t + (t1 - s.t)))).isFinite = true ∧ (s'.t + (t1 - (s.t + (t1 - s.t)))).val = t1.val := by
        rw [e1]
        have e : (s.t + (t1 - s.t)).val + (t1 - (s.t + (t1 - s.t))).val = t1.val := by rw [g2]; ring
        rcases add_spec b1 g1 with ⟨q1, q2⟩ | ⟨-, h⟩
        · exact ⟨q1, by rw [q2, e, r1]⟩
        · rw [e, r1] at h; exact absurd h (not_le.mpr (rep_val ht1 hf1).2)
      exact ends_step hs had hms hltb' hcd k1 k2.ge (by rw [k2]; exact hP1) hf1
    · have hcd : clipDt s'.t t1 s'.dt = t1 - s.t := by unfold clipDt; rw [if_neg hcl, e2]
      rw [e1, e2] at hcl
      have x2' : t1.val ≤ rnQ ((s.t + (t1 - s.t)).val + (t1 - s.t).val) := by
        rw [← r1]
        exact rnQ_mono (by rw [b2, a2]; exact x2)
      obtain ⟨k1, k2⟩ : ((s.t + (t1 - s.t)) + (t1 - s.t)).isFinite = true ∧ ((s.t + (t1 - s.t)) + (t1 - s.t)).val = t1.val := by
        rcases add_spec b1 a1 with ⟨q1, q2⟩ | ⟨h, h'⟩
        · refine ⟨q1, le_antisymm ?_ (by rw [q2]; exact x2')⟩
          by_contra hc
          exact hcl ((lt_fin_iff hf1 q1).mpr (not_le.mp hc))
        · exfalso
          have hb := x2
          have hY := abs_le.mp hX1
          rw [← b2, ← a2] at hb
          rw [← a2] at c2
          have h7 : |(s.t + (t1 - s.t)).val + (t1 - s.t).val| ≤ 7 / 2 * X := abs_le.mpr ⟨by linarith, by linarith⟩
          have h8 := sum_error (rep_val db b1).1 (rep_val da a1).1
          have h9 := abs_sub_abs_le_abs_sub (rnQ ((s.t + (t1 - s.t)).val + (t1 - s.t).val)) ((s.t + (t1 - s.t)).val + (t1 - s.t).val)
          have h10 : |rnQ ((s.t + (t1 - s.t)).val + (t1 - s.t).val)| ≤ 15 / 4 * X := by
            clear hXb hz h'
            norm_num at h8
            linarith
          rw [e1022] at h'
          generalize (2 : ℚ) ^ 1022 = z at *
          linarith
      exact ends_step hs had hms hltb' hcd (by rw [e1]; exact k1) (by rw [e1]; exact k2.ge) (by rw [e1, k2]; exact hP1) hf1
  · refine (ends_step hs had hms hltb hd b1 hge ?_ hf1).mono (by norm_num)
    rcases hge.eq_or_lt with h | h
    · rw [← h]; exact hP1
    · refine hP _ h (by rw [b2]; linarith) fun hex => ?_
      rw [b2, hex, add_sub_cancel, r1] at h
      exact lt_irrefl _ h

/-- **full steps and then the last ones** -/
theorem ends_loop {P : ℚ → Prop} (hs : StreamOK oo) (had : o.adaptive = false) (hms : o.maxSteps < 0) (ht1 : t1.IsDouble)
    (hf1 : t1.isFinite = true) {d : FP} {X : ℚ} (hdd : d.IsDouble) (hfd : d.isFinite = true) (hd0 : 0 < d.val)
    (hXd : X ≤ 2 ^ 51 * d.val) (hXb : X ≤ 2 ^ 1022) (hdb : d.val ≤ 2 ^ 1022) (hX1 : |t1.val| ≤ X) (hP1 : P t1.val)
    (hP : ∀ t v, rnQ t = t → t < t1.val → t1.val < t + d.val → t1.val < v → v ≤ t1.val + 1 / 2 ^ 51 * X →
      rnQ (t1.val - t) ≠ t1.val - t → P v) (k : ℕ) :
    ∀ s : ErkState FP n, s.dt = d → s.t.IsDouble → s.t.isFinite = true → -X ≤ s.t.val → s.t.val < t1.val →
      t1.val - s.t.val ≤ k * (d.val / 8) → EndsAt nd f t1 o oo sc mo P s (k + 1) := by
  induction k with
  | zero =>
    intro s _ _ _ _ h1 h2
    simp at h2
    linarith
  | succ k ih =>
    intro s hsd htd hft hlo hlt hk
    have hltb : ltb s.t t1 = true := (lt_fin_iff hft hf1).mpr hlt
    have hX : |s.t.val| ≤ X := abs_le.mpr ⟨hlo, by linarith [le_abs_self t1.val]⟩
    obtain ⟨a1, a2, a3⟩ := full_step hft hdd hfd hd0 hX hXd hXb hdb
    by_cases hcl : ltb t1 (s.t + d) = true
    · have e : clipDt s.t t1 s.dt = t1 - s.t := by unfold clipDt; rw [hsd, if_pos hcl]
      have h3 : t1.val < rnQ (s.t.val + d.val) := by
        rw [← a2]; exact (lt_fin_iff hf1 a1).mp hcl
      have h4 : t1.val < s.t.val + d.val := by
        by_contra hc
        have := rnQ_mono (not_lt.mp hc)
        rw [(rep_val ht1 hf1).1] at this
        linarith
      exact (ends_clipped hs had hms ht1 hf1 hX1 hXb s htd hft hlt hX e hP1
        fun v h1 h2 h5 => hP _ v (rep_val htd hft).1 hlt h4 h1 h2 h5).mono (by omega)
    · have e : clipDt s.t t1 s.dt = d := by unfold clipDt; rw [hsd, if_neg hcl]
      have hle : (s.t + d).val ≤ t1.val := by
        by_contra hc
        exact hcl ((lt_fin_iff hf1 a1).mpr (not_le.mp hc))
      rcases hle.lt_or_eq with hlt' | heq
      · refine ends_next hs had hms hltb e fun s' e1 e2 => ?_
        exact ih s' e2 (by rw [e1]; exact isDouble_add hft hfd) (by rw [e1]; exact a1) (by rw [e1]; linarith) (by rw [e1]; exact hlt')
          (by rw [e1]; push_cast at hk; linarith)
      · exact (ends_step hs had hms hltb e a1 heq.ge (by rw [heq]; exact hP1) hf1).mono (by omega)

theorem lit0_fp : (lit 0 : FP).isFinite = true ∧ (lit 0 : FP).val = 0 := by
  show (rnd false 0).isFinite = true ∧ (rnd false 0).val = 0
  decide +kernel

/-- the main loop of a run -/
theorem odeint_loop {m : ℤ} (hm : m ∈ erkImplemented) (hmo : minOrder (erkCoeffs m : SolverCoeffs FP) = some mo)
    (hass : ltb (lit 0) (clipDt t0 t1 dt) = true) (fuel : ℕ) : erkOdeint nd f t0 t1 y0 o oo m dt fuel =
      runLoop (erkBody nd f t1 (effOpts o (erkCoeffs m)) oo (erkCoeffs m) mo) fuel (erkInit f t0 y0 (clipDt t0 t1 dt) (erkCoeffs m)) := by
  have hv : erkVerify (erkCoeffs m : SolverCoeffs FP) = true := (C08_erk rfl m).mpr hm
  have e1 : erkOdeint nd f t0 t1 y0 o oo m dt fuel =
      if !nd && !erkVerify (erkCoeffs m : SolverCoeffs FP) then some .assertFail
      else erkGuts nd f t0 t1 y0 (effOpts o (erkCoeffs m)) dt (erkCoeffs m) oo fuel := rfl
  rw [e1, hv]
  unfold erkGuts
  simp only [hass, Bool.not_true, Bool.and_false, Bool.false_eq_true, if_false, hmo]

theorem effOpts_fixed {m : ℤ} (had : o.adaptive = false ∨ (erkCoeffs m : SolverCoeffs FP).b2 = []) :
    (effOpts o (erkCoeffs m : SolverCoeffs FP)).adaptive = false := by
  by_contra hc
  obtain ⟨h1, h2⟩ := effOpts_adaptive.mp (show (effOpts o (erkCoeffs m : SolverCoeffs FP)).adaptive = true by simpa using hc)
  rcases had with h | h
  · rw [h1] at h; cases h
  · exact h2 (by rw [h]; rfl)

/-- **C92.**  An explicit method with fixed steps (option off, or a method without embedded weights) and no step limit, in binary64, for any
right-hand side: if the step is at least `2^-51` times the larger end point, the run from `t0 < t1` ends successfully, after at most
`8 (t1 - t0) / dt + 4` samples; the last recorded time is not before `t1`, at most `2^-51 max(|t0|, |t1|)` after it, and it is exactly `t1` if
`t1 = 0` or `2 dt ≤ |t1|`. -/
theorem C92_completes {m : ℤ} (hm : m ∈ erkImplemented) (hs : StreamOK oo)
    (had : o.adaptive = false ∨ (erkCoeffs m : SolverCoeffs FP).b2 = []) (hms : o.maxSteps < 0)
    (h0 : t0.IsDouble) (h1 : t1.IsDouble) (hd : dt.IsDouble) (f0 : t0.isFinite = true) (f1 : t1.isFinite = true) (fd : dt.isFinite = true)
    (hlt : t0.val < t1.val) (hpos : 0 < dt.val) (hmin : max |t0.val| |t1.val| ≤ 2 ^ 51 * dt.val)
    (hmax : max |t0.val| |t1.val| ≤ 2 ^ 1022) (hdt : dt.val ≤ 2 ^ 1022) :
    ∃ fuel out tl, erkOdeint nd f t0 t1 y0 o oo m dt fuel = some (.ret out) ∧ out.status = 0 ∧ out.tVals.getLast? = some tl ∧
      tl.isFinite = true ∧ t1.val ≤ tl.val ∧ tl.val ≤ t1.val + 1 / 2 ^ 51 * max |t0.val| |t1.val| ∧
      ((t1.val = 0 ∨ 2 * dt.val ≤ |t1.val|) → tl.val = t1.val) ∧
      (out.tVals.length : ℚ) ≤ 8 * (t1.val - t0.val) / dt.val + 4 := by
  obtain ⟨mo, hmo⟩ := shipped_minOrder (F := FP) hm
  have hf := effOpts_fixed had
  have hmx : (effOpts o (erkCoeffs m : SolverCoeffs FP)).maxSteps < 0 := by rw [(effOpts_fields o _).2.2.2]; exact hms
  obtain ⟨X, hXe⟩ : ∃ X, X = max |t0.val| |t1.val| := ⟨_, rfl⟩
  have hX0 : |t0.val| ≤ X := hXe ▸ le_max_left _ _
  have hX1 : |t1.val| ≤ X := hXe ▸ le_max_right _ _
  rw [← hXe] at hmin hmax ⊢
  have hX : 0 ≤ 1 / 2 ^ 51 * X := mul_nonneg (by norm_num) ((abs_nonneg _).trans hX0)
  obtain ⟨P, hPe⟩ : ∃ P : ℚ → Prop, P = fun v => t1.val ≤ v ∧ v ≤ t1.val + 1 / 2 ^ 51 * X ∧
    ((t1.val = 0 ∨ 2 * dt.val ≤ |t1.val|) → v = t1.val) := ⟨_, rfl⟩
  have hP1 : P t1.val := by rw [hPe]; exact ⟨le_rfl, by linarith, fun _ => rfl⟩
  have hP : ∀ t v, rnQ t = t → t < t1.val → t1.val < t + dt.val → t1.val < v → v ≤ t1.val + 1 / 2 ^ 51 * X →
      rnQ (t1.val - t) ≠ t1.val - t → P v := by
    intro t v hr g1 g2 g3 g4 g5
    rw [hPe]
    refine ⟨g3.le, g4, fun g6 => absurd (sterbenz' hr (rep_val h1 f1).1 ?_) g5⟩
    rcases g6 with g6 | g6
    · exact Or.inr g6
    · left
      rw [abs_of_pos (by linarith)]
      linarith
  obtain ⟨k, hk⟩ : ∃ k : ℕ, k = ⌈8 * (t1.val - t0.val) / dt.val⌉₊ := ⟨_, rfl⟩
  have hk1 : 8 * (t1.val - t0.val) / dt.val ≤ k := hk ▸ Nat.le_ceil _
  have hk2 : (k : ℚ) < 8 * (t1.val - t0.val) / dt.val + 1 :=
    hk ▸ Nat.ceil_lt_add_one (div_nonneg (by linarith) hpos.le)
  have hk0 : 1 ≤ k := by
    rw [hk]; exact Nat.one_le_ceil_iff.mpr (div_pos (by linarith) hpos)
  obtain ⟨z1, z2, -, -, z5, -⟩ := erkInit_flds f (erkCoeffs m : SolverCoeffs FP) t0 (clipDt t0 t1 dt) y0
  have z6 : (erkInit f t0 y0 (clipDt t0 t1 dt) (erkCoeffs m : SolverCoeffs FP)).sol.status = 0 := by
    unfold erkInit; split <;> simp [evalFun]
  have hltb : ltb t0 t1 = true := (lt_fin_iff f0 f1).mpr hlt
  obtain ⟨a1, a2, a3⟩ := full_step f0 hd fd hpos hX0 hmin hmax hdt
  obtain ⟨c1, c2, -, -⟩ := clip_value (rep_val h0 f0).1 (rep_val h1 f1).1 hlt hX0 hX1
  -- the run
  have hrun : EndsAt nd f t1 (effOpts o (erkCoeffs m)) oo (erkCoeffs m) mo P (erkInit f t0 y0 (clipDt t0 t1 dt) (erkCoeffs m)) (k + 1) ∧
      ltb (lit 0) (clipDt t0 t1 dt) = true := by
    have hl0 := lit0_fp
    by_cases hcl : ltb t1 (t0 + dt) = true
    · have e : clipDt t0 t1 dt = t1 - t0 := by unfold clipDt; rw [if_pos hcl]
      have e' : clipDt t0 t1 (t1 - t0) = t1 - t0 := by unfold clipDt; split <;> rfl
      have h4 : t1.val < t0.val + dt.val := by
        by_contra hc
        have := rnQ_mono (not_lt.mp hc)
        rw [(rep_val h1 f1).1, ← a2] at this
        exact absurd ((lt_fin_iff f1 a1).mp hcl) (not_lt.mpr this)
      constructor
      · refine (ends_clipped hs hf hmx h1 f1 hX1 hmax _ (by rw [z1]; exact h0) (by rw [z1]; exact f0) (by rw [z1]; exact hlt)
          (by rw [z1]; exact hX0) (by rw [z1, z2, e, e']) hP1 fun v g1 g2 g3 => ?_).mono (by omega)
        rw [z1] at g3
        exact hP _ v (rep_val h0 f0).1 hlt h4 g1 g2 g3
      · rw [e]
        rcases sub_spec f1 f0 with ⟨q1, q2⟩ | ⟨-, q2⟩
        · exact (lt_fin_iff hl0.1 q1).mpr (by rw [hl0.2, q2]; exact c1)
        · exfalso
          rw [abs_of_pos c1, e1022] at q2
          have hz : (0 : ℚ) < 2 ^ 1022 := by positivity
          generalize (2 : ℚ) ^ 1022 = z at *
          linarith
    · have e : clipDt t0 t1 dt = dt := by unfold clipDt; rw [if_neg hcl]
      constructor
      · refine ends_loop hs hf hmx h1 f1 hd fd hpos hmin hmax hdt hX1 hP1 hP k _ (by rw [z2, e]) (by rw [z1]; exact h0) (by rw [z1]; exact f0)
          (by rw [z1]; exact (abs_le.mp hX0).1) (by rw [z1]; exact hlt) ?_
        rw [z1]
        rw [div_le_iff₀ hpos] at hk1
        linarith
      · rw [e]
        exact (lt_fin_iff hl0.1 fd).mpr (by rw [hl0.2]; exact hpos)
  obtain ⟨⟨fuel, out, g1, g2, ⟨tl, g3, g4, g5⟩, g6⟩, hass⟩ := hrun
  rw [hPe] at g5
  refine ⟨fuel, out, tl, ?_, by rw [g2, z6], g3, g4, g5.1, g5.2.1, g5.2.2, ?_⟩
  · rw [odeint_loop hm hmo hass]
    exact g1
  · rw [z5] at g6
    simp only [List.length_cons, List.length_nil] at g6
    have : (out.tVals.length : ℚ) ≤ k + 2 := by exact_mod_cast (by omega : out.tVals.length ≤ k + 2)
    linarith

omit [Libm] in
/-- the distance between doubles -/
theorem double_gap {x y : ℚ} (hx : Rep x) (hy : Rep y) (hlt : x < y) : x < 2 ^ 53 * (y - x) := by
  obtain ⟨m, e, hm, -, hme⟩ := hx
  obtain ⟨m1, e1, hm1, -, hme1⟩ := hy
  have hz := zpow2_pos e
  have hz1 := zpow2_pos e1
  have hm' : (m : ℚ) < 2 ^ 53 := by exact_mod_cast (le_abs_self m).trans_lt hm
  have hm1' : (m1 : ℚ) < 2 ^ 53 := by exact_mod_cast (le_abs_self m1).trans_lt hm1
  rcases le_total e e1 with hee | hee
  · obtain ⟨d, hd⟩ : ∃ d : ℕ, e1 = d + e := ⟨(e1 - e).toNat, by omega⟩
    have e2 : y - x = ((m1 * 2 ^ d - m : ℤ) : ℚ) * 2 ^ e := by
      rw [hme, hme1, hd, zpow2_add, zpow_natCast]; push_cast; ring
    have h1 : (1 : ℚ) ≤ ((m1 * 2 ^ d - m : ℤ) : ℚ) := by
      have : (0 : ℚ) < ((m1 * 2 ^ d - m : ℤ) : ℚ) := pos_of_mul_pos_left (by rw [← e2]; linarith) hz.le
      exact_mod_cast (by exact_mod_cast this : 0 < m1 * 2 ^ d - m)
    calc x = m * 2 ^ e := hme
      _ < 2 ^ 53 * 2 ^ e := mul_lt_mul_of_pos_right hm' hz
      _ ≤ 2 ^ 53 * (y - x) := by rw [e2]; exact mul_le_mul_of_nonneg_left (le_mul_of_one_le_left hz.le h1) (by norm_num)
  · obtain ⟨d, hd⟩ : ∃ d : ℕ, e = d + e1 := ⟨(e - e1).toNat, by omega⟩
    have e2 : y - x = ((m1 - m * 2 ^ d : ℤ) : ℚ) * 2 ^ e1 := by
      rw [hme, hme1, hd, zpow2_add, zpow_natCast]; push_cast; ring
    have h1 : (1 : ℚ) ≤ ((m1 - m * 2 ^ d : ℤ) : ℚ) := by
      have : (0 : ℚ) < ((m1 - m * 2 ^ d : ℤ) : ℚ) := pos_of_mul_pos_left (by rw [← e2]; linarith) hz1.le
      exact_mod_cast (by exact_mod_cast this : 0 < m1 - m * 2 ^ d)
    calc x < y := hlt
      _ = m1 * 2 ^ e1 := hme1
      _ ≤ 2 ^ 53 * 2 ^ e1 := mul_le_mul_of_nonneg_right hm1'.le hz1.le
      _ ≤ 2 ^ 53 * (y - x) := by rw [e2]; exact mul_le_mul_of_nonneg_left (le_mul_of_one_le_left hz1.le h1) (by norm_num)

omit [Libm] in
/-- a step below `2^-54 t` is lost in the addition -/
theorem lost_step {t d : ℚ} (ht : rnQ t = t) (hd0 : 0 ≤ d) (hd : 2 ^ 54 * d ≤ t) : rnQ (t + d) = t := by
  have rt : Rep t := by have := rep_rnQ t; rwa [ht] at this
  have h1 := rnQ_mono (show t ≤ t + d by linarith)
  rw [ht] at h1
  rcases h1.eq_or_lt with h | h
  · exact h.symm
  · have h2 := double_gap rt (rep_rnQ (t + d)) h
    have h3 := FP_nearest (t + d) rt
    rw [show t - (t + d) = -d by ring, abs_neg, abs_of_nonneg hd0] at h3
    have := (abs_le.mp h3).2
    norm_num at h2 hd
    linarith

/-- **C92, the step must not be much smaller.**  If the step is at most `2^-54` times a positive `t0`, the run never ends. -/
theorem C92_stalls {m : ℤ} (hm : m ∈ erkImplemented) (hs : StreamOK oo)
    (had : o.adaptive = false ∨ (erkCoeffs m : SolverCoeffs FP).b2 = []) (hms : o.maxSteps < 0)
    (h0 : t0.IsDouble) (f0 : t0.isFinite = true) (f1 : t1.isFinite = true) (fd : dt.isFinite = true)
    (hlt : t0.val < t1.val) (ht0 : 0 < t0.val) (hpos : 0 < dt.val) (hsm : 2 ^ 54 * dt.val ≤ t0.val) (fuel : ℕ) :
    erkOdeint nd f t0 t1 y0 o oo m dt fuel = none := by
  obtain ⟨mo, hmo⟩ := shipped_minOrder (F := FP) hm
  have hmx : (effOpts o (erkCoeffs m : SolverCoeffs FP)).maxSteps < 0 := by rw [(effOpts_fields o _).2.2.2]; exact hms
  obtain ⟨r0, b0⟩ := rep_val h0 f0
  have key := lost_step r0 hpos.le hsm
  have hsum : (t0 + dt).isFinite = true ∧ (t0 + dt).val = t0.val := by
    rcases add_spec f0 fd with ⟨q1, q2⟩ | ⟨-, q2⟩
    · exact ⟨q1, by rw [q2, key]⟩
    · rw [key] at q2; exact absurd q2 (not_le.mpr b0)
  have heq : t0 + dt = t0 := by
    obtain ⟨q1, q2⟩ := hsum
    cases ht : t0 with
    | nan => rw [ht] at f0; simp [isFinite] at f0
    | inf b => rw [ht] at f0; simp [isFinite] at f0
    | negZero => rw [ht] at ht0; simp [val] at ht0
    | fin q =>
      rw [ht] at q1 q2 ht0
      cases hx : (fin q + dt) with
      | nan => rw [hx] at q1; simp [isFinite] at q1
      | inf b => rw [hx] at q1; simp [isFinite] at q1
      | negZero => rw [hx] at q2; simp only [val] at q2 ht0; rw [← q2] at ht0; exact absurd ht0 (lt_irrefl _)
      | fin q' => rw [hx] at q2; simp only [val] at q2; rw [q2]
  have hcl : clipDt t0 t1 dt = dt := by
    unfold clipDt
    rw [heq, if_neg]
    intro h
    exact absurd ((lt_fin_iff f1 f0).mp h) (not_lt.mpr hlt.le)
  have hltb : ltb t0 t1 = true := (lt_fin_iff f0 f1).mpr hlt
  rw [odeint_loop hm hmo (by rw [hcl]; exact (lt_fin_iff lit0_fp.1 fd).mpr (by rw [lit0_fp.2]; exact hpos)), hcl]
  obtain ⟨z1, z2, -⟩ := erkInit_flds f (erkCoeffs m : SolverCoeffs FP) t0 dt y0
  refine diverges_of_inv (Inv := fun s : ErkState FP n => s.t = t0 ∧ s.dt = dt) ?_ ⟨z1, z2⟩ fuel
  rintro s ⟨h1, h2⟩
  obtain ⟨s', hb, e1, e2, -, -⟩ := fixed_pass (nd := nd) (f := f) (sc := erkCoeffs m) (mo := mo) (s := s) (t1 := t1) hs (effOpts_fixed had) hmx
    (by rw [h1]; exact hltb)
  refine ⟨s', hb, ?_, ?_⟩
  · rw [e1, h1, h2, hcl, heq]
  · rw [e2, h1, h2, hcl]

end

/-! ### examples -/

section
local instance fpEndLibm : Libm := powOne

/-- the hypotheses of `C92_completes` for `[1, 2]` with the step `1/8`: the run ends at exactly `2` -/
example (nd : Bool) : ∃ fuel out tl, erkOdeint nd (fun t _ _ => t / fin 0) (fin 1) (fin 2) (fun _ : Fin 1 => nan) fpFixed OutOpts.dflt 131
    (fin (1 / 8)) fuel = some (.ret out) ∧ out.status = 0 ∧ out.tVals.getLast? = some tl ∧ tl.val = 2 ∧ (out.tVals.length : ℚ) ≤ 68 := by
  obtain ⟨fuel, out, tl, g1, g2, g3, -, -, -, g7, g8⟩ := C92_completes (nd := nd) (f := fun t _ _ => t / fin 0) (t0 := fin 1) (t1 := fin 2)
    (y0 := fun _ : Fin 1 => nan) (o := fpFixed) (oo := OutOpts.dflt) (dt := fin (1 / 8)) (m := 131) (by decide) (by intro h; revert h; decide)
    (Or.inl rfl) (by decide) (by decide +kernel) (by decide +kernel) (by decide +kernel) rfl rfl rfl (by norm_num [val]) (by norm_num [val])
    (by norm_num [val]) (by simp only [val]; exact (by norm_num : max |(1 : ℚ)| |2| ≤ 2 ^ 1).trans (pow_le_pow_right₀ (by norm_num) (by norm_num)))
    (by simp only [val]; exact (by norm_num : (1 / 8 : ℚ) ≤ 2 ^ 1).trans (pow_le_pow_right₀ (by norm_num) (by norm_num)))
  refine ⟨fuel, out, tl, g1, g2, g3, g7 (Or.inr (by norm_num [val])), ?_⟩
  norm_num [val] at g8 ⊢
  exact g8

/-- the hypotheses of `C92_stalls`: one second per step, time in units of `2^60` seconds -/
example (nd : Bool) (fuel : ℕ) : erkOdeint nd (fun t _ _ => t) (fin (2 ^ 60)) (fin (2 ^ 61)) (fun _ : Fin 1 => fin 0) fpFixed OutOpts.dflt 110
    (fin 1) fuel = none :=
  C92_stalls (by decide) (by intro h; revert h; decide) (Or.inl rfl) (by decide) (by decide +kernel) rfl rfl rfl (by norm_num [val])
    (by norm_num [val]) (by norm_num [val]) (by norm_num [val]) fuel

end

end Verif
