import Verif.FPLemmas
import Mathlib.Analysis.Real.Sqrt

/-!
# The model of `double` is IEEE 754 binary64, round to nearest even

Independent specification: the numbers with a significand of at most 53 bits and an exponent of at least -1074; rounding
picks the nearest one, in case of a tie the one with the even significand.  These theorems support the floating-point
results (C25, C61, C62); they are about the model of the arithmetic, not about the library.
-/

namespace Verif
namespace FP

/-- a number with at most 53 significant bits, exponent at least that of the smallest subnormal number, no upper bound -/
def Rep (v : ℚ) : Prop := ∃ m e : ℤ, |m| < 2 ^ 53 ∧ -1074 ≤ e ∧ v = m * 2 ^ e

theorem rep_round {v : ℚ} (h : Rep v) : rnQ v = v := by
  obtain ⟨m, e, hm, he, rfl⟩ := h
  exact rnQ_of_mult he hm.le

theorem rep_neg {v : ℚ} (h : Rep v) : Rep (-v) := by
  obtain ⟨m, e, hm, he, rfl⟩ := h
  exact ⟨-m, e, by rwa [abs_neg], he, by push_cast; ring⟩

/-- rounding yields such a number -/
theorem rep_rnQ (q : ℚ) : Rep (rnQ q) := by
  obtain ⟨m, e, he, hm, h⟩ := rnQ_mult q
  rcases (show |m| < 2 ^ 53 ∨ |m| = 2 ^ 53 by omega) with hlt | heq
  · exact ⟨m, e, hlt, he, h⟩
  · obtain ⟨c, hc⟩ : ∃ c, m = 2 * c := by
      rcases abs_choice m with h | h <;> rw [heq] at h
      · exact ⟨2 ^ 52, by omega⟩
      · exact ⟨-2 ^ 52, by omega⟩
    refine ⟨c, e + 1, ?_, by omega, ?_⟩
    · have : |m| = 2 * |c| := by rw [hc, abs_mul]; rfl
      omega
    · rw [h, hc, zpow2_add]; push_cast; ring

/-- no representable number lies strictly between two neighbouring multiples of the last place of `q` that enclose `q` -/
theorem rep_gap {q w : ℚ} (hq : 0 < q) (hw : Rep w) {f : ℤ} (hf : (f : ℚ) * 2 ^ ulpExp q ≤ q)
    (hf1 : q < (f + 1) * 2 ^ ulpExp q) : w ≤ f * 2 ^ ulpExp q ∨ (f + 1) * 2 ^ ulpExp q ≤ w := by
  by_contra hc
  push Not at hc
  obtain ⟨h1, h2⟩ := hc
  have hu := zpow2_pos (ulpExp q)
  have hE : ulpExp q = max (ilog q - 52) (-1074) := by simp [ulpExp, abs_of_pos hq]
  have hf0 : 0 ≤ f := by
    by_contra hneg
    have : (f : ℚ) + 1 ≤ 0 := by exact_mod_cast (by omega : f + 1 ≤ 0)
    nlinarith
  have hf0' : (0 : ℚ) ≤ f := by exact_mod_cast hf0
  have hw0 : 0 < w := lt_of_le_of_lt (by positivity) h1
  have hle : ulpExp q ≤ ulpExp w := by
    have hEw : ulpExp w = max (ilog w - 52) (-1074) := by simp [ulpExp, abs_of_pos hw0]
    rcases (show ulpExp q = -1074 ∨ (ulpExp q = ilog q - 52 ∧ -1074 ≤ ilog q - 52) by omega) with h | ⟨h, -⟩
    · omega
    · have e : ((2 ^ 52 : ℤ) : ℚ) * 2 ^ ulpExp q = 2 ^ (ilog q) := by
        have h52 : ((2 ^ 52 : ℤ) : ℚ) = 2 ^ (52 : ℤ) := by norm_num
        rw [h, h52, ← zpow2_add]; congr 1; ring
      have h3 := (ilog_spec hq).1
      have h4 : (2 : ℤ) ^ 52 ≤ f := by
        by_contra hlt
        have h5 : ((f + 1 : ℤ) : ℚ) ≤ ((2 ^ 52 : ℤ) : ℚ) := by exact_mod_cast (by omega : f + 1 ≤ 2 ^ 52)
        have h6 := mul_le_mul_of_nonneg_right h5 hu.le
        rw [e] at h6
        push_cast at h6
        linarith
      have h7 : (2 : ℚ) ^ ilog q ≤ w := by
        rw [← e]
        exact (mul_le_mul_of_nonneg_right (by exact_mod_cast h4) hu.le).trans h1.le
      have h8 := zpow2_lt_iff.1 (lt_of_le_of_lt h7 (ilog_spec hw0).2)
      omega
  have hk : ∃ k : ℤ, w = k * 2 ^ ulpExp q := by
    have h3 := rep_round hw
    unfold rnQ at h3
    rw [if_neg hw0.ne'] at h3
    obtain ⟨d, hd⟩ : ∃ d : ℕ, ulpExp w = d + ulpExp q := ⟨(ulpExp w - ulpExp q).toNat, by omega⟩
    refine ⟨rhe (w / 2 ^ ulpExp w) * 2 ^ d, ?_⟩
    conv_lhs => rw [← h3]
    rw [hd, zpow2_add]
    push_cast
    rw [zpow_natCast]
    ring
  obtain ⟨k, rfl⟩ := hk
  have e1 : (f : ℚ) < k := lt_of_mul_lt_mul_right h1 hu.le
  have e2 : (k : ℚ) < f + 1 := lt_of_mul_lt_mul_right h2 hu.le
  have e1' : f < k := by exact_mod_cast e1
  have e2' : k < f + 1 := by exact_mod_cast e2
  omega

theorem nearest_pos {q w : ℚ} (hq : 0 < q) (hw : Rep w) : |rnQ q - q| ≤ |w - q| ∧
    (w ≠ rnQ q → |rnQ q - q| = |w - q| → ∃ k e : ℤ, |2 * k| ≤ 2 ^ 53 ∧ -1074 ≤ e ∧ rnQ q = (2 * k : ℤ) * 2 ^ e ∧
      (w = (2 * k + 1 : ℤ) * 2 ^ e ∨ w = (2 * k - 1 : ℤ) * 2 ^ e)) := by
  have hu := zpow2_pos (ulpExp q)
  set u := (2 : ℚ) ^ ulpExp q with hudef
  set f := ⌊q / u⌋ with hf
  have h1 : (f : ℚ) ≤ q / u := Int.floor_le _
  have h2 : q / u < f + 1 := Int.lt_floor_add_one _
  have hr : q / u * u = q := div_mul_cancel₀ _ hu.ne'
  have h1' : (f : ℚ) * u ≤ q := by rw [← hr]; exact mul_le_mul_of_nonneg_right h1 hu.le
  have h2' : q < (f + 1) * u := by rw [← hr]; exact mul_lt_mul_of_pos_right h2 hu
  have hgap := rep_gap hq hw h1' h2'
  have hbits : |rhe (q / u)| ≤ 2 ^ 53 := by
    have hb : q < 2 ^ (53 : ℤ) * u := by
      rw [hudef, ← zpow2_add]
      exact (ilog_spec hq).2.trans_le (zpow2_le (by simp only [ulpExp, abs_of_pos hq]; omega))
    have hb1 : q / u ≤ ((2 ^ 53 : ℤ) : ℚ) := by
      rw [div_le_iff₀ hu]; push_cast; norm_num at hb ⊢; exact hb.le
    have := rhe_le_of_le hb1
    have := le_rhe_of_le (k := 0) (r := q / u) (by rw [Int.cast_zero]; positivity)
    rw [abs_le]; constructor <;> omega
  have hv : rnQ q = rhe (q / u) * u := by unfold rnQ; rw [if_neg hq.ne']
  have hE : -1074 ≤ ulpExp q := by unfold ulpExp; omega
  have hdef : rhe (q / u) = if q / u - f < 1 / 2 then f else if 1 / 2 < q / u - f then f + 1
      else if f % 2 = 0 then f else f + 1 := rfl
  have hlo : (q / u - f) * u = q - f * u := by rw [sub_mul, hr]
  rcases lt_trichotomy (q / u - f) (1 / 2) with hc | hc | hc
  · rw [if_pos hc] at hdef
    have hd : q - f * u < 1 / 2 * u := by rw [← hlo]; exact mul_lt_mul_of_pos_right hc hu
    have hvv : |rnQ q - q| = q - f * u := by rw [hv, hdef, abs_sub_comm, abs_of_nonneg (by linarith)]
    rw [hvv]
    rcases hgap with hg | hg
    · have hw' : |w - q| = q - w := by rw [abs_sub_comm, abs_of_nonneg (by linarith)]
      rw [hw']
      refine ⟨by linarith, fun hne heq => absurd ?_ hne⟩
      rw [hv, hdef]; linarith
    · have hw' : |w - q| = w - q := abs_of_nonneg (by linarith)
      rw [hw']
      exact ⟨by linarith, fun _ heq => by exfalso; linarith⟩
  · have hd : q - f * u = 1 / 2 * u := by rw [← hlo, hc]
    rw [if_neg (by rw [hc]; norm_num), if_neg (by rw [hc]; norm_num)] at hdef
    have hvv : |rnQ q - q| = 1 / 2 * u := by
      rw [hv, hdef]
      split_ifs
      · rw [abs_sub_comm, abs_of_nonneg (by linarith), hd]
      · push_cast; rw [abs_of_nonneg (by linarith)]; linarith
    rw [hvv]
    have hmin : 1 / 2 * u ≤ |w - q| := by
      rcases hgap with hg | hg
      · rw [abs_sub_comm, abs_of_nonneg (by linarith)]; linarith
      · rw [abs_of_nonneg (by linarith)]; linarith
    refine ⟨hmin, fun hne heq => ?_⟩
    have hwv : w = f * u ∨ w = (f + 1) * u := by
      rcases hgap with hg | hg
      · rw [abs_sub_comm, abs_of_nonneg (by linarith)] at heq; left; linarith
      · rw [abs_of_nonneg (by linarith)] at heq; right; linarith
    by_cases heven : f % 2 = 0
    · rw [if_pos heven] at hdef
      obtain ⟨k, hk⟩ : ∃ k, f = 2 * k := ⟨f / 2, by omega⟩
      refine ⟨k, ulpExp q, by rw [← hk, ← hdef]; exact hbits, hE, by rw [hv, hdef, hk], .inl ?_⟩
      rcases hwv with h | h
      · exact absurd (by rw [hv, hdef]; exact h) hne
      · rw [h, hk]; push_cast; rfl
    · rw [if_neg heven] at hdef
      obtain ⟨k, hk⟩ : ∃ k, f + 1 = 2 * k := ⟨(f + 1) / 2, by omega⟩
      refine ⟨k, ulpExp q, by rw [← hk, ← hdef]; exact hbits, hE, by rw [hv, hdef, hk], .inr ?_⟩
      rcases hwv with h | h
      · rw [h, show f = 2 * k - 1 by omega]
      · exact absurd (by rw [hv, hdef, h]; push_cast; rfl) hne
  · rw [if_neg (by linarith), if_pos hc] at hdef
    have hd : 1 / 2 * u < q - f * u := by rw [← hlo]; exact mul_lt_mul_of_pos_right hc hu
    have hvv : |rnQ q - q| = (f + 1) * u - q := by
      rw [hv, hdef]; push_cast; rw [abs_of_nonneg (by linarith)]
    rw [hvv]
    rcases hgap with hg | hg
    · have hw' : |w - q| = q - w := by rw [abs_sub_comm, abs_of_nonneg (by linarith)]
      rw [hw']
      exact ⟨by linarith, fun _ heq => by exfalso; linarith⟩
    · have hw' : |w - q| = w - q := abs_of_nonneg (by linarith)
      rw [hw']
      refine ⟨by linarith, fun hne heq => absurd ?_ hne⟩
      rw [hv, hdef]; push_cast; linarith

/-- **Rounding is to nearest**: no representable number is closer. -/
theorem FP_nearest (q : ℚ) {w : ℚ} (hw : Rep w) : |rnQ q - q| ≤ |w - q| := by
  rcases lt_trichotomy q 0 with h | h | h
  · have := (nearest_pos (q := -q) (by linarith) (rep_neg hw)).1
    rw [rnQ_neg, ← abs_neg, ← abs_neg (-w - -q)] at this
    simpa [sub_eq_add_neg, add_comm] using this
  · subst h; simp
  · exact (nearest_pos h hw).1

/-- **Ties go to the even significand**: if another representable number is equally close, the result is an even multiple of
a power of two of which the other one is a neighbouring odd multiple. -/
theorem FP_tie_even (q : ℚ) {w : ℚ} (hw : Rep w) (hne : w ≠ rnQ q) (heq : |rnQ q - q| = |w - q|) :
    ∃ k e : ℤ, |2 * k| ≤ 2 ^ 53 ∧ -1074 ≤ e ∧ rnQ q = (2 * k : ℤ) * 2 ^ e ∧
      (w = (2 * k + 1 : ℤ) * 2 ^ e ∨ w = (2 * k - 1 : ℤ) * 2 ^ e) := by
  rcases lt_trichotomy q 0 with h | h | h
  · obtain ⟨k, e, h1, h2, h3, h4⟩ := (nearest_pos (q := -q) (by linarith) (rep_neg hw)).2
      (by rw [rnQ_neg]; intro hc; exact hne (neg_injective hc))
      (by
        rw [rnQ_neg, ← abs_neg, ← abs_neg (-w - -q)]
        simpa [sub_eq_add_neg, add_comm] using heq)
    refine ⟨-k, e, by rw [mul_neg, abs_neg]; exact h1, h2, ?_, ?_⟩
    · rw [rnQ_neg] at h3
      push_cast at h3 ⊢
      linarith
    · rcases h4 with h4 | h4
      · right; push_cast at h4 ⊢; linarith
      · left; push_cast at h4 ⊢; linarith
  · subst h
    exfalso
    rw [rnQ_zero] at heq hne
    simp only [sub_zero, abs_zero] at heq
    exact hne (abs_eq_zero.1 heq.symm)
  · exact (nearest_pos h hw).2 hne heq

/-- the largest finite `double` is `(2^53 - 1) 2^971` -/
theorem rep_lt_overflow {v : ℚ} (h : Rep v) (hlt : |v| < 2 ^ (1024 : ℤ)) : |v| ≤ ((2 ^ 53 - 1 : ℤ) : ℚ) * 2 ^ (971 : ℤ) := by
  have hu := zpow2_pos 971
  have habs : Rep |v| := by
    rcases abs_choice v with e | e <;> rw [e]
    · exact h
    · exact rep_neg h
  have e1024 : (2 : ℚ) ^ (1024 : ℤ) = 2 ^ (53 : ℤ) * 2 ^ (971 : ℤ) := by rw [← zpow2_add]; norm_num
  by_contra hc
  push Not at hc
  have hpos : 0 < |v| := lt_of_le_of_lt (by positivity) hc
  have hil : ilog |v| = 1023 := by
    refine ilog_eq (le_trans ?_ hc.le) (by simpa using hlt)
    rw [show (1023 : ℤ) = 52 + 971 by norm_num, zpow2_add]
    exact mul_le_mul_of_nonneg_right (by norm_num) hu.le
  have hE : ulpExp |v| = 971 := by simp only [ulpExp, abs_abs, hil]; norm_num
  have h3 := rep_round habs
  unfold rnQ at h3
  rw [if_neg hpos.ne', hE] at h3
  rw [← h3] at hc hlt
  rw [e1024] at hlt
  have c1 := lt_of_mul_lt_mul_right hc hu.le
  have c2 := lt_of_mul_lt_mul_right hlt hu.le
  have c1' : 2 ^ 53 - 1 < rhe (|v| / 2 ^ (971 : ℤ)) := by exact_mod_cast c1
  have c2' : rhe (|v| / 2 ^ (971 : ℤ)) < 2 ^ 53 := by exact_mod_cast c2
  omega

theorem e971 : (2 : ℚ) ^ (971 : ℤ) = 2 * 2 ^ (970 : ℤ) := by
  rw [show (971 : ℤ) = 1 + 970 from rfl, zpow2_add, zpow_one]

theorem e1024 : (2 : ℚ) ^ (1024 : ℤ) = 18014398509481984 * 2 ^ (970 : ℤ) := by
  rw [show (1024 : ℤ) = 54 + 970 from rfl, zpow2_add]
  congr 1

theorem overflow_tie {a P : ℚ} (hP : P = 2 ^ (970 : ℤ)) (ea : a = 18014398509481984 * P - P) :
    rnQ a = 18014398509481984 * P := by
  have hP0 : 0 < P := by rw [hP]; exact zpow2_pos _
  have ha0 : 0 < a := by linarith only [ea, hP0]
  have h53 : (2 : ℚ) ^ (53 : ℤ) = 9007199254740992 := by norm_num
  have h54 : (2 : ℚ) ^ (54 : ℤ) = 18014398509481984 := by norm_num
  have hil : ilog a = 1023 := by
    refine ilog_eq ?_ ?_
    · rw [show (1023 : ℤ) = 53 + 970 from rfl, zpow2_add, ← hP, h53]; linarith only [ea, hP0]
    · rw [show (1023 : ℤ) + 1 = 54 + 970 from rfl, zpow2_add, ← hP, h54]; linarith only [ea, hP0]
  have hE : ulpExp a = 971 := by
    unfold ulpExp
    rw [abs_of_pos ha0, hil]; rfl
  have h971 : (2 : ℚ) ^ (971 : ℤ) = 2 * P := by rw [e971, hP]
  have hdiv : a / 2 ^ (971 : ℤ) = ((2 ^ 53 - 1 : ℤ) : ℚ) + 1 / 2 := by
    rw [h971, div_eq_iff (by positivity), ea]; push_cast; ring
  have : rhe (((2 ^ 53 - 1 : ℤ) : ℚ) + 1 / 2) = 2 ^ 53 := by
    have hfl : ⌊((2 ^ 53 - 1 : ℤ) : ℚ) + 1 / 2⌋ = 2 ^ 53 - 1 := by
      rw [Int.floor_eq_iff]; constructor <;> norm_num
    unfold rhe
    simp only [hfl]
    norm_num
  unfold rnQ
  rw [if_neg ha0.ne', hE, hdiv, this, h971]
  push_cast
  ring

theorem overflow_iff {a : ℚ} (ha0 : 0 ≤ a) :
    (2 : ℚ) ^ (1024 : ℤ) ≤ rnQ a ↔ (2 : ℚ) ^ (1024 : ℤ) - 2 ^ (970 : ℤ) ≤ a := by
  have hbig : Rep ((2 : ℚ) ^ (1024 : ℤ)) := ⟨1, 1024, by norm_num, by norm_num, by rw [Int.cast_one, one_mul]⟩
  have hmax : Rep (((2 ^ 53 - 1 : ℤ) : ℚ) * 2 ^ (971 : ℤ)) := ⟨2 ^ 53 - 1, 971, by norm_num, by norm_num, rfl⟩
  have n1 := FP_nearest a hbig
  have n2 := FP_nearest a hmax
  have n3 := @overflow_tie a _ rfl
  have h0 : 0 ≤ rnQ a := rnQ_nonneg ha0
  have n4 : rnQ a < (2 : ℚ) ^ (1024 : ℤ) → rnQ a ≤ ((2 ^ 53 - 1 : ℤ) : ℚ) * 2 ^ (971 : ℤ) := fun h => by
    have := rep_lt_overflow (rep_rnQ a) (by rwa [abs_of_nonneg h0])
    rwa [abs_of_nonneg h0] at this
  have p970 := zpow2_pos 970
  rw [e971] at n2 n4
  rw [e1024] at n1 n4 ⊢
  generalize (2 : ℚ) ^ (970 : ℤ) = P at *
  push_cast at n2 n4
  constructor
  · intro h
    by_contra hc
    push Not at hc
    rw [abs_of_nonneg (show 0 ≤ rnQ a - a by linarith)] at n2
    rcases abs_cases (9007199254740991 * (2 * P) - a) with ⟨e, -⟩ | ⟨e, -⟩ <;> rw [e] at n2 <;> linarith
  · intro h
    by_contra hc
    push Not at hc
    have h1 := n4 hc
    rw [abs_sub_comm, abs_of_nonneg (show 0 ≤ a - rnQ a by linarith)] at n1
    rcases le_total (18014398509481984 * P) a with h3 | h3
    · rw [abs_sub_comm, abs_of_nonneg (by linarith)] at n1
      linarith
    · rw [abs_of_nonneg (by linarith)] at n1
      have := n3 (by linarith)
      linarith

/-- **Overflow** happens from `2^1024 - 2^970` on, half a unit above the largest finite number. -/
theorem FP_overflow (b : Bool) (q : ℚ) :
    rnd b q = inf (decide (q < 0)) ↔ (2 : ℚ) ^ (1024 : ℤ) - 2 ^ (970 : ℤ) ≤ |q| := by
  have habs : |rnQ q| = rnQ |q| := by
    rcases le_total 0 q with h | h
    · rw [abs_of_nonneg h, abs_of_nonneg (rnQ_nonneg h)]
    · rw [abs_of_nonpos h, abs_of_nonpos (rnQ_nonpos h), rnQ_neg]
  rw [← overflow_iff (abs_nonneg q), ← habs]
  rcases rnd_spec b q with ⟨h1, h2, h3⟩ | ⟨h1, h2⟩
  · constructor
    · intro h; rw [h] at h1; cases h1
    · intro h; exact absurd h (not_le.2 h3)
  · exact ⟨fun _ => h2, fun _ => h1⟩

/-! ### The operations -/

/-- **Addition** of finite numbers is correctly rounded. -/
theorem FP_add {x y : FP} (hx : x.isFinite = true) (hy : y.isFinite = true) (hf : (x + y).isFinite = true) {w : ℚ}
    (hw : Rep w) : |(x + y).val - (x.val + y.val)| ≤ |w - (x.val + y.val)| := by
  rcases add_spec hx hy with ⟨-, h⟩ | ⟨h, -⟩
  · rw [h]; exact FP_nearest _ hw
  · rw [h] at hf; cases hf

/-- **Subtraction** of finite numbers is correctly rounded. -/
theorem FP_sub {x y : FP} (hx : x.isFinite = true) (hy : y.isFinite = true) (hf : (x - y).isFinite = true) {w : ℚ}
    (hw : Rep w) : |(x - y).val - (x.val - y.val)| ≤ |w - (x.val - y.val)| := by
  rcases sub_spec hx hy with ⟨-, h⟩ | ⟨h, -⟩
  · rw [h]; exact FP_nearest _ hw
  · rw [h] at hf; cases hf

/-- **Multiplication** of finite numbers is correctly rounded. -/
theorem FP_mul {x y : FP} (hx : x.isFinite = true) (hy : y.isFinite = true) (hf : (x * y).isFinite = true) {w : ℚ}
    (hw : Rep w) : |(x * y).val - x.val * y.val| ≤ |w - x.val * y.val| := by
  have h : ∃ b, x * y = rnd b (x.val * y.val) := by
    cases x <;> cases y <;> first | exact absurd hx (by decide) | exact absurd hy (by decide) | exact ⟨_, rfl⟩ | (simp [isFinite] at hx hy)
  obtain ⟨b, h⟩ := h
  rw [h] at hf ⊢
  rcases rnd_spec b (x.val * y.val) with ⟨-, h, -⟩ | ⟨h, -⟩
  · rw [h]; exact FP_nearest _ hw
  · rw [h] at hf; cases hf

/-- **Division** of finite numbers by finite numbers other than zero is correctly rounded. -/
theorem FP_div {x y : FP} (hx : x.isFinite = true) (hy : y.isFinite = true) (hy0 : y.val ≠ 0)
    (hf : (x / y).isFinite = true) {w : ℚ} (hw : Rep w) : |(x / y).val - x.val / y.val| ≤ |w - x.val / y.val| := by
  have h : ∃ b, x / y = rnd b (x.val / y.val) := by
    cases x <;> cases y <;> first | exact absurd hx (by decide) | exact absurd hy (by decide) | exact absurd rfl hy0 | exact ⟨_, if_neg hy0⟩ | (simp [isFinite] at hx hy)
  obtain ⟨b, h⟩ := h
  rw [h] at hf ⊢
  rcases rnd_spec b (x.val / y.val) with ⟨-, h, -⟩ | ⟨h, -⟩
  · rw [h]; exact FP_nearest _ hw
  · rw [h] at hf; cases hf

/-- the rounding of the midpoint of a short interval that contains no boundary of the rounding -/
theorem nearest_short {s : ℕ} {h : ℚ} {k : ℤ} (hh : h = 2 ^ (-k)) {x : ℚ} (hx : x = (s + 1 / 2) * h)
    (hE : -k + 1 ≤ ulpExp x) {y : ℝ} (hy1 : (s : ℝ) * h < y) (hy2 : y < ((s : ℝ) + 1) * h) {w : ℚ} (hw : Rep w) :
    |((rnQ x : ℚ) : ℝ) - y| ≤ |(w : ℝ) - y| := by
  have hh0 : 0 < h := by rw [hh]; exact zpow2_pos _
  have hx0 : 0 < x := by rw [hx]; positivity
  obtain ⟨N, hN⟩ : ∃ N : ℕ, (2 : ℚ) ^ ulpExp x = 2 * 2 ^ N * h := by
    refine ⟨(ulpExp x + k - 1).toNat, ?_⟩
    rw [hh, ← zpow_natCast (2 : ℚ), show ((2 : ℚ) * 2 ^ ((ulpExp x + k - 1).toNat : ℤ)) = 2 ^ (1 + ((ulpExp x + k - 1).toNat : ℤ)) by
      rw [zpow2_add, zpow_one], ← zpow2_add]
    congr 1
    omega
  have hu := zpow2_pos (ulpExp x)
  set u := (2 : ℚ) ^ ulpExp x with hudef
  set M : ℤ := 2 ^ N with hM
  have hN' : u = 2 * M * h := by rw [hN, hM]; push_cast; ring
  set f := ⌊x / u⌋ with hf
  have h1 : (f : ℚ) ≤ x / u := Int.floor_le _
  have h2 : x / u < f + 1 := Int.lt_floor_add_one _
  have hr : x / u * u = x := div_mul_cancel₀ _ hu.ne'
  have h1' : (f : ℚ) * u ≤ x := by rw [← hr]; exact mul_le_mul_of_nonneg_right h1 hu.le
  have h2' : x < (f + 1) * u := by rw [← hr]; exact mul_lt_mul_of_pos_right h2 hu
  have hgap := rep_gap hx0 hw h1' h2'
  have hv : rnQ x = rhe (x / u) * u := by unfold rnQ; rw [if_neg hx0.ne']
  have hdef : rhe (x / u) = if x / u - f < 1 / 2 then f else if 1 / 2 < x / u - f then f + 1
      else if f % 2 = 0 then f else f + 1 := rfl
  -- everything in units of `h`
  have i1 : 2 * f * M ≤ s := by
    have : ((2 * f * M : ℤ) : ℚ) * h ≤ (s + 1 / 2) * h := by
      rw [← hx]; push_cast; rw [hN'] at h1'; linarith
    have := le_of_mul_le_mul_right this hh0
    have h3 : ((2 * f * M : ℤ) : ℚ) < ((s + 1 : ℤ) : ℚ) := by push_cast at this ⊢; linarith
    have : 2 * f * M < s + 1 := by exact_mod_cast h3
    omega
  have i2 : (s : ℤ) + 1 ≤ 2 * (f + 1) * M := by
    have : (s + 1 / 2) * h < ((2 * (f + 1) * M : ℤ) : ℚ) * h := by
      rw [← hx]; push_cast; rw [hN'] at h2'; linarith
    have := lt_of_mul_lt_mul_right this hh0.le
    have h3 : ((s : ℤ) : ℚ) < ((2 * (f + 1) * M : ℤ) : ℚ) := by push_cast at this ⊢; linarith
    have : (s : ℤ) < 2 * (f + 1) * M := by exact_mod_cast h3
    omega
  have hmid : (x / u - f) * (2 * M * h) = x - 2 * f * M * h := by rw [← hN', sub_mul, hr, hN']; ring
  have hhr : (0 : ℝ) < h := by exact_mod_cast hh0
  have hNr : (u : ℝ) = 2 * M * h := by rw [hN']; push_cast; ring
  have j1 : (f : ℝ) * u < y := by
    have : ((2 * f * M : ℤ) : ℝ) ≤ s := by exact_mod_cast i1
    rw [hNr]
    push_cast at this
    nlinarith
  have j2 : y < ((f : ℝ) + 1) * u := by
    have : ((s + 1 : ℤ) : ℝ) ≤ ((2 * (f + 1) * M : ℤ) : ℝ) := by exact_mod_cast i2
    rw [hNr]
    push_cast at this
    nlinarith
  have hgapR : (w : ℝ) ≤ f * u ∨ ((f : ℝ) + 1) * u ≤ w := by
    rcases hgap with hg | hg
    · left; exact_mod_cast hg
    · right; exact_mod_cast hg
  have hMpos : (0 : ℚ) < M := by rw [hM]; push_cast; positivity
  rcases lt_trichotomy (s : ℤ) (2 * f * M + M) with hc | hc | hc
  · -- below the middle
    have hlt : x / u - f < 1 / 2 := by
      have h3 : ((s : ℤ) : ℚ) + 1 ≤ ((2 * f * M + M : ℤ) : ℚ) := by exact_mod_cast (by omega : (s : ℤ) + 1 ≤ 2 * f * M + M)
      have h4 : (x / u - f) * (2 * M * h) < 1 / 2 * (2 * M * h) := by
        rw [hmid, hx]; push_cast at h3; nlinarith
      exact lt_of_mul_lt_mul_right h4 (by positivity)
    rw [if_pos hlt] at hdef
    have j3 : y ≤ ((f : ℝ) + 1 / 2) * u := by
      have h3 : ((s : ℤ) : ℝ) + 1 ≤ ((2 * f * M + M : ℤ) : ℝ) := by exact_mod_cast (by omega : (s : ℤ) + 1 ≤ 2 * f * M + M)
      rw [hNr]
      push_cast at h3
      nlinarith
    rw [hv, hdef]
    push_cast
    rw [abs_sub_comm, abs_of_nonneg (by linarith)]
    rcases hgapR with hg | hg
    · rw [abs_sub_comm, abs_of_nonneg (by linarith)]; linarith
    · rw [abs_of_nonneg (by linarith)]; linarith
  all_goals
    have hlt : 1 / 2 < x / u - f := by
      have h3 : ((2 * f * M + M : ℤ) : ℚ) ≤ ((s : ℤ) : ℚ) := by exact_mod_cast (by omega : 2 * f * M + M ≤ (s : ℤ))
      have h4 : 1 / 2 * (2 * M * h) < (x / u - f) * (2 * M * h) := by
        rw [hmid, hx]; push_cast at h3; nlinarith
      exact lt_of_mul_lt_mul_right h4 (by positivity)
    rw [if_neg (by linarith), if_pos hlt] at hdef
    have j3 : ((f : ℝ) + 1 / 2) * u ≤ y := by
      have h3 : ((2 * f * M + M : ℤ) : ℝ) ≤ ((s : ℤ) : ℝ) := by exact_mod_cast (by omega : 2 * f * M + M ≤ (s : ℤ))
      rw [hNr]
      push_cast at h3
      nlinarith
    rw [hv, hdef]
    push_cast
    rw [abs_of_nonneg (by linarith)]
    rcases hgapR with hg | hg
    · rw [abs_sub_comm, abs_of_nonneg (by linarith)]; linarith
    · rw [abs_of_nonneg (by linarith)]; linarith

/-- **The square root** of a positive number is correctly rounded. -/
theorem FP_sqrt {q : ℚ} (hq : 0 < q) (hf : (sqrt (fin q)).isFinite = true) {w : ℚ} (hw : Rep w) :
    |((sqrt (fin q)).val : ℝ) - Real.sqrt q| ≤ |(w : ℝ) - Real.sqrt q| := by
  have hs : sqrt (fin q) = sqrtQ q := by
    change (if q = 0 then fin 0 else if q < 0 then nan else sqrtQ q) = _
    rw [if_neg hq.ne', if_neg (by linarith)]
  rw [hs] at hf ⊢
  set k : ℤ := 60 - (ilog q) / 2 with hk
  set z : ℚ := q * 4 ^ k with hz
  set s : ℕ := Nat.sqrt ⌊z⌋.toNat with hsdef
  have hdef : sqrtQ q = rnd false ((2 * s + if (s : ℚ) * s = z then 0 else 1) / 2 ^ (k + 1)) := rfl
  have h4 : (4 : ℚ) ^ k = 2 ^ (2 * k) := by rw [zpow_mul]; norm_num
  have hz0 : 0 < z := by rw [hz, h4]; exact mul_pos hq (zpow2_pos _)
  obtain ⟨l1, l2⟩ := ilog_spec hq
  have hz1 : (2 : ℚ) ^ (120 : ℤ) ≤ z := by
    rw [hz, h4]
    calc (2 : ℚ) ^ (120 : ℤ) ≤ 2 ^ (ilog q + 2 * k) := zpow2_le (by omega)
      _ = 2 ^ ilog q * 2 ^ (2 * k) := zpow2_add _ _
      _ ≤ _ := mul_le_mul_of_nonneg_right l1 (zpow2_pos _).le
  have hfl : ((⌊z⌋.toNat : ℕ) : ℚ) = ((⌊z⌋ : ℤ) : ℚ) := by
    have h0 : 0 ≤ ⌊z⌋ := Int.floor_nonneg.2 hz0.le
    exact_mod_cast Int.toNat_of_nonneg h0
  have hs1 : (s : ℚ) * s ≤ z := by
    have h1 : s * s ≤ ⌊z⌋.toNat := Nat.sqrt_le _
    have h2 : ((s * s : ℕ) : ℚ) ≤ ((⌊z⌋.toNat : ℕ) : ℚ) := by exact_mod_cast h1
    rw [hfl] at h2
    push_cast at h2
    exact h2.trans (Int.floor_le z)
  have hs2 : z < ((s : ℚ) + 1) * (s + 1) := by
    have h1 : ⌊z⌋.toNat + 1 ≤ (s + 1) * (s + 1) := (Nat.sqrt_lt'.1 (by
      rw [← hsdef]; exact Nat.lt_succ_self s)).trans_eq (by rw [Nat.succ_eq_add_one]; ring)
    have h2 : ((⌊z⌋.toNat + 1 : ℕ) : ℚ) ≤ (((s + 1) * (s + 1) : ℕ) : ℚ) := by exact_mod_cast h1
    push_cast at h2
    rw [hfl] at h2
    exact (Int.lt_floor_add_one z).trans_le h2
  have hsbig : (2 : ℚ) ^ (60 : ℤ) ≤ s := by
    have h1 : (2 ^ 60 : ℕ) ≤ s := by
      rw [hsdef, Nat.le_sqrt]
      have : ((2 ^ 120 : ℤ) : ℚ) ≤ z := by norm_num at hz1 ⊢; exact hz1
      have := Int.le_floor.2 this
      omega
    have : ((2 ^ 60 : ℕ) : ℚ) ≤ (s : ℚ) := by exact_mod_cast h1
    norm_num at this ⊢
    exact this
  set h : ℚ := 2 ^ (-k) with hh
  have hh0 : 0 < h := zpow2_pos _
  have hzh : z * (h * h) = q := by
    rw [hz, h4, hh, ← zpow2_add, mul_assoc, ← zpow2_add]
    rw [show 2 * k + (-k + -k) = 0 by ring, zpow_zero, mul_one]
  have hx2 : ∀ c : ℚ, (2 * s + c) / 2 ^ (k + 1) = (s + c / 2) * h := by
    intro c
    rw [hh, zpow_neg, zpow2_add, zpow_one]
    have := (zpow2_pos k).ne'
    field_simp
  have hval : (sqrtQ q).val = rnQ ((2 * s + if (s : ℚ) * s = z then 0 else 1) / 2 ^ (k + 1)) := by
    rw [hdef] at hf ⊢
    rcases rnd_spec false ((2 * s + if (s : ℚ) * s = z then 0 else 1) / 2 ^ (k + 1)) with ⟨-, h, -⟩ | ⟨h, -⟩
    · exact h
    · rw [h] at hf; cases hf
  rw [hval, hx2]
  have hqr : (q : ℝ) = z * (h * h) := by rw [← hzh]; push_cast; rfl
  have hhr : (0 : ℝ) < h := by exact_mod_cast hh0
  by_cases hex : (s : ℚ) * s = z
  · rw [if_pos hex, zero_div, add_zero]
    have hy : Real.sqrt q = ((s * h : ℚ) : ℝ) := by
      rw [hqr, ← hex]
      push_cast
      rw [show (s : ℝ) * s * (h * h) = (s * h) * (s * h) by ring]
      exact Real.sqrt_mul_self (by positivity)
    rw [hy]
    exact_mod_cast FP_nearest _ hw
  · rw [if_neg hex]
    have hzr1 : (s : ℝ) * s < z := by exact_mod_cast lt_of_le_of_ne hs1 hex
    have hzr2 : (z : ℝ) < ((s : ℝ) + 1) * (s + 1) := by exact_mod_cast hs2
    refine nearest_short (s := s) (h := h) hh rfl ?_ ?_ ?_ hw
    · have hx0 : (0 : ℚ) < ((s : ℚ) + 1 / 2) * h := by positivity
      have : 60 - k ≤ ilog (((s : ℚ) + 1 / 2) * h) := by
        have e1 : (2 : ℚ) ^ (60 - k) ≤ (s + 1 / 2) * h := by
          rw [sub_eq_add_neg, zpow2_add]
          exact mul_le_mul_of_nonneg_right (by linarith) hh0.le
        have := zpow2_lt_iff.1 (lt_of_le_of_lt e1 (ilog_spec hx0).2)
        omega
      unfold ulpExp
      rw [abs_of_pos hx0]
      omega
    · refine Real.lt_sqrt_of_sq_lt ?_
      rw [hqr]
      calc ((s : ℝ) * h) ^ 2 = (s * s) * (h * h) := by ring
        _ < z * (h * h) := mul_lt_mul_of_pos_right hzr1 (by positivity)
    · rw [Real.sqrt_lt' (by positivity), hqr]
      calc (z : ℝ) * (h * h) < (((s : ℝ) + 1) * (s + 1)) * (h * h) := mul_lt_mul_of_pos_right hzr2 (by positivity)
        _ = _ := by ring

/-- a tie: `2^53 + 1` lies in the middle between `2^53` and `2^53 + 2` and is rounded to `2^53` -/
example : Rep (2 ^ 53 + 2) ∧ |rnQ (2 ^ 53 + 1) - (2 ^ 53 + 1)| = |(2 ^ 53 + 2 : ℚ) - (2 ^ 53 + 1)| ∧
    rnQ (2 ^ 53 + 1) = 2 ^ 53 := by
  have h : rnQ (2 ^ 53 + 1) = 2 ^ 53 := by decide +kernel
  refine ⟨⟨2 ^ 52 + 1, 1, by norm_num, by norm_num, by norm_num⟩, ?_, h⟩
  rw [h]; norm_num

end FP
end Verif
