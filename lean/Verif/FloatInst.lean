import Verif.FloatArith
import Verif.Prop.ErkFP

/-!
# Exact arithmetic and binary64 satisfy `FloatArith`

Real arithmetic has unit roundoff `0`, binary64 has unit roundoff `2^-53` on numbers up to `2^1023`.
-/

set_option autoImplicit false

namespace Verif
open FP

/-- real arithmetic -/
noncomputable def realArith (B : ℝ) : FloatArith ℝ 0 B where
  val x := x
  add x y _ _ _ := ⟨rfl, by simp⟩
  sub x y _ _ _ := ⟨rfl, by simp⟩
  mul x y _ _ _ := ⟨rfl, by simp⟩
  div x y _ _ _ _ := ⟨rfl, by simp⟩
  neg x _ := ⟨rfl, rfl⟩
  lit q _ := ⟨rfl, by simp⟩
  int k _ := ⟨rfl, by simp⟩
  lt x y _ _ := by simp
  sub_nonneg x y _ _ h _ := sub_nonneg.mpr h
  mul_nonneg x y _ _ hx hy _ := mul_nonneg hx hy
  scale x y h := by
    have h1 : (machinePrecision : ℝ) ≤ x := by simpa using h
    have h2 : (0 : ℝ) < machinePrecision := by
      unfold machinePrecision
      norm_num
    have : 0 ≤ 1 / x := by have := h2.trans_le h1; positivity
    have := Real.rpow_nonneg this y
    simpa using this
  between x _ _ := rfl

/-! ### binary64 -/

theorem rhe_error (r : ℚ) : |(rhe r : ℚ) - r| ≤ 1 / 2 := by
  have h1 := Int.floor_le r
  have h2 := Int.lt_floor_add_one r
  unfold rhe
  simp only
  split_ifs with a b c <;> push_cast <;> rw [abs_le] <;> constructor <;> linarith

/-- half a unit in the last place -/
theorem rnQ_error (q : ℚ) : |rnQ q - q| ≤ 1 / 2 ^ 53 * (1 + |q|) := by
  by_cases h0 : q = 0
  · subst h0; simp [rnQ]
  have hp := zpow2_pos (ulpExp q)
  have e : rnQ q - q = ((rhe (q / 2 ^ ulpExp q) : ℚ) - q / 2 ^ ulpExp q) * 2 ^ ulpExp q := by
    unfold rnQ; rw [if_neg h0, sub_mul, div_mul_cancel₀ _ hp.ne']
  rw [e, abs_mul, abs_of_pos hp]
  have hr := rhe_error (q / 2 ^ ulpExp q)
  have hq : 0 < |q| := abs_pos.mpr h0
  have hu : (2 : ℚ) ^ ulpExp q ≤ 1 / 2 ^ 52 * (1 + |q|) := by
    unfold ulpExp
    rcases le_total (ilog |q| - 52) (-1074) with h | h
    · rw [max_eq_right h]
      have h1 : (2 : ℚ) ^ (-1074 : ℤ) ≤ 2 ^ (-52 : ℤ) := zpow2_le (by norm_num)
      have h2 : (2 : ℚ) ^ (-52 : ℤ) = 1 / 2 ^ 52 := by rw [zpow_neg, one_div]; rfl
      rw [h2] at h1
      refine h1.trans (le_mul_of_one_le_right (by positivity) (by linarith))
    · rw [max_eq_left h, sub_eq_add_neg, zpow2_add, mul_comm]
      have h2 : (2 : ℚ) ^ (-52 : ℤ) = 1 / 2 ^ 52 := by rw [zpow_neg, one_div]; rfl
      rw [h2]
      exact mul_le_mul_of_nonneg_left ((ilog_spec hq).1.trans (by linarith)) (by positivity)
  calc |(rhe (q / 2 ^ ulpExp q) : ℚ) - q / 2 ^ ulpExp q| * 2 ^ ulpExp q ≤ 1 / 2 * (1 / 2 ^ 52 * (1 + |q|)) :=
        mul_le_mul hr hu hp.le (by norm_num)
    _ = _ := by ring

/-- a rounding of a number up to `2^1023` is finite, with a relative or absolute error of `2^-53` -/
theorem rnd_float (b : Bool) {q : ℚ} (hq : |(q : ℝ)| ≤ 2 ^ 1023) :
    (rnd b q).isFinite = true ∧ |((rnd b q).val : ℝ) - q| ≤ 1 / 2 ^ 53 * (1 + |(q : ℝ)|) ∧ (rnd b q).val = rnQ q := by
  have hq' : |q| ≤ 2 ^ 1023 := by
    have : ((|q| : ℚ) : ℝ) ≤ ((2 ^ 1023 : ℚ) : ℝ) := by push_cast; exact hq
    exact_mod_cast this
  have he := rnQ_error q
  rcases rnd_spec b q with ⟨h1, h2, -⟩ | ⟨-, h2⟩
  · refine ⟨h1, ?_, h2⟩
    rw [h2]
    have : ((|rnQ q - q| : ℚ) : ℝ) ≤ ((1 / 2 ^ 53 * (1 + |q|) : ℚ) : ℝ) := by exact_mod_cast he
    push_cast at this
    exact this
  · exfalso
    have h3 := abs_add_le (rnQ q - q) q
    rw [sub_add_cancel] at h3
    have h4 : (2 : ℚ) ^ (1024 : ℤ) = 2 * 2 ^ 1023 := by
      rw [show (1024 : ℤ) = 1 + (1023 : ℕ) by norm_num, zpow2_add, zpow_natCast, zpow_one]
    rw [h4] at h2
    obtain ⟨X, hX⟩ : ∃ X : ℚ, X = 2 ^ 1023 := ⟨_, rfl⟩
    rw [← hX] at h2 hq'
    have hX4 : (2 : ℚ) ^ 2 ≤ X := by rw [hX]; exact pow_le_pow_right₀ (by norm_num) (by norm_num)
    clear hX h4 hq
    have h5 : (1 : ℚ) / 2 ^ 53 * (1 + |q|) ≤ 1 / 4 * (1 + |q|) := mul_le_mul_of_nonneg_right (by norm_num) (by positivity)
    linarith

theorem fmul_fin {x y : FP} (hx : x.isFinite = true) (hy : y.isFinite = true) : ∃ b, x * y = rnd b (x.val * y.val) := by
  cases x <;> cases y <;> simp [isFinite] at hx hy <;> exact ⟨_, rfl⟩

theorem fdiv_fin {x y : FP} (hx : x.isFinite = true) (hy : y.isFinite = true) (h0 : y.val ≠ 0) : ∃ b, x / y = rnd b (x.val / y.val) := by
  cases x <;> cases y <;> simp [isFinite] at hx hy <;> simp only [val] at h0 <;>
    first
    | exact absurd rfl h0
    | exact ⟨_, if_neg h0⟩

theorem fadd_float {x y : FP} (hx : x.isFinite = true) (hy : y.isFinite = true) (h : |(x.val : ℝ) + y.val| ≤ 2 ^ 1023) :
    (x + y).isFinite = true ∧ |((x + y).val : ℝ) - (x.val + y.val)| ≤ 1 / 2 ^ 53 * (1 + |(x.val : ℝ) + y.val|) := by
  rcases add_fin hx hy with e | ⟨rfl, rfl, e⟩
  · rw [e]
    have := rnd_float false (q := x.val + y.val) (by push_cast; exact h)
    push_cast at this
    exact ⟨this.1, this.2.1⟩
  · rw [e]; simp [isFinite, val]

theorem between_fp {x : FP} (h4 : lt x (fin 4) = true) (h0 : lt x (fin 0) = false) : x.isFinite = true := by
  cases x with
  | nan => simp [lt] at h4
  | inf b => cases b <;> simp [lt] at h4 h0
  | negZero => rfl
  | fin q => rfl

/-- **binary64**, `std::pow` not returning a negative number for a base that is not negative -/
noncomputable def fpArith [Libm] (hpow : ∀ x y, x ≠ negZero → lt x (fin 0) = false → lt (Libm.pow x y) (fin 0) = false) : FloatArith FP (1 / 2 ^ 53) (2 ^ 1023) where
  val x := x.val
  add x y hx hy h := fadd_float hx hy h
  sub x y hx hy h := by
    have hn := neg_fin hy
    have hx' : x.isFinite = true := hx
    have e : (x.val : ℝ) + (y.neg.val : ℝ) = x.val - y.val := by rw [hn.2]; push_cast; ring
    have := fadd_float hx' hn.1 (by rw [e]; exact h)
    rw [e] at this
    exact this
  mul x y hx hy h := by
    obtain ⟨b, e⟩ := fmul_fin hx hy
    have := rnd_float b (q := x.val * y.val) (by push_cast; exact h)
    push_cast at this
    rw [← e] at this
    exact ⟨this.1, this.2.1⟩
  div x y hx hy h0 h := by
    obtain ⟨b, e⟩ := fdiv_fin hx hy (by exact_mod_cast h0)
    have := rnd_float b (q := x.val / y.val) (by push_cast; exact h)
    push_cast at this
    rw [← e] at this
    exact ⟨this.1, this.2.1⟩
  neg x hx := ⟨(neg_fin hx).1, by have := (neg_fin (x := x) hx).2; show ((x.neg.val : ℚ) : ℝ) = _; rw [this]; push_cast; rfl⟩
  lit q h := ⟨(rnd_float false h).1, (rnd_float false h).2.1⟩
  int k hk := by
    have hk' : (k : ℝ) ≤ 1000000 := by exact_mod_cast hk
    have h : |((k : ℚ) : ℝ)| ≤ 2 ^ 1023 := by
      rw [Rat.cast_natCast, abs_of_nonneg (Nat.cast_nonneg k)]
      have : (2 : ℝ) ^ 20 ≤ 2 ^ 1023 := pow_le_pow_right₀ (by norm_num) (by norm_num)
      exact (hk'.trans (by norm_num)).trans this
    obtain ⟨r1, -, r3⟩ := rnd_float false h
    refine ⟨r1, ?_⟩
    have hkz : |(k : ℤ)| ≤ 2 ^ 53 := by
      have : (k : ℤ) ≤ 1000000 := by exact_mod_cast hk
      rw [abs_of_nonneg (by positivity)]
      exact this.trans (by norm_num)
    have e := rnQ_of_mult (m := k) (e := 0) (by norm_num) hkz
    simp only [zpow_zero, mul_one, Int.cast_natCast] at e
    show (((rnd false (k : ℚ)).val : ℚ) : ℝ) = k
    rw [r3, e]
    simp
  lt x y hx hy := by
    show lt x y = true ↔ _
    rw [lt_fin_iff hx hy]
    exact_mod_cast Iff.rfl
  sub_nonneg x y hx hy h hf := by
    have h' : x.val ≤ y.val := by exact_mod_cast h
    rcases sub_spec (x := y) (y := x) hy hx with ⟨-, e⟩ | ⟨e, -⟩
    · show (0 : ℝ) ≤ ((y - x).val : ℚ)
      rw [e]
      exact_mod_cast rnQ_nonneg (by linarith)
    · have hf' : (y - x).isFinite = true := hf
      rw [e] at hf'
      cases hf'
  mul_nonneg x y hx hy h0 h1 hf := by
    have h0' : 0 ≤ x.val := by exact_mod_cast h0
    have h1' : 0 ≤ y.val := by exact_mod_cast h1
    obtain ⟨b, e⟩ := fmul_fin hx hy
    have hf' : (x * y).isFinite = true := hf
    show (0 : ℝ) ≤ ((x * y).val : ℚ)
    rw [e] at hf' ⊢
    rcases rnd_spec b (x.val * y.val) with ⟨-, e2, -⟩ | ⟨e2, -⟩
    · rw [e2]; exact_mod_cast rnQ_nonneg (mul_nonneg h0' h1')
    · rw [e2] at hf'; cases hf'
  scale x y h := hpow _ _ (recip_fp h).1 (recip_fp h).2
  between x h4 h0 := by
    have e4 : (lit 4 : FP) = fin 4 := by
      show rnd false 4 = fin 4
      decide +kernel
    rw [e4] at h4
    exact between_fp h4 h0

/-! ### binary arithmetic of any precision -/

/-- Numbers of a binary floating-point arithmetic with `q + 1` significant bits and unbounded exponents. -/
structure BF (q : ℕ) where
  v : ℚ

namespace BF

/-- rounding to nearest, ties to even, with `q + 1` significant bits -/
def rn (q : ℕ) (x : ℚ) : ℚ := if x = 0 then 0 else rhe (x / 2 ^ (ilog |x| - q)) * 2 ^ (ilog |x| - q)

variable {q : ℕ}

instance : Add (BF q) := ⟨fun x y => ⟨rn q (x.v + y.v)⟩⟩
instance : Sub (BF q) := ⟨fun x y => ⟨rn q (x.v - y.v)⟩⟩
instance : Mul (BF q) := ⟨fun x y => ⟨rn q (x.v * y.v)⟩⟩
instance : Div (BF q) := ⟨fun x y => ⟨rn q (x.v / y.v)⟩⟩
instance : Neg (BF q) := ⟨fun x => ⟨-x.v⟩⟩

/-- The square root and the power are stand-ins (`FloatArith` asks no more of them than a sign). -/
instance : Scalar (BF q) where
  lit r := ⟨rn q r⟩
  ltb x y := decide (x.v < y.v)
  leb x y := decide (x.v ≤ y.v)
  eqb x y := decide (x.v = y.v)
  sabs x := ⟨|x.v|⟩
  ssqrt x := x
  spow x _ := x
  isFin _ := true

theorem rn_error (x : ℚ) : |rn q x - x| ≤ 1 / 2 ^ (q + 1) * |x| := by
  by_cases h0 : x = 0
  · subst h0; simp [rn]
  have hp := zpow2_pos (ilog |x| - q)
  have e : rn q x - x = ((rhe (x / 2 ^ (ilog |x| - q)) : ℚ) - x / 2 ^ (ilog |x| - q)) * 2 ^ (ilog |x| - q) := by
    unfold rn; rw [if_neg h0, sub_mul, div_mul_cancel₀ _ hp.ne']
  rw [e, abs_mul, abs_of_pos hp]
  have hr := rhe_error (x / 2 ^ (ilog |x| - q))
  have hq : 0 < |x| := abs_pos.mpr h0
  have hu : (2 : ℚ) ^ (ilog |x| - q) ≤ 1 / 2 ^ q * |x| := by
    rw [sub_eq_add_neg, zpow2_add, mul_comm, zpow_neg, zpow_natCast, ← one_div]
    exact mul_le_mul_of_nonneg_left (ilog_spec hq).1 (by positivity)
  calc |(rhe (x / 2 ^ (ilog |x| - q)) : ℚ) - x / 2 ^ (ilog |x| - q)| * 2 ^ (ilog |x| - q) ≤ 1 / 2 * (1 / 2 ^ q * |x|) :=
        mul_le_mul hr hu hp.le (by norm_num)
    _ = _ := by rw [pow_succ]; field_simp

theorem rn_nonneg {x : ℚ} (h : 0 ≤ x) : 0 ≤ rn q x := by
  unfold rn
  split_ifs with h0
  · exact le_rfl
  · have h1 : (0 : ℤ) ≤ rhe (x / 2 ^ (ilog |x| - q)) := le_rhe_of_le (by push_cast; positivity)
    have h2 : (0 : ℚ) ≤ rhe (x / 2 ^ (ilog |x| - q)) := by exact_mod_cast h1
    positivity

theorem rn_int {k : ℕ} (hk : k < 2 ^ q) : rn q k = k := by
  unfold rn
  split_ifs with h0
  · exact h0.symm
  · have hk0 : 0 < |(k : ℚ)| := abs_pos.mpr h0
    have h1 := (ilog_spec hk0).1
    rw [Nat.abs_cast] at h1
    have h2 : (k : ℚ) < 2 ^ (q : ℤ) := by rw [zpow_natCast]; exact_mod_cast hk
    have h3 := zpow2_lt_iff.mp (h1.trans_lt h2)
    rw [Nat.abs_cast]
    obtain ⟨j, hj⟩ : ∃ j : ℕ, ilog (k : ℚ) - q = -(j : ℤ) := ⟨(q - ilog (k : ℚ)).toNat, by omega⟩
    rw [hj]
    have e : (k : ℚ) / 2 ^ (-(j : ℤ)) = ((k * 2 ^ j : ℤ) : ℚ) := by
      rw [zpow_neg, div_inv_eq_mul, zpow_natCast]; push_cast; rfl
    rw [e, rhe_int]
    push_cast
    rw [zpow_neg, zpow_natCast, mul_assoc, mul_inv_cancel₀ (by positivity), mul_one]

theorem rn_error_real (x : ℚ) : |((rn q x : ℚ) : ℝ) - x| ≤ 1 / 2 ^ (q + 1) * (1 + |(x : ℝ)|) := by
  have : ((|rn q x - x| : ℚ) : ℝ) ≤ ((1 / 2 ^ (q + 1) * |x| : ℚ) : ℝ) := by exact_mod_cast rn_error x
  push_cast at this
  refine this.trans (mul_le_mul_of_nonneg_left (by linarith) (by positivity))

/-- **binary arithmetic with `q + 1 ≥ 21` bits** -/
noncomputable def arith (hq : 20 ≤ q) (B : ℝ) : FloatArith (BF q) (1 / 2 ^ (q + 1)) B where
  val x := x.v
  add x y _ _ _ := ⟨rfl, by have := rn_error_real (q := q) (x.v + y.v); push_cast at this; exact this⟩
  sub x y _ _ _ := ⟨rfl, by have := rn_error_real (q := q) (x.v - y.v); push_cast at this; exact this⟩
  mul x y _ _ _ := ⟨rfl, by have := rn_error_real (q := q) (x.v * y.v); push_cast at this; exact this⟩
  div x y _ _ _ _ := ⟨rfl, by have := rn_error_real (q := q) (x.v / y.v); push_cast at this; exact this⟩
  neg x _ := ⟨rfl, by show ((-x.v : ℚ) : ℝ) = -x.v; push_cast; rfl⟩
  lit r _ := ⟨rfl, rn_error_real r⟩
  int k hk := ⟨rfl, by
    have : k < 2 ^ q := by
      have : 2 ^ 20 ≤ 2 ^ q := Nat.pow_le_pow_right (by norm_num) hq
      omega
    show ((rn q (k : ℚ) : ℚ) : ℝ) = k
    rw [rn_int this]; simp⟩
  lt x y _ _ := by
    show decide (x.v < y.v) = true ↔ _
    rw [decide_eq_true_eq]
    exact_mod_cast Iff.rfl
  sub_nonneg x y _ _ h _ := by
    have h' : x.v ≤ y.v := by exact_mod_cast h
    show (0 : ℝ) ≤ ((rn q (y.v - x.v) : ℚ) : ℝ)
    exact_mod_cast rn_nonneg (by linarith)
  mul_nonneg x y _ _ h0 h1 _ := by
    have h0' : 0 ≤ x.v := by exact_mod_cast h0
    have h1' : 0 ≤ y.v := by exact_mod_cast h1
    show (0 : ℝ) ≤ ((rn q (x.v * y.v) : ℚ) : ℝ)
    exact_mod_cast rn_nonneg (mul_nonneg h0' h1')
  scale x y h := by
    have hm : 0 ≤ (machinePrecision : BF q).v := rn_nonneg (by norm_num)
    have hx : (machinePrecision : BF q).v ≤ x.v := by simpa [ltb, Scalar.ltb] using h
    show decide (rn q (rn q 1 / x.v) < rn q 0) = false
    have h1 : 0 ≤ rn q (rn q 1 / x.v) := rn_nonneg (div_nonneg (rn_nonneg zero_le_one) (hm.trans hx))
    have h2 : rn q 0 = 0 := by simp [rn]
    rw [h2]
    simpa using h1
  between x _ _ := rfl

end BF
end Verif
