import Verif.Prop.FPSpec
import Mathlib.Data.EReal.Basic

/-!
# The model of `double` is IEEE 754: signs, special values, comparisons

Continuation of `Verif.Prop.FPSpec`: which operations are invalid (result NaN), which divide by zero, the sign of every
result, and that comparisons are those of the extended real numbers (NaN is unordered, `-0 = +0`).
-/

namespace Verif
namespace FP

/-- the extended real number denoted; NaN denotes none -/
noncomputable def toE : FP → Option EReal
  | nan => none
  | inf b => some (if b then ⊥ else ⊤)
  | negZero => some 0
  | fin q => some (((q : ℝ) : EReal))

/-- zero of either sign -/
def IsZero (x : FP) : Prop := x = negZero ∨ x = fin 0

theorem cast_lt {a b : ℚ} : ((a : ℝ) : EReal) < ((b : ℝ) : EReal) ↔ a < b := by
  rw [EReal.coe_lt_coe_iff]; exact_mod_cast Iff.rfl

theorem cast_eq {a b : ℚ} : ((a : ℝ) : EReal) = ((b : ℝ) : EReal) ↔ a = b := by
  rw [EReal.coe_eq_coe_iff]; exact_mod_cast Iff.rfl

theorem zeroE : (0 : EReal) = (((0 : ℚ) : ℝ) : EReal) := by simp

/-- **`<` is the order of the extended reals**; false if an operand is NaN. -/
theorem FP_lt (x y : FP) : lt x y = true ↔ ∃ a b, toE x = some a ∧ toE y = some b ∧ a < b := by
  have key : ∀ a b : EReal, (∃ a' b', some a = some a' ∧ some b = some b' ∧ a' < b') ↔ a < b := fun a b =>
    ⟨fun ⟨_, _, h1, h2, h3⟩ => by cases h1; cases h2; exact h3, fun h => ⟨a, b, rfl, rfl, h⟩⟩
  have none1 : ∀ o : Option EReal, ¬∃ a b, (none : Option EReal) = some a ∧ o = some b ∧ a < b := fun _ ⟨_, _, h, _⟩ => by cases h
  have none2 : ∀ o : Option EReal, ¬∃ a b, o = some a ∧ (none : Option EReal) = some b ∧ a < b := fun _ ⟨_, _, _, h, _⟩ => by cases h
  have fin0 : ∀ p r : ℚ, decide (p < r) = true ↔ (((p : ℝ)) : EReal) < (((r : ℝ)) : EReal) := fun p r => by
    rw [decide_eq_true_eq, cast_lt]
  cases x <;> cases y <;>
    first
    | exact ⟨fun h => Bool.noConfusion (show false = true from h), fun h => absurd h (none1 _)⟩
    | exact ⟨fun h => Bool.noConfusion (show false = true from h), fun h => absurd h (none2 _)⟩
    | refine Iff.trans ?_ (key _ _).symm
  case inf.inf a b => cases a <;> cases b <;> simp [lt]
  case inf.negZero a => cases a <;> simp [lt]
  case inf.fin a q => cases a <;> simp [lt, EReal.bot_lt_coe]
  case negZero.inf b => cases b <;> simp [lt]
  case fin.inf q b => cases b <;> simp [lt, EReal.coe_lt_top]
  case negZero.negZero => simp [lt, val]
  case negZero.fin q => rw [zeroE]; exact fin0 0 q
  case fin.negZero q => rw [zeroE]; exact fin0 q 0
  case fin.fin p r => exact fin0 p r

/-- **`==` is equality of the extended reals**; false if an operand is NaN. -/
theorem FP_eq (x y : FP) : eq x y = true ↔ ∃ a, toE x = some a ∧ toE y = some a := by
  have key : ∀ a b : EReal, (∃ a', some a = some a' ∧ some b = some a') ↔ a = b := fun a b =>
    ⟨fun ⟨_, h1, h2⟩ => by cases h1; cases h2; rfl, fun h => ⟨a, rfl, by rw [h]⟩⟩
  have none1 : ∀ o : Option EReal, ¬∃ a, (none : Option EReal) = some a ∧ o = some a := fun _ ⟨_, h, _⟩ => by cases h
  have none2 : ∀ o : Option EReal, ¬∃ a, o = some a ∧ (none : Option EReal) = some a := fun _ ⟨_, _, h⟩ => by cases h
  have fin0 : ∀ p r : ℚ, decide (p = r) = true ↔ (((p : ℝ)) : EReal) = (((r : ℝ)) : EReal) := fun p r => by
    rw [decide_eq_true_eq, cast_eq]
  cases x <;> cases y <;>
    first
    | exact ⟨fun h => Bool.noConfusion (show false = true from h), fun h => absurd h (none1 _)⟩
    | exact ⟨fun h => Bool.noConfusion (show false = true from h), fun h => absurd h (none2 _)⟩
    | refine Iff.trans ?_ (key _ _).symm
  case inf.inf a b => cases a <;> cases b <;> simp [eq]
  case inf.negZero a => cases a <;> simp [eq]
  case inf.fin a q => cases a <;> simp [eq]
  case negZero.inf b => cases b <;> simp [eq]
  case fin.inf q b => cases b <;> simp [eq]
  case negZero.negZero => simp [eq, val]
  case negZero.fin q => rw [zeroE]; exact fin0 0 q
  case fin.negZero q => rw [zeroE]; exact fin0 q 0
  case fin.fin p r => exact fin0 p r

/-- **`<=` is the order of the extended reals**; false if an operand is NaN. -/
theorem FP_le (x y : FP) : le x y = true ↔ ∃ a b, toE x = some a ∧ toE y = some b ∧ a ≤ b := by
  unfold le
  rw [Bool.or_eq_true, FP_lt, FP_eq]
  constructor
  · rintro (⟨a, b, h1, h2, h3⟩ | ⟨a, h1, h2⟩)
    · exact ⟨a, b, h1, h2, h3.le⟩
    · exact ⟨a, a, h1, h2, le_rfl⟩
  · rintro ⟨a, b, h1, h2, h3⟩
    rcases h3.lt_or_eq with h | rfl
    · exact .inl ⟨a, b, h1, h2, h⟩
    · exact .inr ⟨a, h1, h2⟩

example : lt nan (fin 1) = false ∧ le nan nan = false ∧ eq negZero (fin 0) = true ∧ lt (inf true) (fin (-5)) = true ∧
    le (fin 3) (inf false) = true ∧ lt (inf false) (inf false) = false := by decide

/-! ### Signs -/

/-- the sign of a rounded result is that of the exact result, for an exact zero the given one -/
theorem rnd_isNeg (b : Bool) (q : ℚ) : (rnd b q).isNeg = if q = 0 then b else decide (q < 0) := by
  have hz : ∀ s, (zeroS s).isNeg = s := by intro s; cases s <;> rfl
  unfold rnd
  by_cases hq : q = 0
  · rw [if_pos hq, if_pos hq, hz]
  · rw [if_neg hq, if_neg hq]
    by_cases hr : rnQ q = 0
    · simp only [if_pos hr, hz]
    · simp only [if_neg hr]
      split_ifs
      · rfl
      · change decide (rnQ q < 0) = decide (q < 0)
        rcases lt_or_ge q 0 with h | h
        · have := lt_of_le_of_ne (rnQ_nonpos h.le) hr
          simp [this, h]
        · have := rnQ_nonneg h
          simp [not_lt.2 this, not_lt.2 h]

/-- **The sign of a sum**: an exact sum zero is `+0` unless both operands are `-0`; otherwise the sign of the exact sum. -/
theorem FP_add_sign {x y : FP} (hx : x.isFinite = true) (hy : y.isFinite = true) :
    (x + y).isNeg = if x.val + y.val = 0 then decide (x = negZero ∧ y = negZero) else decide (x.val + y.val < 0) := by
  have key : ∀ {x y : FP}, x.isFinite = true → y.isFinite = true → ¬(x = negZero ∧ y = negZero) →
      x + y = rnd false (x.val + y.val) := by
    intro x y hx hy hne
    cases x <;> cases y <;>
      first
      | exact absurd hx (by decide)
      | exact absurd hy (by decide)
      | exact absurd ⟨rfl, rfl⟩ hne
      | rfl
      | (simp [isFinite] at hx hy)
  by_cases h : x = negZero ∧ y = negZero
  · obtain ⟨rfl, rfl⟩ := h
    change true = _
    rw [if_pos (show negZero.val + negZero.val = 0 from add_zero 0)]
    rfl
  · rw [key hx hy h, rnd_isNeg]
    simp [h]

/-- **The sign of a product** is the exclusive or of the signs. -/
theorem FP_mul_sign {x y : FP} (h : x * y ≠ nan) : (x * y).isNeg = xor x.isNeg y.isNeg := by
  have fin_fin : ∀ s a b : FP, (s = rnd (xor a.isNeg b.isNeg) (a.val * b.val)) → a.isFinite = true → b.isFinite = true →
      s.isNeg = xor a.isNeg b.isNeg := by
    intro s a b hs ha hb
    rw [hs, rnd_isNeg]
    split_ifs with h0
    · rfl
    · cases a <;> cases b <;> first | exact absurd ha (by decide) | exact absurd hb (by decide) | skip
      all_goals simp only [val, isNeg, mul_zero, zero_mul, not_true_eq_false] at h0 ⊢
      rename_i p r
      have hp : p ≠ 0 := fun h => h0 (by rw [h, zero_mul])
      have hr : r ≠ 0 := fun h => h0 (by rw [h, mul_zero])
      rcases lt_or_gt_of_ne hp with h1 | h1 <;> rcases lt_or_gt_of_ne hr with h2 | h2
      · simp [h1, h2, not_lt.2 (mul_pos_of_neg_of_neg h1 h2).le]
      · simp [h1, not_lt.2 h2.le, mul_neg_of_neg_of_pos h1 h2]
      · simp [not_lt.2 h1.le, h2, mul_neg_of_pos_of_neg h1 h2]
      · simp [not_lt.2 h1.le, not_lt.2 h2.le, not_lt.2 (mul_pos h1 h2).le]
  cases x <;> cases y
  case inf.inf a b => rfl
  case inf.negZero a => exact absurd rfl h
  case negZero.inf a => exact absurd rfl h
  case inf.fin a q =>
    by_cases h0 : q = 0
    · subst h0; exact absurd rfl h
    · have e : inf a * fin q = inf (xor a (fin q).isNeg) := if_neg h0
      rw [e]; rfl
  case fin.inf q a =>
    by_cases h0 : q = 0
    · subst h0; exact absurd rfl h
    · have e : fin q * inf a = inf (xor (fin q).isNeg a) := if_neg h0
      rw [e]; rfl
  all_goals first | exact absurd rfl h | exact fin_fin _ _ _ rfl rfl rfl

/-- **The sign of a quotient** is the exclusive or of the signs. -/
theorem FP_div_sign {x y : FP} (h : x / y ≠ nan) : (x / y).isNeg = xor x.isNeg y.isNeg := by
  have hz : ∀ s, (zeroS s).isNeg = s := by intro s; cases s <;> rfl
  have fin_fin : ∀ s a b : FP, (s = rnd (xor a.isNeg b.isNeg) (a.val / b.val)) → b.val ≠ 0 → a.isFinite = true →
      b.isFinite = true → s.isNeg = xor a.isNeg b.isNeg := by
    intro s a b hs hb0 ha hb
    rw [hs, rnd_isNeg]
    split_ifs with h0
    · rfl
    · cases a <;> cases b <;> first | exact absurd ha (by decide) | exact absurd hb (by decide) | skip
      all_goals simp only [val, isNeg, zero_div, not_true_eq_false, ne_eq] at h0 hb0 ⊢
      rename_i p r
      have hp : p ≠ 0 := fun h => h0 (by rw [h, zero_div])
      rcases lt_or_gt_of_ne hp with h1 | h1 <;> rcases lt_or_gt_of_ne hb0 with h2 | h2
      · simp [h1, h2, not_lt.2 (div_pos_of_neg_of_neg h1 h2).le]
      · simp [h1, not_lt.2 h2.le, div_neg_of_neg_of_pos h1 h2]
      · simp [not_lt.2 h1.le, h2, div_neg_of_pos_of_neg h1 h2]
      · simp [not_lt.2 h1.le, not_lt.2 h2.le, not_lt.2 (div_pos h1 h2).le]
  have gen : ∀ a b : FP, a.isFinite = true → b.isFinite = true → a / b ≠ nan → (a / b).isNeg = xor a.isNeg b.isNeg := by
    intro a b ha hb hn
    have e : a / b = if b.val = 0 then if a.val = 0 then nan else inf (xor a.isNeg b.isNeg)
        else rnd (xor a.isNeg b.isNeg) (a.val / b.val) := by
      cases a <;> cases b <;> first | exact Bool.noConfusion ha | exact Bool.noConfusion hb | rfl
    by_cases hb0 : b.val = 0
    · rw [if_pos hb0] at e
      by_cases ha0 : a.val = 0
      · rw [if_pos ha0] at e; exact absurd e hn
      · rw [if_neg ha0] at e; rw [e]; rfl
    · rw [if_neg hb0] at e
      exact fin_fin _ _ _ e hb0 ha hb
  cases x <;> cases y
  case negZero.inf a => change (zeroS _).isNeg = _; rw [hz]; rfl
  case fin.inf q a => change (zeroS _).isNeg = _; rw [hz]; rfl
  all_goals first | exact absurd rfl h | exact gen _ _ rfl rfl h | rfl

/-! ### Invalid operations -/

theorem val_zero {x : FP} (hx : x.isFinite = true) : x.val = 0 ↔ IsZero x := by
  unfold IsZero
  cases x <;> first | exact absurd hx (by decide) | simp [val]
  simp [isFinite] at hx

/-- **A sum is NaN** only for a NaN operand or for infinities of opposite signs. -/
theorem FP_add_nan (x y : FP) : x + y = nan ↔ x = nan ∨ y = nan ∨ ∃ b, x = inf b ∧ y = inf (!b) := by
  change add x y = nan ↔ _
  cases x <;> cases y <;> simp only [add, reduceCtorEq, false_or, or_false, or_true, false_and, and_false,
    exists_false, iff_false, inf.injEq] <;> try exact rnd_ne_nan _ _
  case inf.inf a b => cases a <;> cases b <;> simp

/-- **A product is NaN** only for a NaN operand or for zero times infinity. -/
theorem FP_mul_nan (x y : FP) : x * y = nan ↔
    x = nan ∨ y = nan ∨ (IsZero x ∧ ∃ b, y = inf b) ∨ (IsZero y ∧ ∃ b, x = inf b) := by
  change mul x y = nan ↔ _
  have fin0 : ∀ (q : ℚ) (b : Bool), (if (fin q).val = 0 then nan else inf b) = nan ↔ q = 0 := fun q b => by
    by_cases h : q = 0
    · subst h; simp [val]
    · have h' : (fin q).val ≠ 0 := h
      rw [if_neg h']; simp [h]
  cases x <;> cases y
  case inf.fin a q => simp only [mul, fin0]; simp [IsZero]
  case fin.inf q a => simp only [mul, fin0]; simp [IsZero]
  all_goals simp [mul, IsZero, rnd_ne_nan, val]

/-- **A quotient is NaN** only for a NaN operand, zero by zero or infinity by infinity. -/
theorem FP_div_nan (x y : FP) : x / y = nan ↔
    x = nan ∨ y = nan ∨ (IsZero x ∧ IsZero y) ∨ ((∃ b, x = inf b) ∧ ∃ b, y = inf b) := by
  have hz : ∀ s, zeroS s ≠ nan := by intro s; cases s <;> simp [zeroS]
  have gen : ∀ a b : FP, a.isFinite = true → b.isFinite = true → (a / b = nan ↔ IsZero a ∧ IsZero b) := by
    intro a b ha hb
    have e : a / b = if b.val = 0 then if a.val = 0 then nan else inf (xor a.isNeg b.isNeg)
        else rnd (xor a.isNeg b.isNeg) (a.val / b.val) := by
      cases a <;> cases b <;> first | exact Bool.noConfusion ha | exact Bool.noConfusion hb | rfl
    rw [e, ← val_zero ha, ← val_zero hb]
    split_ifs with h1 h2
    · simp [h1, h2]
    · simp [h1, h2]
    · simp [h1, rnd_ne_nan]
  cases x <;> cases y <;>
    first
    | (rw [gen _ _ rfl rfl]; simp)
    | (change div _ _ = nan ↔ _; simp [div, IsZero, hz])

/-- **A square root is NaN** only for a NaN or a negative operand; `-0` is not negative. -/
theorem FP_sqrt_nan (x : FP) : sqrt x = nan ↔ x = nan ∨ x = inf true ∨ ∃ q < 0, x = fin q := by
  cases x
  case nan => simp [sqrt]
  case inf b => cases b <;> simp [sqrt]
  case negZero => simp [sqrt]
  case fin q =>
    simp only [sqrt, reduceCtorEq, fin.injEq, false_or, exists_eq_right']
    rcases lt_trichotomy q 0 with h | h | h
    · rw [if_neg h.ne, if_pos h]; simp [h]
    · rw [if_pos h]; simp [h]
    · rw [if_neg h.ne', if_neg (not_lt.2 h.le)]
      simp only [not_lt.2 h.le, iff_false]
      exact rnd_ne_nan _ _

/-! ### Infinite operands, division by zero, negation -/

/-- **Operations with infinite operands** that are not invalid are exact. -/
theorem FP_inf (x : FP) (b : Bool) : (x.isFinite = true → inf b + x = inf b ∧ x + inf b = inf b ∧ x / inf b = zeroS (xor x.isNeg b) ∧
      inf b / x = inf (xor b x.isNeg)) ∧
    (x.isFinite = true → ¬IsZero x → inf b * x = inf (xor b x.isNeg) ∧ x * inf b = inf (xor x.isNeg b)) ∧
    inf b + inf b = inf b ∧ inf b * inf true = inf (!b) ∧ inf b * inf false = inf b ∧ sqrt (inf false) = inf false := by
  refine ⟨fun hx => ?_, fun hx h0 => ?_, ?_, ?_, ?_, rfl⟩
  · cases x <;> first | exact Bool.noConfusion hx | exact ⟨rfl, rfl, rfl, rfl⟩
  · have hv : x.val ≠ 0 := fun h => h0 ((val_zero hx).1 h)
    cases x <;> first | exact Bool.noConfusion hx | exact absurd rfl hv | exact ⟨if_neg hv, if_neg hv⟩
  · exact if_pos rfl
  · cases b <;> rfl
  · cases b <;> rfl

/-- **Division of a finite number other than zero by zero** is an infinity with the sign of the quotient. -/
theorem FP_div_zero {x y : FP} (hx : x.isFinite = true) (hx0 : ¬IsZero x) (hy : IsZero y) :
    x / y = inf (xor x.isNeg y.isNeg) := by
  have hv : x.val ≠ 0 := fun h => hx0 ((val_zero hx).1 h)
  have hyf : y.isFinite = true := by rcases hy with rfl | rfl <;> rfl
  have e : x / y = if y.val = 0 then if x.val = 0 then nan else inf (xor x.isNeg y.isNeg)
      else rnd (xor x.isNeg y.isNeg) (x.val / y.val) := by
    cases x <;> cases y <;> first | exact Bool.noConfusion hx | exact Bool.noConfusion hyf | rfl
  rw [e, if_pos ((val_zero hyf).2 hy), if_neg hv]

/-- **Negation and absolute value** only change the sign bit and are exact. -/
theorem FP_neg_abs (x : FP) (hn : x ≠ nan) : (-x).isNeg = !x.isNeg ∧ x.abs.isNeg = false ∧ (-x).val = -x.val ∧ x.abs.val = |x.val| ∧
    - -x = x ∧ ((-x).isFinite = x.isFinite) := by
  change (neg x).isNeg = _ ∧ _ ∧ (neg x).val = _ ∧ _ ∧ neg (neg x) = x ∧ (neg x).isFinite = _
  cases x
  case nan => exact absurd rfl hn
  case inf b => cases b <;> simp [neg, FP.abs, isNeg, val, isFinite]
  case negZero => simp [neg, FP.abs, isNeg, val, isFinite]
  case fin q =>
    by_cases h : q = 0
    · subst h; simp [neg, FP.abs, isNeg, val, isFinite]
    · rcases lt_or_gt_of_ne h with h1 | h1
      · simp [neg, FP.abs, isNeg, val, isFinite, h, h1.le, h1]
      · simp [neg, FP.abs, isNeg, val, isFinite, h, h1, not_lt.2 h1.le]

/-- Negation and absolute value of NaN. -/
theorem FP_neg_abs_nan : -nan = nan ∧ FP.abs nan = nan := ⟨rfl, rfl⟩

example : (negZero + negZero).isNeg = true ∧ (fin 1 + fin (-1)).isNeg = false ∧ fin 1 / negZero = inf true ∧
    fin 0 / fin 0 = nan ∧ inf true * fin (-2) = inf false ∧ inf false + inf true = nan ∧ sqrt negZero = negZero := by
  decide +kernel

end FP
end Verif
