import Verif.Prop.ErkFPEnd
import Verif.Prop.IrkExamples
import Verif.Prop.Multistep

/-!
# Property C126: the time grid of the multistep integrators in binary64

`adams_bashforth` and `bdf` (multistep.hpp 147-347) add the step to the time until the time is not before `t1`.  The last step is not shortened,
so the number of steps depends on the rounding of the sum.
-/

set_option autoImplicit false

namespace Verif
open FP

/-! ### the grid -/

/-- one addition: the sum does not decrease and its error is relative to the sum -/
theorem grid_step {t h : FP} (ht : t.IsDouble) (hf : t.isFinite = true) (hhd : h.IsDouble) (hhf : h.isFinite = true) (hh0 : 0 ≤ h.val)
    (hs : (t + h).isFinite = true) : (t + h).IsDouble ∧ t.val ≤ (t + h).val ∧ (t + h).val = rnQ (t.val + h.val) ∧
      |(t + h).val - (t.val + h.val)| ≤ 1 / 2 ^ 52 * |(t + h).val| := by
  obtain ⟨r1, -⟩ := rep_val ht hf
  obtain ⟨r2, -⟩ := rep_val hhd hhf
  rcases add_spec hf hhf with ⟨-, q2⟩ | ⟨q1, -⟩
  · refine ⟨isDouble_add hf hhf, ?_, q2, ?_⟩
    · rw [q2]
      have := rnQ_mono (show t.val ≤ t.val + h.val by linarith)
      rwa [r1] at this
    · have e := sum_error r1 r2
      rw [← q2] at e
      have h1 := abs_sub_abs_le_abs_sub (t.val + h.val) (t + h).val
      rw [abs_sub_comm] at h1
      have h2 : (1 : ℚ) / 2 ^ 53 ≤ 1 / 2 := by norm_num
      have h3 := mul_le_mul_of_nonneg_right h2 (abs_nonneg (t.val + h.val))
      have h4 : |t.val + h.val| ≤ 2 * |(t + h).val| := by linarith
      have h5 := mul_le_mul_of_nonneg_left h4 (show (0 : ℚ) ≤ 1 / 2 ^ 53 by positivity)
      refine e.trans (h5.trans (le_of_eq ?_))
      ring
  · rw [q1] at hs; simp [isFinite] at hs

/-- adding a finite number to something infinite or undefined does not make it finite -/
theorem grid_finite {t h : FP} (hh : h.isFinite = true) (hs : (t + h).isFinite = true) : t.isFinite = true := by
  cases t with
  | nan => cases h <;> simp [HAdd.hAdd, Add.add, FP.add, isFinite] at hs
  | inf b => cases h <;> simp [HAdd.hAdd, Add.add, FP.add, isFinite] at hs hh
  | negZero => rfl
  | fin q => rfl

theorem grid_all {t h : FP} (ht : t.IsDouble) (hhd : h.IsDouble) (hhf : h.isFinite = true) (hh0 : 0 ≤ h.val) (N : ℕ)
    (hs : (gridPt h t N).isFinite = true) : t.isFinite = true ∧ (gridPt h t N).IsDouble ∧ t.val ≤ (gridPt h t N).val ∧
      ∀ i ≤ N, (gridPt h t i).isFinite = true ∧ (gridPt h t i).IsDouble ∧ (gridPt h t i).val ≤ (gridPt h t N).val := by
  induction N with
  | zero => exact ⟨hs, ht, le_rfl, fun i hi => by rw [Nat.le_zero.mp hi]; exact ⟨hs, ht, le_rfl⟩⟩
  | succ N ih =>
    have h1 : (gridPt h t N).isFinite = true := grid_finite hhf hs
    obtain ⟨a, b, c, d⟩ := ih h1
    obtain ⟨e1, e2, -, -⟩ := grid_step b h1 hhd hhf hh0 hs
    refine ⟨a, e1, c.trans e2, fun i hi => ?_⟩
    rcases Nat.le_succ_iff.mp hi with hi | rfl
    · obtain ⟨g1, g2, g3⟩ := d i hi
      exact ⟨g1, g2, g3.trans e2⟩
    · exact ⟨hs, e1, le_rfl⟩

/-- the rounded grid stays close to the exact one -/
theorem grid_close {t h : FP} (ht : t.IsDouble) (hhd : h.IsDouble) (hhf : h.isFinite = true) (hh0 : 0 ≤ h.val) (N : ℕ)
    (hs : (gridPt h t N).isFinite = true) (i : ℕ) (hi : i ≤ N) :
    |(gridPt h t i).val - (t.val + i * h.val)| ≤ i * (1 / 2 ^ 52 * max |t.val| |(gridPt h t N).val|) := by
  obtain ⟨-, -, -, hall⟩ := grid_all ht hhd hhf hh0 N hs
  induction i with
  | zero => simp [gridPt]
  | succ i ih =>
    obtain ⟨a1, a2, a3⟩ := hall i (by omega)
    obtain ⟨b1, b2, b3⟩ := hall (i + 1) hi
    obtain ⟨-, -, -, c⟩ := grid_step a2 a1 hhd hhf hh0 b1
    have e1 := ih (by omega)
    obtain ⟨-, -, d, -⟩ := grid_all ht hhd hhf hh0 (i + 1) b1
    have hM : |(gridPt h t (i + 1)).val| ≤ max |t.val| |(gridPt h t N).val| := abs_le_max_abs_abs d b3
    have e2 := c.trans (mul_le_mul_of_nonneg_left hM (by positivity))
    have e3 : (gridPt h t (i + 1)).val - (t.val + (i + 1 : ℕ) * h.val) =
        ((gridPt h t i + h).val - ((gridPt h t i).val + h.val)) + ((gridPt h t i).val - (t.val + i * h.val)) := by
      show (gridPt h t i + h).val - _ = _
      push_cast; ring
    rw [e3]
    refine (abs_add_le _ _).trans ?_
    push_cast
    rw [add_mul, one_mul, add_comm]
    exact add_le_add e1 e2

/-- If `t` and `h` are integers in units of `2^e` and the numbers stay below `2^53` units, the grid is exact. -/
theorem grid_exact {t h : FP} {a b e : ℤ} (he : -1074 ≤ e) (he1 : e ≤ 970) (hf : t.isFinite = true) (hhf : h.isFinite = true) (ht : t.val = a * 2 ^ e)
    (hh : h.val = b * 2 ^ e) (N : ℕ) (hN : |a| + N * |b| ≤ 2 ^ 53) :
    (gridPt h t N).isFinite = true ∧ (gridPt h t N).val = t.val + N * h.val := by
  induction N with
  | zero => simp [gridPt, hf]
  | succ N ih =>
    push_cast at hN
    obtain ⟨i1, i2⟩ := ih (by nlinarith [abs_nonneg b])
    have hm : |a + (N + 1) * b| ≤ 2 ^ 53 := by
      refine (abs_add_le _ _).trans ?_
      rw [abs_mul, abs_of_nonneg (by positivity : (0 : ℤ) ≤ N + 1)]
      exact hN
    have e1 : (gridPt h t N).val + h.val = ((a + (N + 1) * b : ℤ) : ℚ) * 2 ^ e := by
      rw [i2, ht, hh]; push_cast; ring
    have e2 := rnQ_of_mult he hm
    rw [← e1] at e2
    have e3 : (gridPt h t N).val + h.val = t.val + (N + 1 : ℕ) * h.val := by rw [i2]; push_cast; ring
    rcases add_spec i1 hhf with ⟨q1, q2⟩ | ⟨-, q2⟩
    · exact ⟨q1, by show (gridPt h t N + h).val = _; rw [q2, e2, e3]⟩
    · exfalso
      rw [e2, e1, abs_mul, abs_of_pos (zpow2_pos e)] at q2
      have h1 : (|((a + (N + 1) * b : ℤ) : ℚ)|) ≤ 2 ^ 53 := by exact_mod_cast hm
      have h2 : (2 : ℚ) ^ e ≤ 2 ^ (970 : ℤ) := zpow2_le he1
      have h3 := mul_le_mul h1 h2 (zpow2_pos e).le (by positivity)
      have h4 : (2 : ℚ) ^ 53 * 2 ^ (970 : ℤ) < 2 ^ (1024 : ℤ) := by
        rw [← zpow_natCast, ← zpow2_add]
        exact zpow_lt_zpow_right₀ (by norm_num) (by norm_num)
      exact absurd (q2.trans h3) (not_le.mpr h4)

/-- a step below the resolution leaves the grid where it is -/
theorem grid_stalls {t h : FP} (ht : t.IsDouble) (hf : t.isFinite = true) (hhf : h.isFinite = true) (hh0 : 0 ≤ h.val)
    (hsm : 2 ^ 54 * h.val ≤ t.val) (N : ℕ) : (gridPt h t N).isFinite = true ∧ (gridPt h t N).val = t.val := by
  obtain ⟨r, b⟩ := rep_val ht hf
  have key := lost_step r hh0 hsm
  induction N with
  | zero => exact ⟨hf, rfl⟩
  | succ N ih =>
    obtain ⟨i1, i2⟩ := ih
    rcases add_spec i1 hhf with ⟨q1, q2⟩ | ⟨-, q2⟩
    · exact ⟨q1, by show (gridPt h t N + h).val = _; rw [q2, i2, key]⟩
    · rw [i2, key] at q2; exact absurd q2 (not_le.mpr b)

/-! ### what the grid of a run looks like -/

/-- The recorded times `ts` of a run that starts at `t0` with the step `h`, takes `first - 1` steps before it looks at the time, and then
steps until `t1`: monotone, each within the accumulated rounding error of the exact grid point, not ending before `t1`, and with a number of
steps that the rounding can change only as far as the accumulated error allows. -/
structure RoundedGrid (t0 t1 h : ℚ) (first : ℕ) (ts : List FP) : Prop where
  len : first ≤ ts.length
  finite : ∀ t ∈ ts, t.isFinite = true
  sorted : ts.Pairwise fun a b => a.val ≤ b.val
  close : ∀ (i : ℕ) t tl, ts[i]? = some t → ts.getLast? = some tl → |t.val - (t0 + i * h)| ≤ i * (1 / 2 ^ 52 * max |t0| |tl.val|)
  /-- the run has reached `t1` -/
  reached : ∀ tl, ts.getLast? = some tl → t1 ≤ tl.val
  /-- the sample before the last is before `t1`, unless the start-up already went beyond `t1` -/
  before : ∀ (i : ℕ) t, ts[i]? = some t → first ≤ i + 1 → i + 1 < ts.length → t.val < t1
  /-- enough steps -/
  lower : ∀ tl, ts.getLast? = some tl → t1 - t0 ≤ (ts.length - 1 : ℕ) * (h + 1 / 2 ^ 52 * max |t0| |tl.val|)
  /-- not many more steps than needed -/
  upper : ∀ tl, ts.getLast? = some tl → first < ts.length → (ts.length - 2 : ℕ) * (h - 1 / 2 ^ 52 * max |t0| |tl.val|) < t1 - t0

theorem roundedGrid_of {t0 t1 h : FP} (ht : t0.IsDouble) (hf1 : t1.isFinite = true) (hhd : h.IsDouble) (hhf : h.isFinite = true)
    (hh0 : 0 ≤ h.val) {first : ℕ} (hfp : 0 < first) {ts : List FP} (hfin : ∃ tl, ts.getLast? = some tl ∧ tl.isFinite = true) (hlen : first ≤ ts.length)
    (hg : ∀ i < ts.length, ts[i]? = some (gridPt h t0 i)) (hend : lt (gridPt h t0 (ts.length - 1)) t1 = false)
    (hbef : ∀ i : ℕ, first ≤ i + 1 → i + 1 < ts.length → lt (gridPt h t0 i) t1 = true) : RoundedGrid t0.val t1.val h.val first ts := by
  obtain ⟨tl, hl1, hl2⟩ := hfin
  have hl3 : tl = gridPt h t0 (ts.length - 1) := by
    rw [List.getLast?_eq_getElem?, hg _ (by omega)] at hl1
    exact (Option.some.inj hl1).symm
  subst hl3
  obtain ⟨-, -, -, hall⟩ := grid_all ht hhd hhf hh0 _ hl2
  have hcl := grid_close ht hhd hhf hh0 _ hl2
  have hget : ∀ (i : ℕ) t, ts[i]? = some t → i ≤ ts.length - 1 ∧ t = gridPt h t0 i := fun i t he => by
    obtain ⟨hi, -⟩ := List.getElem?_eq_some_iff.mp he
    rw [hg i hi] at he
    exact ⟨by omega, (Option.some.inj he).symm⟩
  have hrch : t1.val ≤ (gridPt h t0 (ts.length - 1)).val := by
    by_contra hc
    have := (lt_fin_iff hl2 hf1).mpr (not_le.mp hc)
    rw [hend] at this
    cases this
  refine ⟨hlen, ?_, ?_, ?_, ?_, ?_, ?_, ?_⟩
  · intro t hm
    obtain ⟨i, hi⟩ := List.getElem?_of_mem hm
    obtain ⟨h1, rfl⟩ := hget i t hi
    exact (hall i h1).1
  · rw [List.pairwise_iff_getElem]
    intro i j hi hj hij
    have e1 := hg i hi
    have e2 := hg j hj
    rw [List.getElem?_eq_getElem hi] at e1
    rw [List.getElem?_eq_getElem hj] at e2
    rw [Option.some.inj e1, Option.some.inj e2]
    exact (grid_all ht hhd hhf hh0 j (hall j (by omega)).1).2.2.2 i hij.le |>.2.2
  · intro i t tl he hl
    obtain ⟨h1, rfl⟩ := hget i t he
    rw [hl1] at hl
    rw [← Option.some.inj hl]
    exact hcl i h1
  · intro tl hl
    rw [hl1] at hl
    rw [← Option.some.inj hl]
    exact hrch
  · intro i t he h1 h2
    obtain ⟨h3, rfl⟩ := hget i t he
    exact (lt_fin_iff (hall i h3).1 hf1).mp (hbef i h1 h2)
  · intro tl hl
    rw [hl1] at hl
    rw [← Option.some.inj hl]
    have := (abs_le.mp (hcl _ le_rfl)).2
    rw [mul_add]
    linarith
  · intro tl hl hlt
    rw [hl1] at hl
    rw [← Option.some.inj hl]
    have h1 := (abs_le.mp (hcl (ts.length - 2) (by omega))).1
    have h2 := (lt_fin_iff (hall (ts.length - 2) (by omega)).1 hf1).mp (hbef (ts.length - 2) (by omega) (by omega))
    rw [mul_sub]
    linarith

/-- the loop in binary64: the time of a state is a double between `t0` and something finite, and a step decreases what is left -/
theorem fp_decreases {t t0 t1 h : FP} (hf : t.isFinite = true) (f0 : t0.val ≤ t.val) (f1 : t1.isFinite = true)
    (hhd : h.IsDouble) (hhf : h.isFinite = true) (hh0 : 0 < h.val) {X : ℚ} (hX0 : |t0.val| ≤ X) (hX1 : |t1.val| ≤ X) (hXd : X ≤ 2 ^ 51 * h.val)
    (hXb : X ≤ 2 ^ 1022) (hdb : h.val ≤ 2 ^ 1022) (hlt : lt t t1 = true) : (t + h).IsDouble ∧ (t + h).isFinite = true ∧ t0.val ≤ (t + h).val ∧
      ⌈(t1.val - (t + h).val) / (h.val / 8)⌉₊ < ⌈(t1.val - t.val) / (h.val / 8)⌉₊ := by
  have h1 := (lt_fin_iff hf f1).mp hlt
  have h2 : |t.val| ≤ X := (abs_le_max_abs_abs f0 h1.le).trans (max_le hX0 hX1)
  obtain ⟨a1, -, a3⟩ := full_step hf hhd hhf hh0 h2 hXd hXb hdb
  refine ⟨isDouble_add hf hhf, a1, by linarith, ?_⟩
  have h8 : (0 : ℚ) < h.val / 8 := by linarith
  have h3 : (t1.val - (t + h).val) / (h.val / 8) ≤ (t1.val - t.val) / (h.val / 8) - 1 := by
    rw [div_le_iff₀ h8, sub_mul, div_mul_cancel₀ _ h8.ne']; linarith
  have h4 : 0 < ⌈(t1.val - t.val) / (h.val / 8)⌉₊ := Nat.ceil_pos.2 (div_pos (by linarith) h8)
  have h5 := Nat.ceil_mono h3
  rw [Nat.ceil_sub_one] at h5
  omega

section
variable [Libm] {n : ℕ} {nd : Bool} {la : LinAlg FP} {fn : OdeFun FP n} {t0 t1 dt : FP} {y0 : Vec FP n} {order : ℤ} {st0 : NewtonStatus FP}
  {fuelB fuel : ℕ} {out : MsOutput FP n}

/-- **C126, `adams_bashforth`.**  In binary64, for every right-hand side.  Partial: the number of steps is only bounded, since the claim that
it is the intended one is refuted below. -/
theorem C126_adams_bashforth_partial (ht : t0.IsDouble) (hf1 : t1.isFinite = true) (hhd : (clipDt t0 t1 dt).IsDouble)
    (hhf : (clipDt t0 t1 dt).isFinite = true) (hh0 : 0 ≤ (clipDt t0 t1 dt).val)
    (h : adamsBashforth nd la fn t0 t1 y0 order dt st0 fuelB fuel = some (.ret out))
    (hfin : ∃ tl, out.tVals.getLast? = some tl ∧ tl.isFinite = true) :
    RoundedGrid t0.val t1.val (clipDt t0 t1 dt).val order.toNat out.tVals := by
  obtain ⟨N, -, h2, -, h3, h4, h5, h6, h7⟩ := C53_ab_grid h
  subst h2
  exact roundedGrid_of ht hf1 hhd hhf hh0 (by omega) hfin (by omega) h5 h6 fun i a b => h7 i (by omega) b

/-- **C126, `bdf`.**  A successful run. -/
theorem C126_bdf_partial (h0 : 0 < order) (h6 : order ≤ 6) (ht : t0.IsDouble) (hf1 : t1.isFinite = true) (hhd : (clipDt t0 t1 dt).IsDouble)
    (hhf : (clipDt t0 t1 dt).isFinite = true) (hh0 : 0 ≤ (clipDt t0 t1 dt).val)
    (h : bdf nd la fn t0 t1 y0 order dt st0 fuelB fuel = some (.ret out)) (hst : out.status = 0)
    (hfin : ∃ tl, out.tVals.getLast? = some tl ∧ tl.isFinite = true) :
    RoundedGrid t0.val t1.val (clipDt t0 t1 dt).val (order + 1).toNat out.tVals := by
  obtain ⟨N, h2, -, h4, h5, h7, h8⟩ := C53_bdf_grid h0 h6 h
  subst h2
  exact roundedGrid_of ht hf1 hhd hhf hh0 (by omega) hfin (by omega) h5 (h7.mp hst) fun i a b => h8 i (by omega) b

omit [Libm] in
/-- the number of samples of a grid that is exact -/
theorem exact_count {T0 T1 H : ℚ} (hH : 0 < H) {first N : ℕ} (hf : 0 < first) (hle : first ≤ N) (h1 : T1 ≤ T0 + (N - 1 : ℕ) * H)
    (h2 : ∀ i : ℕ, first ≤ i + 1 → i + 1 < N → T0 + i * H < T1) : N = max first (⌈(T1 - T0) / H⌉₊ + 1) := by
  have h3 : ⌈(T1 - T0) / H⌉₊ ≤ N - 1 := by
    rw [Nat.ceil_le, div_le_iff₀ hH]; linarith
  rcases hle.eq_or_lt with he | hlt
  · rw [max_eq_left (by omega)]; exact he.symm
  · have h4 : N - 2 < ⌈(T1 - T0) / H⌉₊ := by
      rw [Nat.lt_ceil, lt_div_iff₀ hH]
      have := h2 (N - 2) (by omega) (by omega)
      linarith
    rw [max_eq_right (by omega)]
    omega

/-- **C126, exact grids.**  If `t0` and the step are integers in units of a power of two and the run stays below `2^53` units, then the times
are the exact ones and the number of samples is the intended one: `⌈(t1 - t0)/dt⌉ + 1`, or `order` if this is more. -/
theorem C126_exact {a b e : ℤ} (he : -1074 ≤ e) (he1 : e ≤ 970) (hf0 : t0.isFinite = true) (hf1 : t1.isFinite = true) (hhf : (clipDt t0 t1 dt).isFinite = true)
    (hh0 : 0 < (clipDt t0 t1 dt).val) (ha : t0.val = a * 2 ^ e) (hb : (clipDt t0 t1 dt).val = b * 2 ^ e)
    (h : adamsBashforth nd la fn t0 t1 y0 order dt st0 fuelB fuel = some (.ret out)) (hN : |a| + (out.tVals.length - 1 : ℕ) * |b| ≤ 2 ^ 53) :
    (∀ (i : ℕ) t, out.tVals[i]? = some t → t.val = t0.val + i * (clipDt t0 t1 dt).val) ∧
      out.tVals.length = max order.toNat (⌈(t1.val - t0.val) / (clipDt t0 t1 dt).val⌉₊ + 1) := by
  obtain ⟨N, -, h2, -, h3, h4, h5, h6, h7⟩ := C53_ab_grid h
  subst h2
  have hx : ∀ i, i ≤ out.tVals.length - 1 → (gridPt (clipDt t0 t1 dt) t0 i).isFinite = true ∧
      (gridPt (clipDt t0 t1 dt) t0 i).val = t0.val + i * (clipDt t0 t1 dt).val := fun i hi =>
    grid_exact he he1 hf0 hhf ha hb i (le_trans (by
      have : (i : ℤ) ≤ (out.tVals.length - 1 : ℕ) := by exact_mod_cast hi
      nlinarith [abs_nonneg b]) hN)
  constructor
  · intro i t hi
    obtain ⟨hlt, -⟩ := List.getElem?_eq_some_iff.mp hi
    rw [h5 i hlt] at hi
    rw [← Option.some.inj hi]
    exact (hx i (by omega)).2
  · refine exact_count hh0 (by omega) (by omega) ?_ ?_
    · obtain ⟨g1, g2⟩ := hx (out.tVals.length - 1) le_rfl
      rw [← g2]
      by_contra hc
      have := (lt_fin_iff g1 hf1).mpr (not_le.mp hc)
      rw [show lt _ _ = false from h6] at this
      cases this
    · intro i a b
      obtain ⟨g1, g2⟩ := hx i (by omega)
      rw [← g2]
      exact (lt_fin_iff g1 hf1).mp (h7 i (by omega) b)

/-- **C126, the step must not be too small.**  If the step is at most `2^-54` times a positive `t0`, `adams_bashforth` does not return and
`bdf` returns only with a failure of the non-linear solver. -/
theorem C126_stalls (h0 : t0.IsDouble) (f0 : t0.isFinite = true) (f1 : t1.isFinite = true) (hhf : (clipDt t0 t1 dt).isFinite = true)
    (hlt : t0.val < t1.val) (hpos : 0 ≤ (clipDt t0 t1 dt).val) (hsm : 2 ^ 54 * (clipDt t0 t1 dt).val ≤ t0.val) :
    adamsBashforth nd la fn t0 t1 y0 order dt st0 fuelB fuel ≠ some (.ret out) ∧
      (0 < order → order ≤ 6 → bdf nd la fn t0 t1 y0 order dt st0 fuelB fuel = some (.ret out) → out.status ≠ 0) := by
  have hst := grid_stalls h0 f0 hhf hpos hsm
  have hno : ∀ N, ltb (gridPt (clipDt t0 t1 dt) t0 N) t1 = true := fun N => by
    obtain ⟨g1, g2⟩ := hst N
    exact (lt_fin_iff g1 f1).mpr (by rw [g2]; exact hlt)
  constructor
  · intro h
    obtain ⟨N, -, -, -, -, -, -, h6, -⟩ := C53_ab_grid h
    rw [hno] at h6; cases h6
  · intro g0 g6 h hs
    obtain ⟨N, -, -, -, -, h7, -⟩ := C53_bdf_grid g0 g6 h
    have := h7.mp hs
    rw [hno] at this; cases this

/-- what is needed of the step and the interval for the loop to end -/
structure Resolved (t0 t1 h : FP) : Prop where
  d0 : t0.IsDouble
  f0 : t0.isFinite = true
  f1 : t1.isFinite = true
  dh : h.IsDouble
  fh : h.isFinite = true
  pos : 0 < h.val
  /-- the step is at least `2^-51` times the larger end point -/
  res : max |t0.val| |t1.val| ≤ 2 ^ 51 * h.val
  big : max |t0.val| |t1.val| ≤ 2 ^ 1022
  bigh : h.val ≤ 2 ^ 1022

omit [Libm] in
theorem gridPt_boot {t h : FP} (N : ℕ) (hs : (gridPt h t N).isFinite = true) (ht : t.IsDouble) (hhd : h.IsDouble) (hhf : h.isFinite = true)
    (hh0 : 0 < h.val) : (gridPt h t N).IsDouble ∧ t.val ≤ (gridPt h t N).val := by
  obtain ⟨-, a, b, -⟩ := grid_all ht hhd hhf hh0.le N hs
  exact ⟨a, b⟩

/-- **C126, termination of `adams_bashforth`.**  If the bootstrap returns finite times, the run returns. -/
theorem C126_ab_returns (h0 : 0 < order) (h5 : order ≤ 5) (hr : Resolved t0 t1 (clipDt t0 t1 dt)) {l : List (FP × Vec FP n)}
    (hl : bootstrap nd la fn fuelB order y0 t0 (clipDt t0 t1 dt) = some (.ret l)) (hlf : ∀ p ∈ l, p.1.isFinite = true) :
    ∃ fuel out, adamsBashforth nd la fn t0 t1 y0 order dt st0 fuelB fuel = some (.ret out) := by
  obtain ⟨s, hI, he⟩ := adamsBashforth_start (st0 := st0) h0 (Or.inr ((lt_fin_iff lit0_fp.1 hr.fh).mpr (by rw [lit0_fp.2]; exact hr.pos))) hl
  have hl' := bootstrap_ret hl
  have hk : (order - 1).toNat + 1 = order.toNat := by omega
  rw [hk] at hl'
  let Inv : MsState FP n → Prop := fun s => (∃ acc, MsInv order.toNat acc s ∧
      MsRun (clipDt t0 t1 dt) t0 t1 order.toNat (fun a y => order ≤ 5 → AbNext fn.fn order (clipDt t0 t1 dt) a y) acc) ∧
      s.t.IsDouble ∧ s.t.isFinite = true ∧ t0.val ≤ s.t.val
  have hs0 : Inv s := by
    have hR : MsRun (clipDt t0 t1 dt) t0 t1 order.toNat (fun a y => order ≤ 5 → AbNext fn.fn order (clipDt t0 t1 dt) a y) l := by
      rw [hl']; exact msRun_boot _ _
    have hlast := hI.last
    have hm := hlf _ (List.mem_of_getLast? hlast)
    have hg := hR.last hlast
    simp only at hm
    refine ⟨⟨l, hI, hR⟩, ?_⟩
    rw [hg] at hm ⊢
    exact ⟨(gridPt_boot _ hm hr.d0 hr.dh hr.fh hr.pos).1, hm, (gridPt_boot _ hm hr.d0 hr.dh hr.fh hr.pos).2⟩
  have hstep : ∀ a b, Inv a → abBody nd fn.fn t1 order (clipDt t0 t1 dt) a = .next b →
      Inv b ∧ ⌈(t1.val - b.t.val) / ((clipDt t0 t1 dt).val / 8)⌉₊ < ⌈(t1.val - a.t.val) / ((clipDt t0 t1 dt).val / 8)⌉₊ := by
    rintro a b ⟨⟨acc, h1, h2⟩, -, h4, h5⟩ hb
    obtain ⟨g1, g2, y', g3, g4⟩ := abBody_next h0 h1 h2 hb
    obtain ⟨k1, k2, k3, k4⟩ := fp_decreases h4 h5 hr.f1 hr.dh hr.fh hr.pos (le_max_left _ _) (le_max_right _ _) hr.res hr.big hr.bigh g1
    rw [g2]
    exact ⟨⟨⟨_, g3, g4⟩, by rw [g2]; exact k1, by rw [g2]; exact k2, by rw [g2]; exact k3⟩, k4⟩
  obtain ⟨k, r, hrl⟩ := runLoop_terminates (fun s : MsState FP n => ⌈(t1.val - s.t.val) / ((clipDt t0 t1 dt).val / 8)⌉₊) hstep hs0
  refine ⟨k, ?_⟩
  rw [he, hrl]
  obtain ⟨s', hreach, hd⟩ := runLoop_some hrl
  obtain ⟨⟨acc, h1, h2⟩, -⟩ := hreach.inv (Inv := Inv) hs0 fun a b ha hb => (hstep a b ha hb).1
  unfold abBody at hd
  by_cases hlt : ltb s'.t t1 = true
  · rw [if_pos hlt] at hd
    obtain ⟨v, hv⟩ := recent_exists acc h2.len
    rw [abStep_rep h0 h5 (le_refl _) h1.hist hv] at hd
    simp only at hd
    obtain ⟨b, hpb, -⟩ := msInv_push (by omega) h1 (s'.t + clipDt t0 t1 dt)
      (fun k => s'.y k + clipDt t0 t1 dt * abComb order fun j => fn.fn s'.t (v j) k) s'.newton
    rw [hpb] at hd
    cases hd
  · rw [if_neg hlt] at hd
    simp only [LoopStep.done.injEq] at hd
    exact ⟨s'.sol, by rw [← hd]⟩

/-- **C126, termination of `bdf`.** -/
theorem C126_bdf_returns (h0 : 0 < order) (h6 : order ≤ 6) (hr : Resolved t0 t1 (clipDt t0 t1 dt)) {l : List (FP × Vec FP n)}
    (hl : bootstrap nd la fn fuelB (order + 1) y0 t0 (clipDt t0 t1 dt) = some (.ret l)) (hlf : ∀ p ∈ l, p.1.isFinite = true) :
    ∃ fuel out, bdf nd la fn t0 t1 y0 order dt st0 fuelB fuel = some (.ret out) := by
  obtain ⟨s, hI, he⟩ := bdf_start (st0 := st0) h0 h6 (Or.inr ((lt_fin_iff lit0_fp.1 hr.fh).mpr (by rw [lit0_fp.2]; exact hr.pos))) hl
  have hl' := bootstrap_ret hl
  have hk : (order + 1 - 1).toNat + 1 = (order + 1).toNat := by omega
  rw [hk] at hl'
  let Inv : MsState FP n → Prop := fun s => (∃ acc, MsInv (order + 1).toNat acc s ∧
      MsRun (clipDt t0 t1 dt) t0 t1 (order + 1).toNat (BdfNext la fn order (clipDt t0 t1 dt) true) acc) ∧
      s.t.IsDouble ∧ s.t.isFinite = true ∧ t0.val ≤ s.t.val
  have hs0 : Inv s := by
    have hR : MsRun (clipDt t0 t1 dt) t0 t1 (order + 1).toNat (BdfNext la fn order (clipDt t0 t1 dt) true) l := by
      rw [hl']; exact msRun_boot _ _
    have hlast := hI.last
    have hm := hlf _ (List.mem_of_getLast? hlast)
    have hg := hR.last hlast
    simp only at hm
    refine ⟨⟨l, hI, hR⟩, ?_⟩
    rw [hg] at hm ⊢
    exact ⟨(gridPt_boot _ hm hr.d0 hr.dh hr.fh hr.pos).1, hm, (gridPt_boot _ hm hr.d0 hr.dh hr.fh hr.pos).2⟩
  have hstep : ∀ a b, Inv a → bdfBody nd la fn t1 order (clipDt t0 t1 dt) a = .next b →
      Inv b ∧ ⌈(t1.val - b.t.val) / ((clipDt t0 t1 dt).val / 8)⌉₊ < ⌈(t1.val - a.t.val) / ((clipDt t0 t1 dt).val / 8)⌉₊ := by
    rintro a b ⟨⟨acc, h1, h2⟩, -, h4, h5⟩ hb
    rcases bdfBody_cases h0 h1 h2 (nd := nd) with ⟨-, e⟩ | ⟨-, -, e⟩ | ⟨g1, y', s', e, g2, g3, g4⟩
    · rw [e] at hb; cases hb
    · rw [e] at hb; cases hb
    · rw [e] at hb
      simp only [LoopStep.next.injEq] at hb
      subst hb
      obtain ⟨k1, k2, k3, k4⟩ := fp_decreases h4 h5 hr.f1 hr.dh hr.fh hr.pos (le_max_left _ _) (le_max_right _ _) hr.res hr.big hr.bigh g1
      rw [g2]
      exact ⟨⟨⟨_, g3, g4⟩, by rw [g2]; exact k1, by rw [g2]; exact k2, by rw [g2]; exact k3⟩, k4⟩
  obtain ⟨k, r, hrl⟩ := runLoop_terminates (fun s : MsState FP n => ⌈(t1.val - s.t.val) / ((clipDt t0 t1 dt).val / 8)⌉₊) hstep hs0
  refine ⟨k, ?_⟩
  rw [he, hrl]
  obtain ⟨s', hreach, hd⟩ := runLoop_some hrl
  obtain ⟨⟨acc, h1, h2⟩, -⟩ := hreach.inv (Inv := Inv) hs0 fun a b ha hb => (hstep a b ha hb).1
  rcases bdfBody_cases h0 h1 h2 (nd := nd) with ⟨-, e⟩ | ⟨-, -, e⟩ | ⟨-, y', s'', e, -, -, -⟩
  · rw [e] at hd
    simp only [LoopStep.done.injEq] at hd
    exact ⟨_, by rw [← hd]⟩
  · rw [e] at hd
    simp only [LoopStep.done.injEq] at hd
    exact ⟨_, by rw [← hd]⟩
  · rw [e] at hd; cases hd

/-! ### the intended number of steps -/

/-- **C126, the claim.**  With the step `1/N` a run from `0` to `1` takes `N` steps. -/
def C126_claim : Prop := ∀ (N : ℕ) (fuel : ℕ) (out : MsOutput FP n), 0 < N →
  adamsBashforth nd la fn (fin 0) (fin 1) y0 1 (lit (1 / N)) st0 fuelB fuel = some (.ret out) → out.tVals.length = N + 1

/-- the double next to 0.1 -/
def tenth : FP := rnd false (1 / 10)

omit [Libm] in
theorem tenth_grid : tenth = fin (3602879701896397 / 36028797018963968) ∧ lt (fin 1) (fin 0 + tenth) = false ∧
    (gridPt tenth (fin 0) 10) = fin (9007199254740991 / 9007199254740992) ∧
    (gridPt tenth (fin 0) 11) = fin (4953959590107545 / 4503599627370496) := by decide +kernel

omit [Libm] in
theorem tenth_before : ∀ i ≤ 10, lt (gridPt tenth (fin 0) i) (fin 1) = true := by decide +kernel

omit [Libm] in
theorem tenth_after : lt (gridPt tenth (fin 0) 11) (fin 1) = false := by decide +kernel

omit [Libm] in
/-- the grid with the step `0.1` passes `1` only with the eleventh step -/
theorem tenth_count {first N : ℕ} (hf11 : first ≤ 11)
    (h1 : lt (gridPt tenth (fin 0) (N - 1)) (fin 1) = false)
    (h2 : ∀ i : ℕ, first ≤ i + 1 → i + 1 < N → lt (gridPt tenth (fin 0) i) (fin 1) = true) : N = 12 := by
  by_contra hne
  rcases lt_or_gt_of_ne hne with h | h
  · rw [tenth_before (N - 1) (by omega)] at h1; cases h1
  · have := h2 11 (by omega) (by omega)
    rw [tenth_after] at this; cases this

theorem tenth_clip : clipDt (fin 0) (fin 1) (lit (1 / 10) : FP) = tenth := by
  show (if lt (fin 1) (fin 0 + tenth) = true then _ else tenth) = tenth
  rw [tenth_grid.2.1]
  simp

/-- **C126, eleven steps of 0.1 from 0 to 1.**  Every run of `adams_bashforth` from `0` to `1` with the step `0.1` that returns has 12 samples
and ends at 1.0999999999999999, for every right-hand side and order; so does every successful run of `bdf`. -/
theorem C126_tenth (ho : order ≤ 6) (h : adamsBashforth nd la fn (fin 0) (fin 1) y0 order (lit (1 / 10)) st0 fuelB fuel = some (.ret out) ∨
      0 < order ∧ bdf nd la fn (fin 0) (fin 1) y0 order (lit (1 / 10)) st0 fuelB fuel = some (.ret out) ∧ out.status = 0) :
    out.tVals.length = 12 ∧ out.tVals.getLast? = some (fin (4953959590107545 / 4503599627370496)) := by
  have e1 := tenth_clip
  obtain ⟨-, -, -, e3⟩ := tenth_grid
  have key : out.tVals.length = 12 ∧ ∀ i < out.tVals.length, out.tVals[i]? = some (gridPt tenth (fin 0) i) := by
    rcases h with h | ⟨h0, h, hs⟩
    · obtain ⟨N, -, h2, -, h3, h4, h5, h6, h7⟩ := C53_ab_grid h
      rw [e1] at h5 h6 h7
      subst h2
      exact ⟨tenth_count (first := order.toNat) (by omega) h6 fun i a b => h7 i (by omega) b, h5⟩
    · obtain ⟨N, h2, -, h4, h5, h7, h8⟩ := C53_bdf_grid h0 ho h
      rw [e1] at h5 h7 h8
      subst h2
      exact ⟨tenth_count (first := (order + 1).toNat) (by omega) (h7.mp hs) fun i a b => h8 i (by omega) b, h5⟩
  refine ⟨key.1, ?_⟩
  rw [List.getLast?_eq_getElem?, key.1, key.2 11 (by rw [key.1]; norm_num), ← e3]

end

/-! ### examples -/

section
local instance msGridLibm : Libm := powOne

/-- did the run return? -/
def returned {α : Type} : Option (Outcome α) → Bool
  | some (.ret _) => true
  | _ => false

theorem returned_iff {α : Type} {x : Option (Outcome α)} (h : returned x = true) : ∃ out, x = some (.ret out) := by
  match x, h with
  | some (.ret out), _ => exact ⟨out, rfl⟩

/-- the run of `adams_bashforth` of order 1 for `y' = 0` -/
theorem tenth_runs : ∃ out, adamsBashforth true laId restFP (fin 0) (fin 1) (fun _ => fin 0) 1 (lit (1 / 10)) ⟨0, fin 0, 0, fin 0, 0, 0⟩ 0 20 =
    some (.ret out) := returned_iff (by decide +kernel)

/-- **C126, refuted.** -/
theorem C126_refuted : ¬ C126_claim (nd := true) (la := laId) (fn := restFP) (y0 := fun _ => fin 0) (st0 := ⟨0, fin 0, 0, fin 0, 0, 0⟩) (fuelB := 0) := by
  intro hc
  obtain ⟨out, h⟩ := tenth_runs
  have h1 := hc 10 20 out (by norm_num) (by simpa using h)
  have h2 := C126_tenth (by norm_num) (Or.inl h)
  rw [h2.1] at h1
  omega

/-- the hypotheses of `C126_adams_bashforth_partial` for the same run: it has at least 10 steps -/
example : ∃ out, adamsBashforth true laId restFP (fin 0) (fin 1) (fun _ => fin 0) 1 (lit (1 / 10)) ⟨0, fin 0, 0, fin 0, 0, 0⟩ 0 20 =
    some (.ret out) ∧ RoundedGrid 0 1 (3602879701896397 / 36028797018963968) 1 out.tVals := by
  obtain ⟨out, h⟩ := tenth_runs
  have hl := (C126_tenth (by norm_num) (Or.inl h)).2
  have he : clipDt (fin 0) (fin 1) (lit (1 / 10)) = fin (3602879701896397 / 36028797018963968) := by rw [tenth_clip, tenth_grid.1]
  have := C126_adams_bashforth_partial (by decide +kernel) rfl (by rw [he]; decide +kernel) (by rw [he]; rfl) (by rw [he]; norm_num [val]) h ⟨_, hl, rfl⟩
  rw [he] at this
  exact ⟨out, h, this⟩

/-- the hypotheses of `C126_exact`: with the step `1/8` the run takes 8 steps -/
example : ∃ out, adamsBashforth true laId restFP (fin 0) (fin 1) (fun _ => fin 0) 1 (fin (1 / 8)) ⟨0, fin 0, 0, fin 0, 0, 0⟩ 0 20 =
    some (.ret out) ∧ out.tVals.length = 9 := by
  obtain ⟨out, h⟩ : ∃ out, adamsBashforth true laId restFP (fin 0) (fin 1) (fun _ => fin 0) 1 (fin (1 / 8)) ⟨0, fin 0, 0, fin 0, 0, 0⟩ 0 20 =
    some (.ret out) := returned_iff (by decide +kernel)
  have hl : out.tVals.length ≤ 20 := by
    have := (by decide +kernel : (match adamsBashforth true laId restFP (fin 0) (fin 1) (fun _ => fin 0) 1 (fin (1 / 8)) ⟨0, fin 0, 0, fin 0, 0, 0⟩ 0 20 with
      | some (.ret out) => decide (out.tVals.length ≤ 20) | _ => true) = true)
    rw [h] at this
    simpa using this
  have he : clipDt (fin 0) (fin 1) (fin (1 / 8)) = fin (1 / 8) := by decide +kernel
  obtain ⟨-, h2⟩ := C126_exact (a := 0) (b := 1) (e := -3) (by norm_num) (by norm_num) rfl rfl (by rw [he]; rfl) (by rw [he]; norm_num [val])
    (by norm_num [val]) (by rw [he]; norm_num [val]) h (by
      rw [abs_zero, zero_add, abs_one, mul_one]
      have : ((out.tVals.length - 1 : ℕ) : ℤ) ≤ 20 := by exact_mod_cast (by omega : out.tVals.length - 1 ≤ 20)
      exact this.trans (by norm_num))
  refine ⟨out, h, ?_⟩
  rw [h2, he]
  norm_num [val]

/-- the hypotheses of `C126_ab_returns`: `[1, 2]` with the step `0.1` -/
example (nd : Bool) (y0 : Vec FP 1) : ∃ fuel out, adamsBashforth nd laId restFP (fin 1) (fin 2) y0 1 (lit (1 / 10)) ⟨0, fin 0, 0, fin 0, 0, 0⟩ 0 fuel =
    some (.ret out) := by
  have he : clipDt (fin 1) (fin 2) (lit (1 / 10)) = fin (3602879701896397 / 36028797018963968) := by decide +kernel
  refine C126_ab_returns (l := [(fin 1, y0)]) (by norm_num) (by norm_num) ?_ rfl (by simp [isFinite])
  rw [he]
  refine ⟨by decide +kernel, rfl, rfl, by decide +kernel, rfl, by norm_num [val], by norm_num [val], ?_, ?_⟩
  · simp only [val]; exact (by norm_num : max |(1 : ℚ)| |2| ≤ 2 ^ 1).trans (pow_le_pow_right₀ (by norm_num) (by norm_num))
  · simp only [val]; exact (by norm_num : (3602879701896397 / 36028797018963968 : ℚ) ≤ 2 ^ 1).trans (pow_le_pow_right₀ (by norm_num) (by norm_num))

/-- the hypotheses of `C126_stalls`: one second per step, time in units of `2^60` seconds -/
example (nd : Bool) (fuelB fuel : ℕ) (out : MsOutput FP 1) : adamsBashforth nd laId restFP (fin (2 ^ 60)) (fin (2 ^ 61)) (fun _ => fin 0) 4 (fin 1)
    ⟨0, fin 0, 0, fin 0, 0, 0⟩ fuelB fuel ≠ some (.ret out) := by
  have he : clipDt (fin (2 ^ 60)) (fin (2 ^ 61)) (fin 1) = fin 1 := by decide +kernel
  exact (C126_stalls (by decide +kernel) rfl rfl (by rw [he]; rfl) (by norm_num [val]) (by rw [he]; norm_num [val]) (by rw [he]; norm_num [val])).1

end
end Verif
