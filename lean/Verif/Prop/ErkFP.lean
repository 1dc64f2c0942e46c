import Verif.FPLemmas
import Verif.Prop.Erk
import Verif.Prop.ErkCoeffs

/-!
# Properties C25 (NaN), C61, C62 and C63 in binary64 arithmetic
-/

set_option linter.unusedSectionVars false

namespace Verif
open FP

/-! ### C61 -/

/-- **C61, the claim**: clipping the step ends exactly at `t1`. -/
def C61_claim : Prop :=
  ∀ t t1 : FP, t.IsDouble → t1.IsDouble → t.isFinite = true → t1.isFinite = true → lt t t1 = true →
    t + (t1 - t) = t1

/-- the witness: `t = 3·2⁻⁵³`, `t1 = 1 + 3·2⁻⁵²` -/
def c61t : FP := fin (3 / 2 ^ 53)
def c61t1 : FP := fin (1 + 3 / 2 ^ 52)

/-- **C61 is false**: the step ends one unit in the last place beyond `t1`. -/
theorem C61_refuted : ¬ C61_claim := by
  intro h
  have := h c61t c61t1 (by decide +kernel) (by decide +kernel) rfl rfl (by decide +kernel)
  revert this
  decide +kernel

/-- the overshoot: the recorded time is larger than `t1` -/
theorem C61_overshoots : lt c61t1 (c61t + (c61t1 - c61t)) = true := by decide +kernel

/-- **C61, what holds** (Sterbenz): if `t1/2 ≤ t ≤ 2 t1` the end point is hit exactly.  Missing from the claim: the
other pairs, see `C61_refuted`. -/
theorem C61_sterbenz_partial {t t1 : FP} (hd : t.IsDouble) (hd1 : t1.IsDouble) (hf : t.isFinite = true)
    (hf1 : t1.isFinite = true) (h1 : t1.val / 2 ≤ t.val) (h2 : t.val ≤ 2 * t1.val) (hpos : 0 < t1.val) :
    (t + (t1 - t)).val = t1.val ∧ (t + (t1 - t)).isFinite = true := by
  obtain ⟨hr, hb⟩ := rep_val hd hf
  obtain ⟨hr1, hb1⟩ := rep_val hd1 hf1
  obtain ⟨m, e, he, hm, hme⟩ := rnQ_mult t.val
  obtain ⟨m1, e1, he1, hm1, hme1⟩ := rnQ_mult t1.val
  rw [hr] at hme
  rw [hr1] at hme1
  have hpt : 0 < t.val := by linarith
  -- the difference is representable
  have key : rnQ (t1.val - t.val) = t1.val - t.val := by
    rcases le_total e e1 with hee | hee
    · obtain ⟨d, hd⟩ : ∃ d : ℕ, e1 = d + e := ⟨(e1 - e).toNat, by omega⟩
      have hdiff : t1.val - t.val = ((m1 * 2 ^ d - m : ℤ) : ℚ) * 2 ^ e := by
        rw [hme, hme1, hd, zpow2_add]; push_cast; rw [zpow_natCast]; ring
      rw [hdiff]
      apply rnQ_of_mult he
      have : |t1.val - t.val| ≤ t.val := by rw [abs_le]; constructor <;> linarith
      rw [hdiff, hme, abs_mul, abs_of_pos (zpow2_pos e)] at this
      have := le_of_mul_le_mul_right this (zpow2_pos e)
      have h' : |m1 * 2 ^ d - m| ≤ m := by exact_mod_cast this
      exact h'.trans ((le_abs_self m).trans hm)
    · obtain ⟨d, hd⟩ : ∃ d : ℕ, e = d + e1 := ⟨(e - e1).toNat, by omega⟩
      have hdiff : t1.val - t.val = ((m1 - m * 2 ^ d : ℤ) : ℚ) * 2 ^ e1 := by
        rw [hme, hme1, hd, zpow2_add]; push_cast; rw [zpow_natCast]; ring
      rw [hdiff]
      apply rnQ_of_mult he1
      have : |t1.val - t.val| ≤ t1.val := by rw [abs_le]; constructor <;> linarith
      rw [hdiff, hme1, abs_mul, abs_of_pos (zpow2_pos e1)] at this
      have := le_of_mul_le_mul_right this (zpow2_pos e1)
      have h' : |m1 - m * 2 ^ d| ≤ m1 := by exact_mod_cast this
      exact h'.trans ((le_abs_self m1).trans hm1)
  have hsmall : |t1.val - t.val| < 2 ^ (1024 : ℤ) := by
    have : |t1.val - t.val| ≤ |t1.val| := by
      rw [abs_of_pos hpos, abs_le]; constructor <;> linarith
    exact this.trans_lt hb1
  rcases sub_spec hf1 hf with ⟨s1, s2⟩ | ⟨-, s2⟩
  · rw [key] at s2
    have hsum : t.val + (t1 - t).val = t1.val := by rw [s2]; ring
    rcases add_spec hf s1 with ⟨a1, a2⟩ | ⟨-, a2⟩
    · rw [hsum, hr1] at a2; exact ⟨a2, a1⟩
    · rw [hsum, hr1] at a2; exact absurd a2 (not_le.mpr hb1)
  · rw [key] at s2; exact absurd s2 (not_le.mpr hsmall)

/-- a pair that satisfies the hypotheses and is not trivial -/
example : (fin (1 + 1 / 2 ^ 52)).IsDouble ∧ (fin 1).val / 2 ≤ (fin (1 + 1 / 2 ^ 52)).val ∧
    (fin (1 + 1 / 2 ^ 52)).val ≤ 2 * (fin 1).val := by decide +kernel

/-! ### C62 -/

section
variable [Libm] {n : ℕ} {nd : Bool} {f : FP → Vec FP n → Vec FP n} {t0 t1 : FP} {y0 : Vec FP n}
  {o : ErkOpts FP} {dt : FP} {sc : SolverCoeffs FP} {oo : OutOpts} {fuel : ℕ} {out : ErkOutput FP n}

theorem mp_fp : (machinePrecision : FP).isFinite = true ∧ 0 < (machinePrecision : FP).val := by
  show (rnd false _).isFinite = true ∧ 0 < (rnd false _).val
  decide +kernel

theorem finite_of_lt {t0 t t1 : FP} (h0 : t0.isFinite = true) (h1 : t1.isFinite = true)
    (hle : le t0 t = true) (hlt : lt t t1 = true) : t.isFinite = true := by
  cases t with
  | nan => simp [lt] at hlt
  | inf b =>
    cases b with
    | true => cases t0 <;> simp [isFinite] at h0 <;> simp [le, lt, eq] at hle
    | false => cases t1 <;> simp [isFinite] at h1 <;> simp [lt] at hlt
  | negZero => rfl
  | fin q => rfl

/-- products of finite non-negative doubles are non-negative doubles -/
theorem mul_nonneg_fin {x y : FP} (hx : x.isFinite = true) (hy : y.isFinite = true) (h0 : 0 ≤ x.val)
    (h1 : 0 ≤ y.val) : le (fin 0) (x * y) = true ∧
      ((x * y).isFinite = true ∧ (x * y).val = rnQ (x.val * y.val) ∨
        (2 : ℚ) ^ (1024 : ℤ) ≤ |rnQ (x.val * y.val)|) := by
  have hmul : ∃ b, x * y = rnd b (x.val * y.val) := by
    cases x <;> cases y <;> simp [isFinite] at hx hy <;> exact ⟨_, rfl⟩
  obtain ⟨b, hb⟩ := hmul
  have hp : 0 ≤ x.val * y.val := mul_nonneg h0 h1
  rw [hb]
  rcases rnd_spec b (x.val * y.val) with ⟨a1, a2, -⟩ | ⟨a1, a2⟩
  · exact ⟨by rw [le_fin_iff rfl a1, a2]; exact rnQ_nonneg hp, Or.inl ⟨a1, a2⟩⟩
  · refine ⟨?_, Or.inr a2⟩
    rw [a1]
    have : decide (x.val * y.val < 0) = false := by simpa using hp
    rw [this]; rfl

/-- the reciprocal of an error norm is neither negative nor minus zero -/
theorem recip_fp {err : FP} (herr : lt err (machinePrecision : FP) = false) :
    (lit 1 : FP) / err ≠ negZero ∧ lt ((lit 1 : FP) / err) (fin 0) = false := by
  have hmp : (0 : ℚ) ≤ (machinePrecision : FP).val ∧ (machinePrecision : FP).isFinite = true ∧
      0 < (machinePrecision : FP).val := ⟨mp_fp.2.le, mp_fp⟩
  have e1 : (lit 1 : FP) = fin 1 := by
    show rnd false 1 = fin 1
    decide +kernel
  rw [e1]
  cases err with
  | nan => exact ⟨FP.noConfusion, rfl⟩
  | inf b =>
    cases b with
    | true =>
      cases hm : (machinePrecision : FP) <;> rw [hm] at hmp herr <;> simp [isFinite] at hmp <;>
        simp [lt] at herr
    | false => exact ⟨FP.noConfusion, rfl⟩
  | negZero =>
    have : lt negZero (machinePrecision : FP) = true := by
      rw [lt_fin_iff rfl hmp.2.1]; exact hmp.2.2
    rw [this] at herr; cases herr
  | fin q =>
    have hq : 0 < q := by
      by_contra hc
      have : lt (fin q) (machinePrecision : FP) = true := by
        rw [lt_fin_iff rfl hmp.2.1]
        exact lt_of_le_of_lt (not_lt.mp hc) hmp.2.2
      rw [this] at herr; cases herr
    have e2 : (fin 1 : FP) / fin q = rnd (xor (decide ((1 : ℚ) < 0)) (decide (q < 0))) (1 / q) := by
      show div (fin 1) (fin q) = _
      simp [div, val, hq.ne', isNeg]
    rw [e2]
    have hne : rnd (xor (decide ((1 : ℚ) < 0)) (decide (q < 0))) (1 / q) ≠ negZero := by
      have g1 : decide (q < 0) = false := by simp; exact hq.le
      have g2 : decide (1 / q < 0) = false := by simp; exact hq.le
      rw [g1]
      unfold rnd
      simp only [g2]
      split_ifs <;> intro hc <;> cases hc
    refine ⟨hne, ?_⟩
    rcases rnd_spec (xor (decide ((1 : ℚ) < 0)) (decide (q < 0))) (1 / q) with ⟨a1, a2, -⟩ | ⟨a1, -⟩
    · have : ¬ lt (rnd (xor (decide ((1 : ℚ) < 0)) (decide (q < 0))) (1 / q)) (fin 0) = true := by
        rw [lt_fin_iff a1 rfl, a2]
        exact not_lt.mpr (rnQ_nonneg (by positivity))
      simpa using this
    · rw [a1]
      have : decide (1 / q < 0) = false := by simp; exact hq.le
      rw [this]; rfl

/-- the exponent used by the controller is positive and at most one -/
theorem expt_bounds_fp {mo : ℕ} (h : mo < 2 ^ 64) : lt (fin 0) (lit 1 / (lit 1 + lit mo) : FP) = true ∧
    le (lit 1 / (lit 1 + lit mo) : FP) (fin 1) = true := by
  have e1 : (lit 1 : FP) = fin 1 := by
    show rnd false 1 = fin 1
    decide +kernel
  have r64 : rnQ (2 ^ 64) = 2 ^ 64 := by decide +kernel
  have r65 : rnQ (2 ^ 65) = 2 ^ 65 := by decide +kernel
  have r66 : rnQ (1 / 2 ^ 65) = 1 / 2 ^ 65 := by decide +kernel
  have r1 : rnQ 1 = 1 := by decide +kernel
  have key : ∀ q : ℚ, 0 ≤ q → q ≤ 2 ^ 65 → ¬ (2 : ℚ) ^ (1024 : ℤ) ≤ |q| := by
    intro q h0 h1 hc
    have big : (2 : ℚ) ^ (65 : ℤ) < 2 ^ (1024 : ℤ) := zpow_lt_zpow_right₀ (by norm_num) (by norm_num)
    rw [abs_of_nonneg h0] at hc
    have : (2 : ℚ) ^ (65 : ℤ) = 2 ^ 65 := by norm_num
    rw [this] at big
    exact absurd (hc.trans h1) (not_le.mpr big)
  have hmo : (mo : ℚ) ≤ 2 ^ 64 := by exact_mod_cast h.le
  -- the order
  have m0 : 0 ≤ rnQ (mo : ℚ) := rnQ_nonneg (by positivity)
  have m1 : rnQ (mo : ℚ) ≤ 2 ^ 64 := by rw [← r64]; exact rnQ_mono hmo
  obtain ⟨m2, m3⟩ : (lit (mo : ℚ) : FP).isFinite = true ∧ (lit (mo : ℚ) : FP).val = rnQ mo := by
    rcases rnd_spec false (mo : ℚ) with ⟨a, b, -⟩ | ⟨-, a⟩
    · exact ⟨a, b⟩
    · exact absurd a (key _ m0 (by linarith))
  -- the denominator
  have d0 : 1 ≤ rnQ (1 + rnQ (mo : ℚ)) := by
    have := rnQ_mono (show (1 : ℚ) ≤ 1 + rnQ (mo : ℚ) by linarith)
    rwa [r1] at this
  have d1 : rnQ (1 + rnQ (mo : ℚ)) ≤ 2 ^ 65 := by
    have := rnQ_mono (show 1 + rnQ (mo : ℚ) ≤ 2 ^ 65 by linarith)
    rwa [r65] at this
  obtain ⟨d2, d3⟩ : ((lit 1 : FP) + lit (mo : ℚ)).isFinite = true ∧ ((lit 1 : FP) + lit (mo : ℚ)).val = rnQ (1 + rnQ mo) := by
    have e : (fin 1 : FP).val = 1 := rfl
    rw [e1]
    rcases add_spec (x := fin 1) (y := lit (mo : ℚ)) rfl m2 with ⟨a, b⟩ | ⟨-, a⟩
    · exact ⟨a, by rw [b, m3, e]⟩
    · rw [m3, e] at a; exact absurd a (key _ (by linarith) d1)
  generalize (lit 1 : FP) + lit (mo : ℚ) = D at d2 d3
  have hD : 1 ≤ D.val ∧ D.val ≤ 2 ^ 65 := by rw [d3]; exact ⟨d0, d1⟩
  obtain ⟨c, hc⟩ : ∃ c, (lit 1 : FP) / D = rnd c (1 / D.val) := by
    rw [e1]
    cases D with
    | nan => cases d2
    | inf b => cases d2
    | negZero => exact absurd hD.1 (by simp [val])
    | fin q =>
      have hq : q ≠ 0 := by have := hD.1; simp [val] at this; linarith
      refine ⟨xor (fin 1 : FP).isNeg (fin q : FP).isNeg, ?_⟩
      show div (fin 1) (fin q) = _
      simp [div, val, hq]
  rw [hc]
  have q0 : 1 / 2 ^ 65 ≤ rnQ (1 / D.val) := by
    have := rnQ_mono (one_div_le_one_div_of_le (by linarith) hD.2)
    rwa [r66] at this
  have q1 : rnQ (1 / D.val) ≤ 1 := by
    have := rnQ_mono (show 1 / D.val ≤ 1 by rw [div_le_one (by linarith)]; exact hD.1)
    rwa [r1] at this
  have q2 : 0 < rnQ (1 / D.val) := lt_of_lt_of_le (by positivity) q0
  rcases rnd_spec c (1 / D.val) with ⟨a, b, -⟩ | ⟨-, a⟩
  · rw [lt_fin_iff rfl a, le_fin_iff a rfl, b]; exact ⟨q2, q1⟩
  · exact absurd a (key _ q2.le (by linarith))

theorem expt_pos {mo : ℕ} (h : mo < 2 ^ 64) : lt (fin 0) (lit 1 / (lit 1 + lit mo) : FP) = true := (expt_bounds_fp h).1

theorem expt_le {mo : ℕ} (h : mo < 2 ^ 64) : le (lit 1 / (lit 1 + lit mo) : FP) (fin 1) = true := (expt_bounds_fp h).2

theorem minOrder_lt {sc : SolverCoeffs FP} {mo : ℕ} (h : minOrder sc = some mo) : mo < 2 ^ 64 := by
  unfold minOrder at h
  split at h
  · simp only [Option.some.injEq] at h
    omega
  · cases h

/-- the factor by which the controller changes the step size -/
theorem scale_fin (hpow : ∀ x y, x ≠ negZero → lt x (fin 0) = false → lt (Libm.pow x y) (fin 0) = false) (mo : ℕ) {err : FP}
    (herr : lt err (machinePrecision : FP) = false) :
    (cmin (lit 4) (spow (lit 1 / err) (lit 1 / (lit 1 + lit mo)) : FP)).isFinite = true ∧
      0 ≤ (cmin (lit 4) (spow (lit 1 / err) (lit 1 / (lit 1 + lit mo)) : FP)).val := by
  set s : FP := spow (lit 1 / err) (lit 1 / (lit 1 + lit mo)) with hs
  -- the scale is not negative
  have hsn : lt s (fin 0) = false := hpow _ _ (recip_fp herr).1 (recip_fp herr).2
  -- the clipped scale is finite and non-negative
  have h4 : (lit 4 : FP) = fin 4 := by
    show rnd false 4 = fin 4
    decide +kernel
  show (cmin (lit 4) s).isFinite = true ∧ 0 ≤ (cmin (lit 4) s).val
  unfold cmin
  rw [h4]
  by_cases hlt : (ltb s (fin 4)) = true
  · rw [if_pos hlt]
    have hlt' : lt s (fin 4) = true := hlt
    cases hsv : s with
    | nan => rw [hsv] at hlt'; simp [lt] at hlt'
    | inf b => rw [hsv] at hlt' hsn; cases b <;> simp [lt] at hlt' hsn
    | negZero => simp [isFinite, val]
    | fin q =>
      rw [hsv] at hsn
      refine ⟨rfl, ?_⟩
      by_contra hneg
      have : lt (fin q) (fin 0) = true := by
        rw [lt_fin_iff rfl rfl]; exact not_le.mp hneg
      rw [this] at hsn; cases hsn
  · rw [if_neg hlt]; exact ⟨rfl, by decide⟩

/-- the step size proposed by the controller is a non-negative double -/
theorem newDt_nonneg (hpow : ∀ x y, x ≠ negZero → lt x (fin 0) = false → lt (Libm.pow x y) (fin 0) = false)
    {mo : ℕ} {d err : FP} (hd : d.IsDouble) (hf : d.isFinite = true) (h0 : 0 ≤ d.val)
    (hmx : o.maxDt.IsDouble) (herr : lt err (machinePrecision : FP) = false) :
    le (fin 0) (newDt o mo d err) = true ∧ (newDt o mo d err).IsDouble := by
  set s : FP := spow (lit 1 / err) (lit 1 / (lit 1 + lit mo)) with hs
  have hc := scale_fin (mo := mo) hpow herr
  rw [← hs] at hc
  have h9 : (lit (9 / 10) : FP).isFinite = true ∧ 0 ≤ (lit (9 / 10) : FP).val ∧
      (lit (9 / 10) : FP).val ≤ 1 := by
    show (rnd false (9 / 10)).isFinite = true ∧ 0 ≤ (rnd false (9 / 10)).val ∧
      (rnd false (9 / 10)).val ≤ 1
    decide +kernel
  -- 0.9*dt
  obtain ⟨hr, hb⟩ := rep_val hd hf
  obtain ⟨p1, p2⟩ := mul_nonneg_fin h9.1 hf h9.2.1 h0
  have p3 : ((lit (9 / 10) : FP) * d).isFinite = true ∧ 0 ≤ ((lit (9 / 10) : FP) * d).val := by
    rcases p2 with ⟨p2, p2'⟩ | p2
    · exact ⟨p2, by rw [p2']; exact rnQ_nonneg (mul_nonneg h9.2.1 h0)⟩
    · exfalso
      have h1 : (lit (9 / 10) : FP).val * d.val ≤ d.val := by nlinarith [h9.2.2]
      have h2 := rnQ_mono h1
      rw [hr] at h2
      have h3 := rnQ_nonneg (mul_nonneg h9.2.1 h0)
      rw [abs_of_nonneg h3] at p2
      rw [abs_of_nonneg h0] at hb
      linarith
  have p4 := (mul_nonneg_fin p3.1 hc.1 p3.2 hc.2).1
  have p5 := isDouble_mul ((lit (9 / 10) : FP) * d) (cmin (lit 4) s)
  have hnd : newDt o mo d err = if ltb (lit 0) o.maxDt then
      cmin o.maxDt ((lit (9 / 10) : FP) * d * cmin (lit 4) s)
      else (lit (9 / 10) : FP) * d * cmin (lit 4) s := rfl
  rw [hnd]
  generalize (lit (9 / 10) : FP) * d * cmin (lit 4) s = z at p4 p5
  split_ifs with hm
  · unfold cmin
    split_ifs with hm2
    · exact ⟨p4, p5⟩
    · refine ⟨?_, hmx⟩
      have h0l : (lit 0 : FP) = fin 0 := rfl
      rw [h0l] at hm
      have hm' : lt (fin 0) o.maxDt = true := hm
      unfold FP.le; rw [hm']; rfl
  · exact ⟨p4, p5⟩

theorem errNorm_not_lt (m : ℕ) (et : FP) : lt (errNorm m et) (machinePrecision : FP) = false := by
  unfold errNorm
  simp only
  split_ifs with h
  · have : (machinePrecision : FP).isFinite = true := mp_fp.1
    cases hv : lt (machinePrecision : FP) machinePrecision with
    | false => rfl
    | true => rw [lt_fin_iff this this] at hv; exact absurd hv (lt_irrefl _)
  · exact Bool.eq_false_iff.mpr h

/-- the loop invariant -/
def MonoInv (t0 t1 : FP) (s : ErkState FP n) : Prop :=
  s.t.IsDouble ∧ le t0 s.t = true ∧ (lt s.t t1 = true → le (fin 0) s.dt = true ∧ s.dt.IsDouble)

/-- the clipped step is a finite non-negative double -/
theorem clip_fp (h0 : t0.isFinite = true) (h1 : t1.isFinite = true) (hspan : (t1 - t0).isFinite = true)
    {t d : FP} (hle : le t0 t = true) (hlt : lt t t1 = true)
    (hd0 : le (fin 0) d = true) (hdd : d.IsDouble) :
    (clipDt t t1 d).IsDouble ∧ (clipDt t t1 d).isFinite = true ∧ 0 ≤ (clipDt t t1 d).val := by
  have htf := finite_of_lt h0 h1 hle hlt
  unfold clipDt
  by_cases hc : ltb t1 (t + d) = true
  · rw [if_pos hc]
    rw [le_fin_iff h0 htf] at hle
    rw [lt_fin_iff htf h1] at hlt
    have hnn : 0 ≤ rnQ (t1.val - t.val) := rnQ_nonneg (by linarith)
    have hm : rnQ (t1.val - t.val) ≤ rnQ (t1.val - t0.val) := rnQ_mono (by linarith)
    refine ⟨isDouble_add h1 (neg_fin htf).1, ?_⟩
    rcases sub_spec h1 htf with ⟨a, b⟩ | ⟨-, b⟩
    · exact ⟨a, by rw [b]; exact hnn⟩
    · exfalso
      have hspan' : |rnQ (t1.val - t0.val)| < 2 ^ (1024 : ℤ) := by
        rcases sub_spec h1 h0 with ⟨c1, c2⟩ | ⟨c1, -⟩
        · rw [← c2]; exact (rep_val (isDouble_add h1 (neg_fin h0).1) hspan).2
        · rw [c1] at hspan; cases hspan
      rw [abs_of_nonneg hnn] at b
      rw [abs_of_nonneg (hnn.trans hm)] at hspan'
      linarith
  · rw [if_neg hc]
    have hdf : d.isFinite = true := by
      cases d with
      | nan => simp [FP.le, lt, FP.eq] at hd0
      | inf b =>
        cases b with
        | true => simp [FP.le, lt, FP.eq] at hd0
        | false =>
          exfalso; apply hc
          have e : t + inf false = inf false := by
            cases t <;> simp [isFinite] at htf <;> rfl
          rw [e]
          show lt t1 (inf false) = true
          cases t1 <;> simp [isFinite] at h1 <;> rfl
      | negZero => rfl
      | fin q => rfl
    refine ⟨hdd, hdf, ?_⟩
    rw [le_fin_iff rfl hdf] at hd0
    exact hd0

theorem monoInv_next (hpow : ∀ x y, x ≠ negZero → lt x (fin 0) = false → lt (Libm.pow x y) (fin 0) = false)
    (h0 : t0.isFinite = true) (h1 : t1.isFinite = true) (hspan : (t1 - t0).isFinite = true)
    (hmx : o.maxDt.IsDouble) {mo : ℕ} {s s' : ErkState FP n} (hI : MonoInv t0 t1 s)
    (hb : erkBody nd f t1 o oo sc mo s = .next s') : MonoInv t0 t1 s' := by
  obtain ⟨i1, i2, i3⟩ := hI
  have hcase := bodyCase nd f t1 o oo sc mo s
  rw [hb] at hcase
  have hND : lt s.t t1 = true → le (fin 0) (attemptAt f t1 o sc mo s).newDt = true ∧
      (attemptAt f t1 o sc mo s).newDt.IsDouble := by
    intro hlt
    obtain ⟨c1, c2, c3⟩ := clip_fp h0 h1 hspan i2 hlt (i3 hlt).1 (i3 hlt).2
    cases had : o.adaptive with
    | true =>
      have : (attemptAt f t1 o sc mo s).newDt = newDt o mo (clipDt s.t t1 s.dt)
          (errNorm n (attemptAt f t1 o sc mo s).errTot) := by
        simp [attemptAt, attempt, had]
      rw [this]
      exact newDt_nonneg hpow c1 c2 c3 hmx (errNorm_not_lt _ _)
    | false =>
      have : (attemptAt f t1 o sc mo s).newDt = clipDt s.t t1 s.dt := by
        simp [attemptAt, attempt, had]
      rw [this]
      exact ⟨by rw [le_fin_iff rfl c2]; exact c3, c1⟩
  have hdt : (attemptAt f t1 o sc mo s).dt = clipDt s.t t1 s.dt := by
    unfold attemptAt attempt; simp only; split_ifs <;> rfl
  cases hcase with
  | accepted h hm hb2 a hA hE hr =>
    have hlt : lt s.t t1 = true := h
    obtain ⟨c1, c2, c3⟩ := clip_fp h0 h1 hspan i2 hlt (i3 hlt).1 (i3 hlt).2
    have htf := finite_of_lt h0 h1 i2 hlt
    rw [← hA] at hND hdt
    refine ⟨?_, ?_, fun _ => hND hlt⟩
    · show (s.t + a.dt).IsDouble
      rw [hdt]; exact isDouble_add htf c2
    · show le t0 (s.t + a.dt) = true
      rw [hdt]
      exact le_trans' i2 (le_add_nonneg i1 htf (by rw [le_fin_iff rfl c2]; exact c3))
  | rejected h hm hb2 a hA hE had hr =>
    rw [← hA] at hND
    exact ⟨i1, i2, fun hlt => hND hlt⟩

/-- **C62.**  In binary64 the recorded times never decrease: for every right-hand side (NaN and infinities included),
every tableau, every option, every initial step `dt ≥ 0`.  Hypotheses: the arguments are doubles, `t1 - t0` does not
overflow, and `pow` does not return a negative number for a base that is not negative. -/
theorem C62_times_monotone
    (hpow : ∀ x y, x ≠ negZero → lt x (fin 0) = false → lt (Libm.pow x y) (fin 0) = false)
    (hd0 : t0.IsDouble) (h0 : t0.isFinite = true) (h1 : t1.isFinite = true)
    (hspan : (t1 - t0).isFinite = true) (hmx : o.maxDt.IsDouble) (hdd : dt.IsDouble)
    (hdt : nd = false ∨ le (fin 0) dt = true)
    (h : erkGuts nd f t0 t1 y0 o dt sc oo fuel = some (.ret out)) :
    out.tVals.Pairwise (fun a b => le a b = true) := by
  obtain ⟨mo, s, hmo, hpos, hr, hout⟩ := erkGuts_ret h
  have hinit : MonoInv t0 t1 (erkInit f t0 y0 (clipDt t0 t1 dt) sc) := by
    have e1 : (erkInit f t0 y0 (clipDt t0 t1 dt) sc).t = t0 := by
      unfold erkInit; by_cases hf : sc.fsal = true <;> simp [hf]
    have e2 : (erkInit f t0 y0 (clipDt t0 t1 dt) sc).dt = clipDt t0 t1 dt := by
      unfold erkInit; by_cases hf : sc.fsal = true <;> simp [hf]
    have hne : t0 ≠ nan := by intro hc; rw [hc] at h0; cases h0
    rw [MonoInv, e1, e2]
    refine ⟨hd0, le_refl' hne, fun hlt => ?_⟩
    have hcd : (clipDt t0 t1 dt).IsDouble := by
      unfold clipDt; split_ifs
      · exact isDouble_add h1 (neg_fin h0).1
      · exact hdd
    refine ⟨?_, hcd⟩
    rcases hdt with hnd | hge
    · have hp := hpos.resolve_left (by rw [hnd]; decide)
      have hp' : lt (fin 0) (clipDt t0 t1 dt) = true := hp
      unfold FP.le; rw [hp']; rfl
    · obtain ⟨-, c2, c3⟩ := clip_fp h0 h1 hspan (le_refl' hne) hlt hge hdd
      rw [le_fin_iff rfl c2]; exact c3
  obtain ⟨hI, recs, hrec⟩ := reach_recs (Rel := fun t _ b => le t b.t = true)
    (J := MonoInv t0 t1) hinit (fun a b ha hb => monoInv_next hpow h0 h1 hspan hmx ha hb)
    (fun s a hJ hlt hA hr => by
      obtain ⟨i1, i2, i3⟩ := hJ
      have hlt' : lt s.t t1 = true := hlt
      obtain ⟨c1, c2, c3⟩ := clip_fp h0 h1 hspan i2 hlt' (i3 hlt').1 (i3 hlt').2
      have htf := finite_of_lt h0 h1 i2 hlt'
      have hdt : a.dt = clipDt s.t t1 s.dt := by
        rw [hA]; unfold attemptAt attempt; simp only; split_ifs <;> rfl
      show le s.t (s.t + a.dt) = true
      rw [hdt]
      exact le_add_nonneg i1 htf (by rw [le_fin_iff rfl c2]; exact c3)) hr
  have hpw : s.sol.tVals.Pairwise (fun a b => le a b = true) := by
    rw [hrec.cols.t, List.pairwise_map]
    have : IsTrans (Sample FP n) (fun a b => le a.t b.t = true) := ⟨fun _ _ _ h1 h2 => le_trans' h1 h2⟩
    exact List.isChain_iff_pairwise.mp hrec.chain
  rcases hout with ⟨-, rfl⟩ | ⟨-, -, -, rfl⟩
  · exact hpw
  · exact hpw

/-! ### C25, the part about NaN -/

/-- **C25 (NaN).**  With assertions enabled, every step accepted by an adaptive binary64 run has a recorded error
that compares less than 1; in particular it is not NaN.  `n` is the number of equations. -/
theorem C25_no_nan_accepted (hn : 0 < n) (hn' : n ≤ 2 ^ 64) (had : o.adaptive = true)
    (h : erkGuts false f t0 t1 y0 o dt sc oo fuel = some (.ret out)) :
    ∀ e ∈ out.err, lt e (fin 1) = true := by
  obtain ⟨mo, s, hmo, hpos, hr, hout⟩ := erkGuts_ret h
  obtain ⟨-, recs, hrec⟩ := reach_recs' (Rel := fun _ _ b => lt b.err (fin 1) = true)
    (J := fun _ => True) trivial (fun _ _ _ _ => trivial)
    (fun s a _ hlt hA hE hr => by
      have hE' : le (fin 0) a.errTot = true := hE had rfl
      have herr : a.err = errNorm n a.errTot := by rw [hA]; simp [attemptAt, attempt, had]
      have hrj : a.reject = leb (lit 1) a.err := by rw [hA]; simp [attemptAt, attempt, had]
      have hr' := hr.resolve_left (by rw [had]; decide)
      have e1 : (lit 1 : FP) = fin 1 := by
        show rnd false 1 = fin 1
        decide +kernel
      rw [hrj, e1] at hr'
      have hr'' : le (fin 1) a.err = false := hr'
      show lt a.err (fin 1) = true
      -- the norm is not NaN
      have hnn : a.err ≠ nan := by
        rw [herr]
        unfold errNorm
        simp only
        split_ifs
        · intro hc
          have : (machinePrecision : FP).isFinite = true := mp_fp.1
          rw [hc] at this; cases this
        · have hl : ∃ q : ℚ, (lit (n : ℚ) : FP) = fin q ∧ 0 < q := by
            have h1n : (1 : ℚ) ≤ (n : ℚ) := by exact_mod_cast hn
            have hn64 : (n : ℚ) ≤ (2 ^ 64 : ℤ) := by exact_mod_cast hn'
            have hr1 : (1 : ℚ) ≤ rnQ (n : ℚ) := by
              have := rnQ_mono h1n
              have e : rnQ 1 = 1 := by decide +kernel
              rwa [e] at this
            have hr2 : rnQ (n : ℚ) ≤ (2 ^ 64 : ℤ) := by
              have := rnQ_mono hn64
              have e : rnQ (2 ^ 64 : ℤ) = (2 ^ 64 : ℤ) := by decide +kernel
              rwa [e] at this
            refine ⟨rnQ n, ?_, by linarith⟩
            show rnd false (n : ℚ) = _
            unfold rnd
            simp only
            rw [if_neg (by linarith), if_neg (by linarith), if_neg]
            rw [abs_of_pos (by linarith)]
            have : ((2 ^ 64 : ℤ) : ℚ) < 2 ^ (1024 : ℤ) := by
              have : ((2 ^ 64 : ℤ) : ℚ) = 2 ^ (64 : ℤ) := by norm_num
              rw [this]; exact zpow2_lt_iff.mpr (by norm_num)
            linarith
          obtain ⟨q, hq, hq0⟩ := hl
          rw [hq]
          -- the quotient is non-negative, its root is a number
          have hdiv : le (fin 0) (a.errTot / fin q) = true := by
            cases het : a.errTot with
            | nan => rw [het] at hE'; simp [FP.le, lt, FP.eq] at hE'
            | inf b =>
              rw [het] at hE'
              cases b with
              | true => simp [FP.le, lt, FP.eq] at hE'
              | false =>
                show le (fin 0) (inf (xor false (decide (q < 0)))) = true
                have : decide (q < 0) = false := by simpa using hq0.le
                rw [this]; rfl
            | negZero =>
              have e : (negZero : FP) / fin q = rnd (xor true (decide (q < 0))) (0 / q) := by
                show FP.div negZero (fin q) = _
                simp [FP.div, val, hq0.ne', isNeg]
              rw [e, zero_div]
              have : decide (q < 0) = false := by simpa using hq0.le
              rw [this]; rfl
            | fin p =>
              rw [het, le_fin_iff rfl rfl] at hE'
              have hp : (0 : ℚ) ≤ p := hE'
              have e : ∃ b, (fin p : FP) / fin q = rnd b (p / q) := by
                refine ⟨xor (decide (p < 0)) (decide (q < 0)), ?_⟩
                show FP.div (fin p) (fin q) = _
                simp [FP.div, val, hq0.ne', isNeg]
              obtain ⟨b, e⟩ := e
              rw [e]
              have hpq : 0 ≤ p / q := by positivity
              rcases rnd_spec b (p / q) with ⟨a1, a2, -⟩ | ⟨a1, -⟩
              · rw [le_fin_iff rfl a1, a2]; exact rnQ_nonneg hpq
              · rw [a1]
                have : decide (p / q < 0) = false := by simpa using hpq
                rw [this]; rfl
          show FP.sqrt (a.errTot / fin q) ≠ nan
          cases hv : a.errTot / fin q with
          | nan => rw [hv] at hdiv; simp [FP.le, lt, FP.eq] at hdiv
          | inf b =>
            rw [hv] at hdiv
            cases b with
            | true => simp [FP.le, lt, FP.eq] at hdiv
            | false => simp [FP.sqrt]
          | negZero => simp [FP.sqrt]
          | fin r =>
            rw [hv, le_fin_iff rfl rfl] at hdiv
            have hr0 : (0 : ℚ) ≤ r := hdiv
            simp only [FP.sqrt]
            split_ifs with g1 g2
            · simp
            · linarith
            · exact rnd_ne_nan _ _
      cases hv : a.err with
      | nan => exact absurd hv hnn
      | inf b => rw [hv] at hr''; cases b <;> simp [FP.le, lt, FP.eq] at hr'' ⊢
      | negZero => decide
      | fin q =>
        rw [hv] at hr''
        have : ¬ (le (fin 1) (fin q) = true) := by rw [hr'']; decide
        rw [le_fin_iff rfl rfl] at this
        rw [lt_fin_iff rfl rfl]
        exact not_le.mp this) hr
  have hall : ∀ e ∈ s.sol.err, lt e (fin 1) = true := by
    rw [hrec.cols.err]
    intro e he
    obtain ⟨r, hr1, rfl⟩ := List.mem_map.mp he
    obtain ⟨i, hi, rfl⟩ := List.mem_iff_getElem.mp hr1
    cases i with
    | zero =>
      have := hrec.head
      rw [List.head?_eq_getElem?, List.getElem?_eq_getElem hi, Option.some.injEq] at this
      rw [this]
      show lt (fin 0) (fin 1) = true
      decide
    | succ i => exact List.isChain_iff_getElem.mp hrec.chain i (by omega)
  rcases hout with ⟨-, rfl⟩ | ⟨-, -, -, rfl⟩
  · exact hall
  · exact hall

end

/-! ### Concrete binary64 runs -/

/-- recorded times of a run that returned -/
def timesOf {n : ℕ} : Option (Outcome (ErkOutput FP n)) → List FP
  | some (.ret out) => out.tVals
  | _ => []

/-- status and recorded errors of a run that returned -/
def errsOf {n : ℕ} : Option (Outcome (ErkOutput FP n)) → Option (ℤ × List FP)
  | some (.ret out) => some (out.status, out.err)
  | _ => none

/-- a `pow` for the examples: constantly 1 -/
abbrev powOne : Libm := ⟨fun _ _ => fin 1⟩

/-- fixed steps, no limit -/
def fpFixed : ErkOpts FP :=
  { adaptive := false, relTol := fin 0, absTol := fin 0, maxDt := fin 0, maxSteps := -1 }

/-- adaptive with tolerances 1 -/
def fpAdapt : ErkOpts FP :=
  { adaptive := true, relTol := fin 1, absTol := fin 1, maxDt := fin 0, maxSteps := -1 }

/-- **C61 fails in a run**: `erk::odeint` with explicit Euler and the interval of `C61_refuted` records a time beyond
`t1`. -/
theorem C61_run_overshoots : letI := powOne
    ∃ a b, timesOf (erkOdeint false (fun _ y => y) c61t c61t1 (fun _ : Fin 1 => fin 1) fpFixed OutOpts.dflt 100
      (fin 2) 2) = [a, b] ∧ lt c61t1 b = true := by
  refine ⟨c61t, c61t + (c61t1 - c61t), ?_, C61_overshoots⟩
  decide +kernel

/-- `C62_times_monotone` applies to a run with two steps -/
example : letI := powOne
    timesOf (erkOdeint false (fun _ y => y) (fin 0) (fin 1) (fun _ : Fin 1 => fin 1) fpAdapt OutOpts.dflt 120
      (fin (1 / 2)) 5) = [fin 0, fin (1 / 2), fin (1 / 2) + (fin (1 / 2) * (lit (9 / 10) : FP)), fin 1] := by
  decide +kernel

theorem ret_of_errs {n : ℕ} {r : Option (Outcome (ErkOutput FP n))} {k : ℕ}
    (h : ((errsOf r).map fun q => q.2.length) = some k) : ∃ out, r = some (.ret out) ∧ out.err.length = k := by
  unfold errsOf at h
  split at h
  · exact ⟨_, rfl, by simpa using h⟩
  · simp at h

/-- the hypotheses of `C62_times_monotone` and `C25_no_nan_accepted` are met by this run -/
example : letI := powOne
    ∃ out : ErkOutput FP 1, erkGuts false (fun _ y => y) (fin 0) (fin 1) (fun _ => fin 1) fpAdapt (fin (1 / 2)) (erkCoeffs 120)
      OutOpts.dflt 5 = some (.ret out) ∧ out.err.length = 4 ∧ (∀ e ∈ out.err, lt e (fin 1) = true) ∧
      out.tVals.Pairwise (fun a b => le a b = true) := by
  let : Libm := powOne
  obtain ⟨out, heq, h⟩ := ret_of_errs (k := 4) (r := erkGuts false (fun _ y => y) (fin 0) (fin 1) (fun _ : Fin 1 => fin 1) fpAdapt (fin (1 / 2))
    (erkCoeffs 120) OutOpts.dflt 5) (by decide +kernel)
  exact ⟨out, heq, h, C25_no_nan_accepted (by decide) (by decide) rfl heq,
    C62_times_monotone (fun _ _ _ _ => show lt (fin 1) (fin 0) = false by decide +kernel) (by decide +kernel) rfl rfl (by decide +kernel)
      (by decide +kernel) (by decide +kernel) (Or.inl rfl) heq⟩

/-- **C25, without assertions**: with `NDEBUG` a step whose error estimate is NaN is accepted and the run reports
success. -/
theorem C25_nan_accepted_ndebug : letI := powOne
    errsOf (erkOdeint true (fun _ _ _ => nan) (fin 0) (fin 1) (fun _ : Fin 1 => fin 1) fpAdapt OutOpts.dflt 120
      (fin 1) 2) = some (0, [fin 0, nan]) := by
  decide +kernel

/-- with assertions the same run stops at the assertion -/
theorem C25_nan_asserts : letI := powOne
    (match erkOdeint false (fun _ _ _ => nan) (fin 0) (fin 1) (fun _ : Fin 1 => fin 1) fpAdapt OutOpts.dflt 120
      (fin 1) 2 with
      | some .assertFail => true
      | _ => false) = true := by
  decide +kernel

/-- **Progress in binary64.**  Without a step limit a step smaller than half a unit in the last place of `t` never
advances the time: `erk::odeint` with fixed step `1/2` on `[2^53, 2^53+4]` runs forever, for every right-hand side. -/
theorem C63_stall [Libm] {n : ℕ} (nd : Bool) (f : FP → Vec FP n → Vec FP n) (y0 : Vec FP n) (fuel : ℕ) :
    erkOdeint nd f (fin (2 ^ 53)) (fin (2 ^ 53 + 4)) y0 fpFixed OutOpts.dflt 100 (fin (1 / 2)) fuel = none := by
  have hlt : ltb (fin (2 ^ 53) : FP) (fin (2 ^ 53 + 4)) = true := by
    show lt _ _ = true
    decide +kernel
  have hadd : (fin (2 ^ 53) : FP) + fin (1 / 2) = fin (2 ^ 53) := by decide +kernel
  have hclip : clipDt (fin (2 ^ 53) : FP) (fin (2 ^ 53 + 4)) (fin (1 / 2)) = fin (1 / 2) := by
    unfold clipDt
    rw [hadd, if_neg]
    show ¬ lt _ _ = true
    decide +kernel
  have hv : erkVerify (erkCoeffs 100 : SolverCoeffs FP) = true := by
    exact (C08_erk rfl 100).mpr (by decide)
  unfold erkOdeint
  simp only [hv, Bool.not_true, Bool.and_false, fpFixed, Bool.false_and, Bool.false_eq_true, if_false]
  unfold erkGuts
  simp only [hclip]
  have h0 : ltb (lit 0 : FP) (fin (1 / 2)) = true := by
    show lt (fin 0) _ = true
    decide +kernel
  rw [h0]
  simp only [Bool.not_true, Bool.and_false, Bool.false_eq_true, if_false]
  have hmo : minOrder (erkCoeffs 100 : SolverCoeffs FP) = some 0 := rfl
  rw [hmo]
  refine diverges_of_inv (Inv := fun s : ErkState FP n => s.t = fin (2 ^ 53) ∧ s.dt = fin (1 / 2))
    ?_ ⟨rfl, rfl⟩ fuel
  rintro s ⟨h1, h2⟩
  have hdt : ∀ o : ErkOpts FP, o.adaptive = false →
      (attemptAt f (fin (2 ^ 53 + 4)) o (erkCoeffs 100) 0 s).dt = fin (1 / 2) ∧
      (attemptAt f (fin (2 ^ 53 + 4)) o (erkCoeffs 100) 0 s).newDt = fin (1 / 2) := by
    intro o ho
    simp only [attemptAt, attempt, ho, h1, h2, hclip, Bool.false_eq_true, if_false, and_self]
  have hN : ∀ o : ErkOpts FP, o = fpFixed → erkBody nd f (fin (2 ^ 53 + 4)) o OutOpts.dflt (erkCoeffs 100) 0 s =
      .next (accept (erkCoeffs 100) s (attemptAt f (fin (2 ^ 53 + 4)) o (erkCoeffs 100) 0 s)
        ((attemptAt f (fin (2 ^ 53 + 4)) o (erkCoeffs 100) 0 s).sol.line OutOpts.dflt s.t
          (attemptAt f (fin (2 ^ 53 + 4)) o (erkCoeffs 100) 0 s).yn)) := by
    rintro o rfl
    unfold erkBody
    rw [if_pos (by rw [h1]; exact hlt), if_neg (by simp [fpFixed]), if_neg (by simp [fpFixed])]
    have hw : (OutOpts.dflt).writeToFile = false := by decide
    simp [fpFixed, hw]
  refine ⟨_, hN _ rfl, ?_, (hdt _ rfl).2⟩
  show s.t + (attemptAt f (fin (2 ^ 53 + 4)) _ (erkCoeffs 100) 0 s).dt = _
  rw [(hdt _ rfl).1, h1, hadd]

end Verif
