import Verif.ErkTerm

/-!
# Termination of the adaptive explicit integrator: helper lemmas
-/

namespace Verif
open Spec
variable {n : ℕ} {nd : Bool} {f : ℝ → Vec ℝ n → Vec ℝ n} {t0 t1 : ℝ} {y0 : Vec ℝ n}
  {o : ErkOpts ℝ} {dt : ℝ} {sc : SolverCoeffs ℝ} {oo : OutOpts} {fuel : ℕ} {out : ErkOutput ℝ n}
  {mo : ℕ}

/-- a componentwise bound on the error vector bounds the norm -/
theorem wrms_le {atol rtol : ℝ} (ha : 0 < atol) (hr : 0 ≤ rtol) (y yn ee : Vec ℝ n) {E : ℝ}
    (hE : 0 ≤ E) (h : ∀ k, |ee k| ≤ E) : wrms atol rtol y yn ee ≤ E / atol := by
  unfold wrms
  apply Real.sqrt_le_iff.mpr
  refine ⟨by positivity, ?_⟩
  have hterm : ∀ k ∈ (Finset.univ : Finset (Fin n)),
      (ee k / (atol + rtol * max |y k| |yn k|)) ^ 2 ≤ (E / atol) ^ 2 := by
    intro k _
    have hden : atol ≤ atol + rtol * max |y k| |yn k| := by
      have : 0 ≤ max |y k| |yn k| := le_max_of_le_left (abs_nonneg _)
      have := mul_nonneg hr this
      linarith
    apply sq_le_sq'
    · rw [neg_le, ← neg_div]
      calc -ee k / (atol + rtol * max |y k| |yn k|) ≤ E / (atol + rtol * max |y k| |yn k|) := by
            apply div_le_div_of_nonneg_right _ (by linarith)
            exact (neg_le_abs _).trans (h k)
        _ ≤ E / atol := div_le_div_of_nonneg_left hE ha hden
    · calc ee k / (atol + rtol * max |y k| |yn k|) ≤ E / (atol + rtol * max |y k| |yn k|) := by
            apply div_le_div_of_nonneg_right _ (by linarith)
            exact (le_abs_self _).trans (h k)
        _ ≤ E / atol := div_le_div_of_nonneg_left hE ha hden
  have hsum := Finset.sum_le_sum hterm
  simp only [Finset.sum_const, Finset.card_univ, Fintype.card_fin, nsmul_eq_mul] at hsum
  rcases Nat.eq_zero_or_pos n with h0 | h0
  · subst h0; simp; positivity
  · have hn : (0 : ℝ) < n := by exact_mod_cast h0
    calc (1 / (n : ℝ)) * ∑ i, (ee i / (atol + rtol * max |y i| |yn i|)) ^ 2
        ≤ (1 / (n : ℝ)) * (n * (E / atol) ^ 2) := by
          apply mul_le_mul_of_nonneg_left hsum (by positivity)
      _ = (E / atol) ^ 2 := by field_simp

theorem expt_bounds (mo : ℕ) : (0 : ℝ) < 1 / (1 + mo) ∧ (1 : ℝ) / (1 + mo) ≤ 1 := by
  constructor
  · positivity
  · rw [div_le_one (by positivity)]
    have : (0 : ℝ) ≤ mo := Nat.cast_nonneg _
    linarith

/-- lower bound of the controller in terms of a lower bound `s ≤ 4` of the scaling -/
theorem newDt_ge {o : ErkOpts ℝ} {mo : ℕ} {h err s : ℝ} (hh : 0 < h) (hs4 : s ≤ 4)
    (hs : s ≤ (1 / err) ^ ((1 : ℝ) / (1 + mo))) :
    9 / 10 * h * s ≤ newDt o mo h err ∨ (0 < o.maxDt ∧ newDt o mo h err = o.maxDt) := by
  have h1 : 9 / 10 * h * s ≤ 9 / 10 * h * min 4 ((1 / err) ^ ((1 : ℝ) / (1 + mo))) := by
    apply mul_le_mul_of_nonneg_left (le_min hs4 hs) (by positivity)
  rw [newDt_real]
  split_ifs with hm
  · rcases le_total o.maxDt (9 / 10 * h * min 4 ((1 / err) ^ ((1 : ℝ) / (1 + mo)))) with hle | hle
    · right; exact ⟨hm, min_eq_left hle⟩
    · left; rw [min_eq_right hle]; exact h1
  · left; exact h1

theorem ctrl_accept {o : ErkOpts ℝ} {mo : ℕ} {h err : ℝ} (hh : 0 < h) (he : 0 < err)
    (he1 : err < 1) :
    9 / 10 * h ≤ newDt o mo h err ∨ (0 < o.maxDt ∧ newDt o mo h err = o.maxDt) := by
  have := newDt_ge (o := o) (mo := mo) (err := err) (s := 1) hh (by norm_num) (by
    apply Real.one_le_rpow _ (expt_bounds mo).1.le
    rw [le_div_iff₀ he]; linarith)
  rwa [mul_one] at this

theorem ctrl_reject {o : ErkOpts ℝ} {mo : ℕ} {κ h err : ℝ} (hh : 0 < h) (hκ : 0 < κ)
    (he1 : 1 ≤ err) (heb : err ≤ max (κ * h) machinePrecision) :
    1 / κ ≤ h ∧
    (9 / 10 * (1 / κ) ≤ newDt o mo h err ∨ (0 < o.maxDt ∧ newDt o mo h err = o.maxDt)) := by
  have hkh : err ≤ κ * h := by
    rcases le_max_iff.mp heb with h' | h'
    · exact h'
    · exact absurd (he1.trans h') (not_le.mpr mp_lt_one)
  have h1 : 1 / κ ≤ h := by
    rw [div_le_iff₀ hκ, mul_comm]; linarith
  refine ⟨h1, ?_⟩
  have hs : 1 / (κ * h) ≤ (1 / err) ^ ((1 : ℝ) / (1 + mo)) := by
    have hx0 : 0 < 1 / err := by positivity
    have hx1 : 1 / err ≤ 1 := by rw [div_le_one (by linarith)]; exact he1
    calc 1 / (κ * h) ≤ 1 / err := one_div_le_one_div_of_le (by linarith) hkh
      _ = (1 / err) ^ (1 : ℝ) := (Real.rpow_one _).symm
      _ ≤ (1 / err) ^ ((1 : ℝ) / (1 + mo)) :=
          Real.rpow_le_rpow_of_exponent_ge hx0 hx1 (expt_bounds mo).2
  have hkh1 : 1 / (κ * h) ≤ 1 := by rw [div_le_one (by positivity)]; linarith
  have := newDt_ge (o := o) (mo := mo) (err := err) (s := 1 / (κ * h)) hh (by linarith) hs
  have e : 9 / 10 * h * (1 / (κ * h)) = 9 / 10 * (1 / κ) := by field_simp
  rwa [e] at this

/-- small steps are not made smaller -/
theorem ctrl_small {o : ErkOpts ℝ} {mo : ℕ} {κ h err : ℝ} (hh : 0 < h) (he : 0 < err)
    (heb : err ≤ max (κ * h) machinePrecision) (hk : κ * h ≤ (9 / 10) ^ (1 + mo))
    (hmo : (machinePrecision : ℝ) ≤ (9 / 10) ^ (1 + mo)) :
    h ≤ newDt o mo h err ∨ (0 < o.maxDt ∧ newDt o mo h err = o.maxDt) := by
  have he' : err ≤ (9 / 10 : ℝ) ^ (1 + mo) := heb.trans (max_le hk hmo)
  have hs : (10 / 9 : ℝ) ≤ (1 / err) ^ ((1 : ℝ) / (1 + mo)) := by
    have h1 : ((10 / 9 : ℝ)) ^ (1 + mo) ≤ 1 / err := by
      have : ((10 / 9 : ℝ)) ^ (1 + mo) = 1 / (9 / 10) ^ (1 + mo) := by
        rw [← one_div_pow]; norm_num
      rw [this]
      exact one_div_le_one_div_of_le he he'
    have h2 := Real.rpow_le_rpow (by positivity) h1 (expt_bounds mo).1.le
    rw [← Real.rpow_natCast, ← Real.rpow_mul (by norm_num)] at h2
    have : ((1 + mo : ℕ) : ℝ) * (1 / (1 + (mo : ℝ))) = 1 := by
      push_cast; field_simp
    rw [this, Real.rpow_one] at h2
    exact h2
  have := newDt_ge (o := o) (mo := mo) (err := err) (s := 10 / 9) hh (by norm_num) hs
  have e : 9 / 10 * h * (10 / 9) = h := by ring
  rwa [e] at this

/-- sum of the absolute differences of the two weight vectors -/
noncomputable def weightGap (sc : SolverCoeffs ℝ) : ℝ :=
  ∑ j ∈ Finset.range sc.ns, |sc.bw2 j - sc.bw j|

/-- error per unit step for a right-hand side bounded by `M` -/
noncomputable def kappa (o : ErkOpts ℝ) (sc : SolverCoeffs ℝ) (M : ℝ) : ℝ :=
  (weightGap sc + 1) * (M + 1) / o.absTol

theorem weightGap_nonneg (sc : SolverCoeffs ℝ) : 0 ≤ weightGap sc :=
  Finset.sum_nonneg fun _ _ => abs_nonneg _

theorem kappa_pos (ha : 0 < o.absTol) {M : ℝ} (hM : 0 ≤ M) : 0 < kappa o sc M := by
  have := weightGap_nonneg sc
  unfold kappa
  positivity

/-- the error of an attempt whose stages are bounded is at most proportional to its step -/
theorem attempt_err_le_of (had : o.adaptive = true)
    (ha : 0 < o.absTol) (hr : 0 ≤ o.relTol) {M : ℝ} (hM : 0 ≤ M) {s : ErkState ℝ n} (hT : TimeInv t0 t1 s)
    (hlt : s.t < t1) (hK : ∀ j k, j < sc.ns → |(attemptAt f t1 o sc mo s).Ks j k| ≤ M) :
    let a := attemptAt f t1 o sc mo s
    a.err ≤ max (kappa o sc M * a.dt) machinePrecision := by
  intro a
  obtain ⟨e1, -, -, e4, e5⟩ := attempt_adaptive (f := f) (t1 := t1) (sc := sc) (mo := mo) had s
  have hd := attempt_dt (f := f) (t1 := t1) (o := o) (sc := sc) (mo := mo) s
  obtain ⟨c1, c2, -⟩ := clip_facts hT hlt
  rw [← hd] at c1 c2
  change a.err = errNorm n a.errTot at e1
  change a.errTot = errTot o s.y a.yn a.errEst at e4
  change a.errEst = _ at e5
  change 0 < a.dt at c1
  change s.t + a.dt ≤ t1 at c2
  rw [e1, e4, errNorm_wrms]
  apply max_le_max _ (le_refl _)
  have hG := weightGap_nonneg sc
  have hE : ∀ k, |a.errEst k| ≤ a.dt * (weightGap sc * M) := by
    intro k
    rw [e5]
    change |a.dt * (combine sc a.Ks sc.bw2 k - combine sc a.Ks sc.bw k)| ≤ _
    rw [abs_mul, abs_of_pos c1]
    apply mul_le_mul_of_nonneg_left _ c1.le
    rw [combine_real, combine_real, ← Finset.sum_sub_distrib]
    refine (Finset.abs_sum_le_sum_abs _ _).trans ?_
    rw [weightGap, Finset.sum_mul]
    apply Finset.sum_le_sum
    intro j hj
    rw [← mul_sub, abs_mul, mul_comm]
    exact mul_le_mul_of_nonneg_left (hK j k (Finset.mem_range.mp hj)) (abs_nonneg _)
  refine (wrms_le ha hr s.y a.yn a.errEst (by positivity) hE).trans ?_
  rw [kappa, div_mul_eq_mul_div]
  apply div_le_div_of_nonneg_right _ ha.le
  have : weightGap sc * M ≤ (weightGap sc + 1) * (M + 1) := by nlinarith
  calc a.dt * (weightGap sc * M) ≤ a.dt * ((weightGap sc + 1) * (M + 1)) :=
        mul_le_mul_of_nonneg_left this c1.le
    _ = (weightGap sc + 1) * (M + 1) * a.dt := by ring

/-- the stage times of an attempt lie in the interval -/
theorem attempt_times (hcn : ∀ i, i < sc.ns → 0 ≤ sc.cn i ∧ sc.cn i ≤ 1) {s : ErkState ℝ n}
    (hT : TimeInv t0 t1 s) (hlt : s.t < t1) (j : ℕ) (hj : j < sc.ns) :
    let a := attemptAt f t1 o sc mo s
    t0 ≤ s.t + sc.cn j * a.dt ∧ s.t + sc.cn j * a.dt ≤ t1 := by
  intro a
  have hd := attempt_dt (f := f) (t1 := t1) (o := o) (sc := sc) (mo := mo) s
  obtain ⟨c1, c2, -⟩ := clip_facts hT hlt
  rw [← hd] at c1 c2
  change 0 < a.dt at c1
  change s.t + a.dt ≤ t1 at c2
  obtain ⟨n0, n1⟩ := hcn j hj
  constructor
  · have := mul_nonneg n0 c1.le
    linarith [hT.lo]
  · have : sc.cn j * a.dt ≤ 1 * a.dt := mul_le_mul_of_nonneg_right n1 c1.le
    linarith

theorem stages_le_of_bounded (hfs : sc.fsal = true → FsalOK sc)
    (hcn : ∀ i, i < sc.ns → 0 ≤ sc.cn i ∧ sc.cn i ≤ 1) {M : ℝ}
    (hf : ∀ t y k, t0 ≤ t → t ≤ t1 → |f t y k| ≤ M) {s : ErkState ℝ n} (hT : TimeInv t0 t1 s)
    (hF : FsalInv f sc s) (hlt : s.t < t1) :
    ∀ j k, j < sc.ns → |(attemptAt f t1 o sc mo s).Ks j k| ≤ M := by
  intro j k hj
  have := attempt_stages (t1 := t1) (o := o) (mo := mo) hfs hF j hj
  rw [this]
  obtain ⟨h1, h2⟩ := attempt_times (f := f) (o := o) (mo := mo) hcn hT hlt j hj
  exact hf _ _ _ h1 h2

/-- the error of an attempt is at most proportional to its step -/
theorem attempt_err_le (hfs : sc.fsal = true → FsalOK sc)
    (hcn : ∀ i, i < sc.ns → 0 ≤ sc.cn i ∧ sc.cn i ≤ 1) (had : o.adaptive = true)
    (ha : 0 < o.absTol) (hr : 0 ≤ o.relTol) {M : ℝ} (hM : 0 ≤ M)
    (hf : ∀ t y k, t0 ≤ t → t ≤ t1 → |f t y k| ≤ M) {s : ErkState ℝ n} (hT : TimeInv t0 t1 s)
    (hF : FsalInv f sc s) (hlt : s.t < t1) :
    let a := attemptAt f t1 o sc mo s
    a.err ≤ max (kappa o sc M * a.dt) machinePrecision :=
  attempt_err_le_of had ha hr hM hT hlt (stages_le_of_bounded hfs hcn hf hT hF hlt)

/-- invariant of an adaptive run with bounded stages: the step size stays in `[L, D]` -/
structure AdInv (f : ℝ → Vec ℝ n → Vec ℝ n) (sc : SolverCoeffs ℝ) (t0 t1 L D : ℝ)
    (s : ErkState ℝ n) : Prop where
  time : TimeInv t0 t1 s
  fsal : FsalInv f sc s
  lo : s.t = t1 ∨ L ≤ s.dt
  hi : s.dt ≤ D

/-- termination measure -/
noncomputable def adMeasure (t1 L D : ℝ) (s : ErkState ℝ n) : ℕ :=
  ⌈(t1 - s.t) / L⌉₊ * (⌈D / (L / 10)⌉₊ + 2) + ⌈s.dt / (L / 10)⌉₊

theorem ceil_sub_lt {x y : ℝ} (h : x ≤ y - 1) (hy : 0 < y) : ⌈x⌉₊ < ⌈y⌉₊ := by
  have h1 : ⌈x⌉₊ ≤ ⌈y - 1⌉₊ := Nat.ceil_mono h
  rw [Nat.ceil_sub_one] at h1
  have h2 : 0 < ⌈y⌉₊ := Nat.ceil_pos.mpr hy
  omega

theorem ad_step (hex : Explicit sc) (hfs : sc.fsal = true → FsalOK sc) (had : o.adaptive = true)
    (ha : 0 < o.absTol) (hr : 0 ≤ o.relTol) {M : ℝ} (hM : 0 ≤ M)
    (hmo : (machinePrecision : ℝ) ≤ (9 / 10) ^ (1 + mo)) {L D : ℝ} (hL : 0 < L)
    (hL1 : L ≤ 9 / 10 * ((9 / 10) ^ (1 + mo) / kappa o sc M)) (hL2 : 0 < o.maxDt → L ≤ o.maxDt)
    (hD : 18 / 5 * (t1 - t0) ≤ D)
    {s s' : ErkState ℝ n} (hI : AdInv f sc t0 t1 L D s)
    (hK : s.t < t1 → ∀ j k, j < sc.ns → |(attemptAt f t1 o sc mo s).Ks j k| ≤ M)
    (hb : erkBody nd f t1 o oo sc mo s = .next s') :
    AdInv f sc t0 t1 L D s' ∧ adMeasure t1 L D s' < adMeasure t1 L D s := by
  obtain ⟨hT, hF, hlo, hhi⟩ := hI
  have hT' := timeInv_next hT hb
  have hF' := fsalInv_next hfs hex hF hb
  have hκ := kappa_pos (sc := sc) ha hM
  set κ := kappa o sc M with hκdef
  have hc := bodyCase nd f t1 o oo sc mo s
  rw [hb] at hc
  obtain ⟨e1, e2, e3, -⟩ := attempt_adaptive (f := f) (t1 := t1) (sc := sc) (mo := mo) had s
  have hd := attempt_dt (f := f) (t1 := t1) (o := o) (sc := sc) (mo := mo) s
  have hp1 : ((9 / 10 : ℝ)) ^ (1 + mo) ≤ 1 := pow_le_one₀ (by norm_num) (by norm_num)
  have hp0 : (0 : ℝ) < (9 / 10) ^ (1 + mo) := by positivity
  have hη : (9 / 10 : ℝ) ^ (1 + mo) / κ ≤ 1 / κ := div_le_div_of_nonneg_right hp1 hκ.le
  have hη0 : 0 < (9 / 10 : ℝ) ^ (1 + mo) / κ := by positivity
  have common : s.t < t1 →
      let a := attemptAt f t1 o sc mo s
      0 < a.dt ∧ a.dt ≤ t1 - s.t ∧ a.dt ≤ s.dt ∧ (a.dt = t1 - s.t ∨ L ≤ a.dt) ∧
      0 < a.err ∧ a.err ≤ max (κ * a.dt) machinePrecision ∧ a.newDt ≤ D := by
    intro hlt a
    obtain ⟨c1, c2, c3⟩ := clip_facts hT hlt
    rw [← hd] at c1 c2 c3
    change 0 < a.dt at c1
    change s.t + a.dt ≤ t1 at c2
    change a.dt ≤ s.dt at c3
    refine ⟨c1, by linarith, c3, ?_, ?_, ?_, ?_⟩
    · change a.dt = _ at hd
      rw [hd, clipDt_real]
      rcases le_total s.dt (t1 - s.t) with h' | h'
      · right; rw [min_eq_left h']
        rcases hlo with h'' | h''
        · linarith
        · exact h''
      · left; exact min_eq_right h'
    · change a.err = _ at e1; rw [e1]; exact errNorm_pos _ _
    · exact attempt_err_le_of had ha hr hM hT hlt (hK hlt)
    · change a.newDt = _ at e2
      rw [e2]
      refine (newDt_le o mo c1).trans (le_trans ?_ hD)
      have := hT.lo
      linarith
  cases hc with
  | accepted h hm hb2 a hA hE hr' =>
    have hlt : s.t < t1 := by simpa using h
    obtain ⟨p1, p2, p3, p4, p5, p6, p7⟩ := common hlt
    rw [← hA] at e1 e2 e3 hd p1 p2 p3 p4 p5 p6 p7
    have herr : a.err < 1 := by
      have := hr'.resolve_left (by simp [had])
      rw [e3] at this; simpa using this
    have hnext : s.t + a.dt = t1 ∨ L ≤ a.newDt := by
      rcases p4 with p4 | p4
      · left; rw [p4]; ring
      · right
        rw [e2]
        by_cases hsm : κ * a.dt ≤ (9 / 10) ^ (1 + mo)
        · rcases ctrl_small (o := o) p1 p5 p6 hsm hmo with h' | ⟨h', h''⟩
          · exact p4.trans h'
          · rw [h'']; exact hL2 h'
        · rcases ctrl_accept (o := o) (mo := mo) p1 p5 herr with h' | ⟨h', h''⟩
          · refine le_trans (hL1.trans ?_) h'
            apply mul_le_mul_of_nonneg_left _ (by norm_num)
            rw [div_le_iff₀ hκ, mul_comm]
            exact (not_le.mp hsm).le
          · rw [h'']; exact hL2 h'
    refine ⟨⟨hT', hF', hnext, p7⟩, ?_⟩
    have hstep : ⌈(t1 - (s.t + a.dt)) / L⌉₊ < ⌈(t1 - s.t) / L⌉₊ := by
      rcases p4 with p4 | p4
      · rw [p4, show t1 - (s.t + (t1 - s.t)) = 0 by ring, zero_div, Nat.ceil_zero]
        exact Nat.ceil_pos.mpr (div_pos (by linarith) hL)
      · apply ceil_sub_lt _ (div_pos (by linarith) hL)
        rw [le_sub_iff_add_le, ← sub_nonneg]
        have : (t1 - s.t) / L - ((t1 - (s.t + a.dt)) / L + 1) = (a.dt - L) / L := by
          field_simp; ring
        rw [this]
        exact div_nonneg (by linarith) hL.le
    have hnd : ⌈a.newDt / (L / 10)⌉₊ ≤ ⌈D / (L / 10)⌉₊ :=
      Nat.ceil_mono (div_le_div_of_nonneg_right p7 (by positivity))
    change ⌈(t1 - (s.t + a.dt)) / L⌉₊ * (⌈D / (L / 10)⌉₊ + 2) + ⌈a.newDt / (L / 10)⌉₊ <
      ⌈(t1 - s.t) / L⌉₊ * (⌈D / (L / 10)⌉₊ + 2) + ⌈s.dt / (L / 10)⌉₊
    obtain ⟨d, hd'⟩ := Nat.exists_eq_add_of_lt hstep
    rw [hd']
    nlinarith [Nat.zero_le d, Nat.zero_le ⌈s.dt / (L / 10)⌉₊]
  | rejected h hm hb2 a hA hE had' hr' =>
    have hlt : s.t < t1 := by simpa using h
    obtain ⟨p1, p2, p3, p4, p5, p6, p7⟩ := common hlt
    rw [← hA] at e1 e2 e3 hd p1 p2 p3 p4 p5 p6 p7
    have herr : 1 ≤ a.err := by rw [e3] at hr'; simpa using hr'
    obtain ⟨q1, q2⟩ := ctrl_reject (o := o) (mo := mo) p1 hκ herr p6
    have hnext : L ≤ a.newDt := by
      rw [e2]
      rcases q2 with h' | ⟨h', h''⟩
      · refine le_trans (hL1.trans ?_) h'
        apply mul_le_mul_of_nonneg_left hη (by norm_num)
      · rw [h'']; exact hL2 h'
    refine ⟨⟨hT', hF', Or.inr hnext, p7⟩, ?_⟩
    have hdec : a.newDt ≤ 9 / 10 * a.dt := by rw [e2]; exact newDt_le_of_reject o mo p1 herr
    have hsdt : L ≤ s.dt := by
      rcases hlo with h' | h'
      · linarith
      · exact h'
    have : ⌈a.newDt / (L / 10)⌉₊ < ⌈s.dt / (L / 10)⌉₊ := by
      apply ceil_sub_lt _ (div_pos hT.dt (by positivity))
      rw [le_sub_iff_add_le, ← sub_nonneg]
      have : s.dt / (L / 10) - (a.newDt / (L / 10) + 1) = (s.dt - a.newDt - L / 10) / (L / 10) := by
        field_simp
        ring
      rw [this]
      apply div_nonneg _ (by positivity)
      linarith
    change ⌈(t1 - s.t) / L⌉₊ * (⌈D / (L / 10)⌉₊ + 2) + ⌈a.newDt / (L / 10)⌉₊ <
      ⌈(t1 - s.t) / L⌉₊ * (⌈D / (L / 10)⌉₊ + 2) + ⌈s.dt / (L / 10)⌉₊
    omega

end Verif
