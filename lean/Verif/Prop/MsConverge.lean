import Verif.MsConverge

/-!
# C78, C79: convergence of the multistep integrators
-/

set_option linter.unusedSectionVars false

namespace Verif
open Set

variable {n : ℕ} {nd : Bool} {la : LinAlg ℝ} {fn : OdeFun ℝ n} {t0 t1 T : ℝ} {y0 : Vec ℝ n} {order : ℤ} {dt : ℝ}
  {st0 : NewtonStatus ℝ} {fuelB fuel : ℕ} {out : MsOutput ℝ n} {u : ℝ → Fin n → ℝ}

/-! ### C78: Adams-Bashforth -/

/-- the values of a run of `adams_bashforth` as a sequence -/
theorem ab_values (h5 : order ≤ 5) (h : adamsBashforth nd la fn t0 t1 y0 order dt st0 fuelB fuel = some (.ret out)) :
    ∃ y : ℕ → Vec ℝ n, (∀ (i : ℕ) y', out.yVals[i]? = some y' → y' = y i) ∧ (∀ i < order.toNat, y i = y0) ∧
      ∀ i, order.toNat ≤ i → i < out.yVals.length → y i = y (i - 1) + min dt (t1 - t0) •
        ∑ j ∈ Finset.range order.toNat, (abC order j : ℝ) • fn.fn (t0 + (i - 1 : ℕ) * min dt (t1 - t0)) (y (i - 1 - j)) := by
  obtain ⟨ho, acc, t, y, hR, hboot, ht, hy, hs, hl, hend⟩ := ab_run h
  rw [clipDt_real] at *
  have hval : ∀ (i : ℕ) (y' : Vec ℝ n), (acc.map Prod.snd)[i]? = some y' → y' = ((acc.map Prod.snd)[i]?).getD 0 := by
    intro i y' h; rw [h]; rfl
  refine ⟨fun i => ((acc.map Prod.snd)[i]?).getD 0, ?_, ?_, ?_⟩
  · intro i y' h; rw [hy] at h; exact hval i y' h
  · intro i hi
    have h1 := congrArg (fun l => l[i]?) hboot
    simp only [List.getElem?_take, if_pos hi, List.getElem?_map, List.getElem?_range hi, Option.map_some] at h1
    simp only [List.getElem?_map, h1, Option.map_some, Option.getD_some]
  · intro i hi hlt
    rw [hy, List.length_map] at hlt
    have ha : acc[i]? = some acc[i] := List.getElem?_eq_getElem hlt
    obtain ⟨tl, yl, v, e1, e2, e3⟩ := hR.step i _ hi ha h5
    have hrec := recent_index hlt.le e2
    rw [List.getLast?_eq_getElem?] at e1
    have hlen : (acc.take i).length - 1 = i - 1 := by simp; omega
    rw [hlen, List.getElem?_take, if_pos (by omega)] at e1
    have htl : tl = t0 + (i - 1 : ℕ) * min dt (t1 - t0) := by
      have h1 : (acc.map Prod.fst)[i - 1]? = some tl := by rw [List.getElem?_map, e1]; rfl
      rw [hR.times, List.getElem?_map, List.getElem?_range (by omega), Option.map_some, gridPt_real, Option.some.injEq] at h1
      exact h1.symm
    have hyi : ((acc.map Prod.snd)[i]?).getD 0 = acc[i].2 := by rw [List.getElem?_map, ha]; rfl
    have hyl : ((acc.map Prod.snd)[i - 1]?).getD 0 = yl := by rw [List.getElem?_map, e1]; rfl
    simp only []
    rw [hyi, e3, hyl, htl]
    funext p
    simp only [abComb_real ho h5, Pi.add_apply, Pi.smul_apply, Finset.sum_apply, smul_eq_mul]
    congr 2
    refine Finset.sum_congr rfl fun j hj => ?_
    rw [← hval _ _ (hrec j (Finset.mem_range.1 hj)).2]

/-- **C78 (claim).**  `adams_bashforth` of order `k` converges with order `k`: for every `k` times continuously
differentiable right-hand side with solution `u` on `[t0,t1]` there are `C` and `η > 0` such that in every returning run
with `dt ≤ η` every sample at a time up to `t1` has an error of at most `C dt^k`. -/
def C78_claim (order : ℤ) : Prop :=
  ∀ (n : ℕ) (fn : OdeFun ℝ n) (t0 t1 : ℝ) (u : ℝ → Fin n → ℝ), t0 < t1 →
    ContDiff ℝ order.toNat (fun q : ℝ × (Fin n → ℝ) => fn.fn q.1 q.2) →
    (∀ t ∈ Icc t0 t1, HasDerivWithinAt u (fn.fn t (u t)) (Icc t0 t1) t) →
    ∃ C η : ℝ, 0 < η ∧ ∀ nd la dt st0 fuelB fuel out, 0 < dt → dt ≤ η →
      adamsBashforth nd la fn t0 t1 (u t0) order dt st0 fuelB fuel = some (.ret out) →
      ∀ (i : ℕ) t y, out.tVals[i]? = some t → out.yVals[i]? = some y → t ≤ t1 → ‖y - u t‖ ≤ C * dt ^ order.toNat

/-- **C78 is false** for the orders 2 to 5: for `y' = v` the sample with index 1 lags by `dt v`. -/
theorem C78_refuted (h2 : 2 ≤ order) (h5 : order ≤ 5) : ¬ C78_claim order := by
  intro hcl
  obtain ⟨v, hv0, hv⟩ := slope_exists
  obtain ⟨C, η, hη, hall⟩ := hcl 1 (constFun fun _ => v) 0 1 (fun t _ => t * v) one_pos contDiff_const (by
    intro t _
    rw [hasDerivWithinAt_pi]
    intro i
    simpa [constFun] using ((hasDerivAt_id t).mul_const v).hasDerivWithinAt)
  set h := min (min η (1 / 10 ^ 6)) (v / (|C| + 1)) with hh
  have hpos : 0 < h := by rw [hh]; positivity
  have h6 : h ≤ 1 / 10 ^ 6 := (min_le_left _ _).trans (min_le_right _ _)
  have hhη : h ≤ η := (min_le_left _ _).trans (min_le_left _ _)
  have h1 : h ≤ 1 := h6.trans (by norm_num)
  have hmin : min h (1 - 0) = h := by rw [sub_zero]; exact min_eq_left h1
  obtain ⟨l, hl⟩ := bootstrap_const (n := 1) (by norm_num) (fun _ => v) (fun _ => hv) (dt := h) hpos h6 order 0
    (fun _ => 0 * v)
  obtain ⟨fuel, out, ho⟩ := C53_ab_returns (st0 := nStat) (by omega) h5 hpos (t0 := 0) (t1 := 1) one_pos (by rw [hmin]; exact hl)
  obtain ⟨N, -, hN1, hN2, hN3, hN4, -⟩ := C53_adams_bashforth ho
  rw [hmin] at hN4
  obtain ⟨y, hy1, hy2, -⟩ := ab_values h5 ho
  have hlt : 1 < out.yVals.length := by omega
  have hyv : out.yVals[1]? = some (fun _ => 0 * v) := by
    rw [List.getElem?_eq_getElem hlt, hy1 1 _ (List.getElem?_eq_getElem hlt), hy2 1 (by omega)]
  have hbound := hall false laReal h nStat 2 fuel out hpos hhη ho 1 _ _ (hN4 1 (by omega)) hyv (by simpa using h1)
  have hnorm := (norm_le_pi_norm _ (0 : Fin 1)).trans hbound
  simp only [Pi.sub_apply, Nat.cast_one, one_mul, zero_mul, zero_add, zero_sub, norm_neg, Real.norm_eq_abs,
    abs_of_pos (mul_pos hpos hv0)] at hnorm
  obtain ⟨m, hm⟩ : ∃ m, order.toNat = m + 2 := ⟨order.toNat - 2, by omega⟩
  rw [hm, pow_succ, ← mul_assoc] at hnorm
  have e1 : v ≤ C * h ^ (m + 1) := le_of_mul_le_mul_right (by linarith) hpos
  have e2 : h ^ (m + 1) ≤ h := by
    calc h ^ (m + 1) ≤ h ^ 1 := pow_le_pow_of_le_one hpos.le h1 (by omega)
      _ = h := pow_one _
  have e3 : h ≤ v / (|C| + 1) := min_le_right _ _
  rw [le_div_iff₀ (by positivity)] at e3
  have e4 : C * h ^ (m + 1) ≤ |C| * h := mul_le_mul (le_abs_self C) e2 (by positivity) (abs_nonneg C)
  nlinarith

/-- **C78 (first order; partial: the claim asks for order `k`).**  For orders 1 to 5 and every continuously
differentiable right-hand side with a solution `u` on `[t0,T]`: there are `C` and `η > 0` such that in every returning
run of `adams_bashforth` with `dt ≤ η`, to whatever end time `t1`, every sample at a time up to `T` has an error of at
most `C h`, `h = min dt (t1 - t0)` being the step. -/
theorem C78_first_order_partial (h0 : 0 < order) (h5 : order ≤ 5) (hT : t0 ≤ T)
    (hf : ContDiff ℝ 1 fun q : ℝ × (Fin n → ℝ) => fn.fn q.1 q.2)
    (hu : ∀ t ∈ Icc t0 T, HasDerivWithinAt u (fn.fn t (u t)) (Icc t0 T) t) :
    ∃ C η : ℝ, 0 ≤ C ∧ 0 < η ∧ ∀ nd la t1 dt st0 fuelB fuel out, 0 < dt → dt ≤ η → t0 < t1 →
      adamsBashforth nd la fn t0 t1 (u t0) order dt st0 fuelB fuel = some (.ret out) →
      ∀ (i : ℕ) t y, out.tVals[i]? = some t → out.yVals[i]? = some y → t ≤ T → ‖y - u t‖ ≤ C * min dt (t1 - t0) := by
  obtain ⟨C, η, hC, hη, hall⟩ := ab_first_order h0 h5 hT hf hu
  refine ⟨C, η, hC, hη, ?_⟩
  intro nd la t1 dt st0 fuelB fuel out hdt hle ht1 h i t y' hti hyi htT
  obtain ⟨N, -, hN1, hN2, -, hN4, -⟩ := C53_adams_bashforth h
  obtain ⟨y, hy1, hy2, hy3⟩ := ab_values h5 h
  have hiN : i < N := by rw [← hN1]; exact (List.getElem?_eq_some_iff.1 hti).1
  have ht : t = t0 + i * min dt (t1 - t0) := by
    have := hN4 i hiN
    rw [hti] at this
    simpa using this
  have := hall (min dt (t1 - t0)) i y (lt_min hdt (by linarith)) ((min_le_left _ _).trans hle) (by rw [← ht]; exact htT) hy2
    (fun l hl hli => hy3 l hl (by omega)) i le_rfl
  rw [hy1 i y' hyi, ht]
  exact this

/-- **C78 holds for order 1.** -/
theorem C78_order_one : C78_claim 1 := by
  intro n fn t0 t1 u ht hf hu
  obtain ⟨C, η, hC, hη, hall⟩ := C78_first_order_partial (order := 1) (by norm_num) (by norm_num) ht.le (by simpa using hf) hu
  refine ⟨C, η, hη, ?_⟩
  intro nd la dt st0 fuelB fuel out hdt hle h i t y hti hyi htT
  refine (hall nd la t1 dt st0 fuelB fuel out hdt hle ht h i t y hti hyi htT).trans ?_
  rw [show ((1 : ℤ).toNat) = 1 from rfl, pow_one]
  exact mul_le_mul_of_nonneg_left (min_le_left _ _) hC

/-- the hypotheses of `C78_first_order_partial` are met by the nonlinear problem `y' = y²`, `u = 1/(2-t)` on `[0,1]` -/
example : ContDiff ℝ 1 (fun q : ℝ × (Fin 1 → ℝ) => fun _ : Fin 1 => q.2 0 ^ 2) ∧
    ∀ t ∈ Icc (0 : ℝ) 1, HasDerivWithinAt (fun t (_ : Fin 1) => 1 / (2 - t)) (fun _ => (1 / (2 - t)) ^ 2) (Icc 0 1) t := by
  constructor
  · exact contDiff_pi.2 fun _ => (((contDiff_apply ℝ ℝ (0 : Fin 1)).comp contDiff_snd).pow 2)
  · intro t ht
    rw [hasDerivWithinAt_pi]
    intro i
    have h1 : (2 - t) ≠ 0 := by have := ht.2; intro h; linarith
    have := ((hasDerivAt_id t).const_sub 2).fun_inv h1
    have h2 : HasDerivAt (fun t : ℝ => 1 / (2 - t)) ((1 / (2 - t)) ^ 2) t := by
      simpa [one_div] using this
    exact h2.hasDerivWithinAt

/-! ### C79: BDF -/

/-- the values of a run of `bdf` as a sequence -/
theorem bdf_values (h0 : 0 < order) (h6 : order ≤ 6)
    (h : bdf nd la fn t0 t1 y0 order dt st0 fuelB fuel = some (.ret out)) :
    ∃ y : ℕ → Vec ℝ n, (∀ (i : ℕ) y', out.yVals[i]? = some y' → y' = y i) ∧ (∀ i < order.toNat + 1, y i = y0) ∧
      (∀ i, order.toNat + 1 ≤ i → i < out.yVals.length → ∃ st st',
        newtonIterate la (bdfEq fn order (min dt (t1 - t0)) (t0 + i * min dt (t1 - t0)) fun j => y (i - 1 - j)) (y (i - 1))
          bdfNewton st true = some (.ret (y i, st'))) ∧
      (out.status ≠ 0 → ∃ y' st st',
        newtonIterate la (bdfEq fn order (min dt (t1 - t0)) (t0 + out.yVals.length * min dt (t1 - t0))
          fun j => y (out.yVals.length - 1 - j)) (y (out.yVals.length - 1)) bdfNewton st true = some (.ret (y', st')) ∧
        st'.conv ≠ 0) := by
  have hEq : ∀ (hh t : ℝ) (v w : ℕ → Vec ℝ n), (∀ j : ℕ, (j : ℤ) < order → v j = w j) →
      bdfEq fn order hh t v = bdfEq fn order hh t w := by
    intro hh t v w hvw
    have : ∀ p, (List.range order.toNat).foldl (fun a j => a + bdfC order j * v j p) (lit 0 : ℝ) =
        (List.range order.toNat).foldl (fun a j => a + bdfC order j * w j p) (lit 0) := by
      intro p
      rw [foldl_linComb _ (fun j => v j p), foldl_linComb _ (fun j => w j p)]
      congr 1
      refine Finset.sum_congr rfl fun j hj => ?_
      rw [hvw j (by have := Finset.mem_range.1 hj; omega)]
    unfold bdfEq
    simp only [this]
  have hval : ∀ (i : ℕ) (y' : Vec ℝ n), out.yVals[i]? = some y' → y' = (out.yVals[i]?).getD 0 := by
    intro i y' h; rw [h]; rfl
  refine ⟨fun i => (out.yVals[i]?).getD 0, hval, ?_, ?_, ?_⟩
  · obtain ⟨acc, t, y, hR, hboot, ht, hy, -⟩ := bdf_run h0 h6 h
    intro i hi
    have h1 := congrArg (fun l => l[i]?) hboot
    have hi' : i < (order + 1).toNat := by omega
    simp only [List.getElem?_take, if_pos hi', List.getElem?_map, List.getElem?_range hi', Option.map_some] at h1
    simp only [hy, List.getElem?_map, h1, Option.map_some, Option.getD_some]
  · intro i hi hlt
    obtain ⟨v, st, st', e1, e2, -⟩ := C54_samples h0 h6 h (i := i) (by omega) (List.getElem?_eq_getElem hlt)
    rw [clipDt_real, gridPt_real] at e2
    refine ⟨st, st', ?_⟩
    have hv : ∀ j : ℕ, (j : ℤ) < order → v j = (out.yVals[i - 1 - j]?).getD 0 := fun j hj => hval _ _ (e1 j hj)
    rw [hEq _ _ v (fun j => (out.yVals[i - 1 - j]?).getD 0) hv, hv 0 (by simpa using h0)] at e2
    simp only [Nat.sub_zero] at e2
    have hyi : (out.yVals[i]?).getD 0 = out.yVals[i] := (hval _ _ (List.getElem?_eq_getElem hlt)).symm
    beta_reduce
    rw [hyi]
    exact e2
  · intro hst
    rcases C54_failure h0 h6 h with e | ⟨-, -, v, st, y', st', e1, e2, e3⟩
    · exact absurd e hst
    · rw [clipDt_real, gridPt_real] at e2
      have hv : ∀ j : ℕ, (j : ℤ) < order → v j = (out.yVals[out.yVals.length - 1 - j]?).getD 0 :=
        fun j hj => hval _ _ (e1 j hj)
      rw [hEq _ _ v (fun j => (out.yVals[out.yVals.length - 1 - j]?).getD 0) hv, hv 0 (by simpa using h0)] at e2
      exact ⟨y', st, st', e2, e3⟩

/-- **C79 (claim).**  `bdf` of order `k` converges with order `k`: for every `k` times continuously differentiable
right-hand side with a continuous Jacobi matrix and a solution `u` on `[t0,t1]` there are `C` and `η > 0` such that in
every returning run with exact linear algebra and `dt ≤ η` every sample at a time up to `t1` has an error of at most
`C dt^k`. -/
def C79_claim (order : ℤ) : Prop :=
  ∀ (n : ℕ) (la : LinAlg ℝ) (fn : OdeFun ℝ n) (t0 t1 : ℝ) (u : ℝ → Fin n → ℝ), la.Exact → t0 < t1 →
    ContDiff ℝ order.toNat (fun q : ℝ × (Fin n → ℝ) => fn.fn q.1 q.2) →
    Continuous (fun q : ℝ × (Fin n → ℝ) => fn.jac q.1 q.2) →
    (∀ t ∈ Icc t0 t1, HasDerivWithinAt u (fn.fn t (u t)) (Icc t0 t1) t) →
    ∃ C η : ℝ, 0 < η ∧ ∀ nd dt st0 fuelB fuel out, 0 < dt → dt ≤ η →
      bdf nd la fn t0 t1 (u t0) order dt st0 fuelB fuel = some (.ret out) →
      ∀ (i : ℕ) t y, out.tVals[i]? = some t → out.yVals[i]? = some y → t ≤ t1 → ‖y - u t‖ ≤ C * dt ^ order.toNat

/-- **C79 is false** for the orders 2 to 6: for `y' = v` the sample with index 1 lags by `dt v`. -/
theorem C79_refuted (h2 : 2 ≤ order) (h6 : order ≤ 6) : ¬ C79_claim order := by
  intro hcl
  obtain ⟨v, hv0, hv⟩ := slope_exists
  obtain ⟨C, η, hη, hall⟩ := hcl 1 laReal (constFun fun _ => v) 0 1 (fun t _ => t * v) laReal_exact one_pos contDiff_const
    continuous_const (by
    intro t _
    rw [hasDerivWithinAt_pi]
    intro i
    simpa [constFun] using ((hasDerivAt_id t).mul_const v).hasDerivWithinAt)
  set h := min (min η (1 / 10 ^ 6)) (v / (|C| + 1)) with hh
  have hpos : 0 < h := by rw [hh]; positivity
  have hle6 : h ≤ 1 / 10 ^ 6 := (min_le_left _ _).trans (min_le_right _ _)
  have hhη : h ≤ η := (min_le_left _ _).trans (min_le_left _ _)
  have h1 : h ≤ 1 := hle6.trans (by norm_num)
  have hmin : min h (1 - 0) = h := by rw [sub_zero]; exact min_eq_left h1
  obtain ⟨l, hl⟩ := bootstrap_const (n := 1) (by norm_num) (fun _ => v) (fun _ => hv) (dt := h) hpos hle6 (order + 1) 0
    (fun _ => 0 * v)
  obtain ⟨fuel, out, ho⟩ := C53_bdf_returns (st0 := nStat) (by omega) h6 hpos (t0 := 0) (t1 := 1) one_pos (by rw [hmin]; exact hl)
  obtain ⟨N, hN1, hN2, hN3, hN4, -⟩ := C53_bdf (by omega) h6 ho
  rw [hmin] at hN4
  obtain ⟨y, hy1, hy2, -⟩ := bdf_values (by omega) h6 ho
  have hlt : 1 < out.yVals.length := by omega
  have hyv : out.yVals[1]? = some (fun _ => 0 * v) := by
    rw [List.getElem?_eq_getElem hlt, hy1 1 _ (List.getElem?_eq_getElem hlt), hy2 1 (by omega)]
  have hbound := hall false h nStat 2 fuel out hpos hhη ho 1 _ _ (hN4 1 (by omega)) hyv (by simpa using h1)
  have hnorm := (norm_le_pi_norm _ (0 : Fin 1)).trans hbound
  simp only [Pi.sub_apply, Nat.cast_one, one_mul, zero_mul, zero_add, zero_sub, norm_neg, Real.norm_eq_abs,
    abs_of_pos (mul_pos hpos hv0)] at hnorm
  obtain ⟨m, hm⟩ : ∃ m, order.toNat = m + 2 := ⟨order.toNat - 2, by omega⟩
  rw [hm, pow_succ, ← mul_assoc] at hnorm
  have e1 : v ≤ C * h ^ (m + 1) := le_of_mul_le_mul_right (by linarith) hpos
  have e2 : h ^ (m + 1) ≤ h := by
    calc h ^ (m + 1) ≤ h ^ 1 := pow_le_pow_of_le_one hpos.le h1 (by omega)
      _ = h := pow_one _
  have e3 : h ≤ v / (|C| + 1) := min_le_right _ _
  rw [le_div_iff₀ (by positivity)] at e3
  have e4 : C * h ^ (m + 1) ≤ |C| * h := mul_le_mul (le_abs_self C) e2 (by positivity) (abs_nonneg C)
  nlinarith

/-- **C79 (first order; partial: the claim asks for order `k`).**  For orders 1 to 6, every continuously differentiable
right-hand side with any continuous matrix function as its "Jacobian" and a solution `u` on `[t0,T]`: there are `C` and
`η > 0` such that in every returning run of `bdf` with exact linear algebra and `dt ≤ η`, to whatever end time `t1`, every
sample at a time up to `T` has an error of at most `C h`, `h = min dt (t1 - t0)` being the step, whether or not the run
ends with SUCCESS.  The tolerances of the Newton solver do not enter. -/
theorem C79_first_order_partial (h0 : 0 < order) (h6 : order ≤ 6) (hT : t0 ≤ T)
    (hf : ContDiff ℝ 1 fun q : ℝ × (Fin n → ℝ) => fn.fn q.1 q.2)
    (hj : Continuous fun q : ℝ × (Fin n → ℝ) => fn.jac q.1 q.2)
    (hu : ∀ t ∈ Icc t0 T, HasDerivWithinAt u (fn.fn t (u t)) (Icc t0 T) t) (hla : la.Exact) :
    ∃ C η : ℝ, 0 ≤ C ∧ 0 < η ∧ ∀ nd t1 dt st0 fuelB fuel out, 0 < dt → dt ≤ η → t0 < t1 →
      bdf nd la fn t0 t1 (u t0) order dt st0 fuelB fuel = some (.ret out) →
      ∀ (i : ℕ) t y, out.tVals[i]? = some t → out.yVals[i]? = some y → t ≤ T → ‖y - u t‖ ≤ C * min dt (t1 - t0) := by
  obtain ⟨C, η, hC, hη, hall⟩ := bdf_first_order h0 h6 hla hT hf hj hu
  refine ⟨C, η, hC, hη, ?_⟩
  intro nd t1 dt st0 fuelB fuel out hdt hle ht1 h i t y' hti hyi htT
  obtain ⟨N, hN1, hN2, -, hN4, -⟩ := C53_bdf h0 h6 h
  obtain ⟨y, hy1, hy2, hy3, -⟩ := bdf_values h0 h6 h
  have hiN : i < N := by rw [← hN1]; exact (List.getElem?_eq_some_iff.1 hti).1
  have ht : t = t0 + i * min dt (t1 - t0) := by
    have := hN4 i hiN
    rw [hti] at this
    simpa using this
  have := (hall (min dt (t1 - t0)) i y (lt_min hdt (by linarith)) ((min_le_left _ _).trans hle) (by rw [← ht]; exact htT) hy2
    (fun l hl hli => hy3 l hl (by omega))).1 i le_rfl
  rw [hy1 i y' hyi, ht]
  exact this

/-- **C79 (completion).**  If the solution exists a little beyond the end time, `t1 < T`, every returning run with small
enough steps ends with SUCCESS: the Newton iteration never fails. -/
theorem C79_completes (h0 : 0 < order) (h6 : order ≤ 6) (h01 : t0 < t1) (hT : t1 < T)
    (hf : ContDiff ℝ 1 fun q : ℝ × (Fin n → ℝ) => fn.fn q.1 q.2)
    (hj : Continuous fun q : ℝ × (Fin n → ℝ) => fn.jac q.1 q.2)
    (hu : ∀ t ∈ Icc t0 T, HasDerivWithinAt u (fn.fn t (u t)) (Icc t0 T) t) (hla : la.Exact) :
    ∃ η : ℝ, 0 < η ∧ ∀ nd dt st0 fuelB fuel out, 0 < dt → dt ≤ η →
      bdf nd la fn t0 t1 (u t0) order dt st0 fuelB fuel = some (.ret out) → out.status = 0 := by
  obtain ⟨C, η, hC, hη, hall⟩ := bdf_first_order h0 h6 hla (h01.trans hT).le hf hj hu
  refine ⟨min η (T - t1), lt_min hη (by linarith), ?_⟩
  intro nd dt st0 fuelB fuel out hdt hle h
  by_contra hst
  obtain ⟨N, hN1, hN2, hN3, hN4, hN5, -⟩ := C53_bdf h0 h6 h
  obtain ⟨y, hy1, hy2, hy3, hy4⟩ := bdf_values h0 h6 h
  obtain ⟨y', st, st', e1, e2⟩ := hy4 hst
  have hhpos : 0 < min dt (t1 - t0) := lt_min hdt (by linarith)
  have hlast : t0 + (N - 1 : ℕ) * min dt (t1 - t0) < t1 := not_le.1 fun hc => hst (hN5.2 hc)
  have hhT : min dt (t1 - t0) ≤ T - t1 := (min_le_left _ _).trans (hle.trans (min_le_right _ _))
  have hN : out.yVals.length = (N - 1) + 1 := by omega
  rw [hN] at e1
  refine e2 ((hall (min dt (t1 - t0)) (N - 1) y hhpos ((min_le_left _ _).trans (hle.trans (min_le_left _ _))) (by linarith)
    hy2 (fun l hl hli => hy3 l hl (by omega))).2 (by omega) ?_ y' st st' e1)
  push_cast
  linarith

/-- **C79 holds for order 1.** -/
theorem C79_order_one : C79_claim 1 := by
  intro n la fn t0 t1 u hla ht hf hj hu
  obtain ⟨C, η, hC, hη, hall⟩ := C79_first_order_partial (order := 1) (by norm_num) (by norm_num) ht.le
    (by simpa using hf) hj hu hla
  refine ⟨C, η, hη, ?_⟩
  intro nd dt st0 fuelB fuel out hdt hle h i t y hti hyi htt
  refine (hall nd t1 dt st0 fuelB fuel out hdt hle ht h i t y hti hyi htt).trans ?_
  rw [show (1 : ℤ).toNat = 1 from rfl, pow_one]
  exact mul_le_mul_of_nonneg_left (min_le_left _ _) hC

/-- the hypotheses of `C79_first_order_partial` and `C79_completes` are met by the nonlinear problem `y' = y²`,
`u = 1/(2-t)` on `[0,3/2]`, with its Jacobi matrix -/
example : (∃ C η : ℝ, 0 ≤ C ∧ 0 < η ∧ ∀ nd t1 dt st0 fuelB fuel out, 0 < dt → dt ≤ η → 0 < t1 →
      bdf nd laReal ⟨fun _ (y : Vec ℝ 1) _ => y 0 ^ 2, fun _ y _ _ => 2 * y 0⟩ 0 t1 (fun _ => 1 / (2 - 0)) 3 dt st0 fuelB
        fuel = some (.ret out) →
      ∀ (i : ℕ) t y, out.tVals[i]? = some t → out.yVals[i]? = some y → t ≤ 3 / 2 →
        ‖y - (fun _ => 1 / (2 - t))‖ ≤ C * min dt (t1 - 0)) ∧
    ∃ η : ℝ, 0 < η ∧ ∀ nd dt st0 fuelB fuel out, 0 < dt → dt ≤ η →
      bdf nd laReal ⟨fun _ (y : Vec ℝ 1) _ => y 0 ^ 2, fun _ y _ _ => 2 * y 0⟩ 0 1 (fun _ => 1 / (2 - 0)) 3 dt st0 fuelB
        fuel = some (.ret out) → out.status = 0 := by
  have hf : ContDiff ℝ 1 (fun q : ℝ × (Fin 1 → ℝ) => fun _ : Fin 1 => q.2 0 ^ 2) :=
    contDiff_pi.2 fun _ => (((contDiff_apply ℝ ℝ (0 : Fin 1)).comp contDiff_snd).pow 2)
  have hj : Continuous (fun q : ℝ × (Fin 1 → ℝ) => fun _ _ : Fin 1 => 2 * q.2 0) := by fun_prop
  have hu : ∀ t ∈ Icc (0 : ℝ) (3 / 2), HasDerivWithinAt (fun t (_ : Fin 1) => 1 / (2 - t)) (fun _ => (1 / (2 - t)) ^ 2)
      (Icc 0 (3 / 2)) t := by
    intro t ht
    rw [hasDerivWithinAt_pi]
    intro i
    have h1 : (2 - t) ≠ 0 := by have := ht.2; intro h; linarith
    have h2 : HasDerivAt (fun t : ℝ => 1 / (2 - t)) ((1 / (2 - t)) ^ 2) t := by
      simpa [one_div] using ((hasDerivAt_id t).const_sub 2).fun_inv h1
    exact h2.hasDerivWithinAt
  exact ⟨C79_first_order_partial (u := fun t _ => 1 / (2 - t)) (by norm_num) (by norm_num) (by norm_num) hf hj hu laReal_exact,
    C79_completes (u := fun t _ => 1 / (2 - t)) (T := 3 / 2) (by norm_num) (by norm_num) (by norm_num) (by norm_num) hf hj hu
      laReal_exact⟩

end Verif
