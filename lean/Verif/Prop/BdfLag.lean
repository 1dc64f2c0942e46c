import Verif.BdfLag
import Verif.Prop.MsOrder

/-!
# C113: the samples of `bdf` lag the times stored with them by `k + 1/2` steps
-/

set_option autoImplicit false

namespace Verif
open Set

variable {n : ℕ} {la : LinAlg ℝ} {fn : OdeFun ℝ n} {t0 T : ℝ} {order : ℤ} {u w : ℝ → Fin n → ℝ}

/-- **C113 (the lag).**  The bootstrap of `bdf` of order `k` stores the initial value with the first `k + 1` times.  For the orders 2 to 6,
every twice continuously differentiable right-hand side with any continuous matrix function as its "Jacobian", a solution `u` on `[t0,T]` and
the solution `w` of the variational equation `w' = D_y f(t,u) w`, `w(t0) = f(t0,u(t0))`, there are `C`, `η > 0` and `0 < μ < 1` such that in
every returning run with exact linear algebra and `dt ≤ η` the sample with index `i` at a time `t ≤ T` is `u(t) - (k + 1/2) h w(t)` up to
`C (h² + h μ^i + 10⁻¹⁰)`, `h` being the step: the run follows the solution which starts from the initial value `(k + 1/2) h` after `t0`.  The
last term is the tolerance of the Newton solver. -/
theorem C113_lag (h2 : 2 ≤ order) (h6 : order ≤ 6) (hT : t0 < T)
    (hf : ContDiff ℝ 2 fun q : ℝ × (Fin n → ℝ) => fn.fn q.1 q.2)
    (hj : Continuous fun q : ℝ × (Fin n → ℝ) => fn.jac q.1 q.2)
    (hu : ∀ t ∈ Icc t0 T, HasDerivWithinAt u (fn.fn t (u t)) (Icc t0 T) t)
    (hw : ∀ t ∈ Icc t0 T, HasDerivWithinAt w (fderiv ℝ (fn.fn t) (u t) (w t)) (Icc t0 T) t) (hw0 : w t0 = fn.fn t0 (u t0)) (hla : la.Exact) :
    ∃ C η μ : ℝ, 0 ≤ C ∧ 0 < η ∧ 0 < μ ∧ μ < 1 ∧ ∀ nd t1 dt st0 fuelB fuel out, 0 < dt → dt ≤ η → t0 < t1 →
      bdf nd la fn t0 t1 (u t0) order dt st0 fuelB fuel = some (.ret out) →
      ∀ (i : ℕ) t y, out.tVals[i]? = some t → out.yVals[i]? = some y → t ≤ T →
        ‖y - (u t - ((order + 1 / 2) * min dt (t1 - t0)) • w t)‖ ≤ C * (min dt (t1 - t0) ^ 2 + min dt (t1 - t0) * μ ^ i + 1 / 10 ^ 10) := by
  have h0 : 0 < order := by omega
  obtain ⟨C, η, μ, hC, hη, hμ0, hμ1, hall⟩ := bdf_lag h2 h6 hla hT hf hj hu hw hw0
  refine ⟨C, η, μ, hC, hη, hμ0, hμ1, ?_⟩
  intro nd t1 dt st0 fuelB fuel out hdt hle ht1 h i t y' hti hyi htT
  obtain ⟨N, hN1, hN2, -, hN4, -⟩ := C53_bdf h0 h6 h
  obtain ⟨y, hy1, hy2, hy3, -⟩ := bdf_values h0 h6 h
  have hiN : i < N := by rw [← hN1]; exact (List.getElem?_eq_some_iff.1 hti).1
  have ht : t = t0 + i * min dt (t1 - t0) := by
    have := hN4 i hiN
    rw [hti] at this
    simpa using this
  have := hall (min dt (t1 - t0)) i y (lt_min hdt (by linarith)) ((min_le_left _ _).trans hle) (by rw [← ht]; exact htT) hy2
    (fun l hl hli => hy3 l hl (by omega)) i le_rfl
  rw [hy1 i y' hyi, ht]
  exact this

/-- **C113 (autonomous problems).**  If the right-hand side does not depend on time the lag is a shift of time: the sample is
`u(t) - (k + 1/2) h u'(t)` up to the same terms. -/
theorem C113_autonomous (h2 : 2 ≤ order) (h6 : order ≤ 6) (hT : t0 < T)
    (hf : ContDiff ℝ 2 fun q : ℝ × (Fin n → ℝ) => fn.fn q.1 q.2) (haut : ∀ s t y, fn.fn s y = fn.fn t y)
    (hj : Continuous fun q : ℝ × (Fin n → ℝ) => fn.jac q.1 q.2)
    (hu : ∀ t ∈ Icc t0 T, HasDerivWithinAt u (fn.fn t (u t)) (Icc t0 T) t) (hla : la.Exact) :
    ∃ C η μ : ℝ, 0 ≤ C ∧ 0 < η ∧ 0 < μ ∧ μ < 1 ∧ ∀ nd t1 dt st0 fuelB fuel out, 0 < dt → dt ≤ η → t0 < t1 →
      bdf nd la fn t0 t1 (u t0) order dt st0 fuelB fuel = some (.ret out) →
      ∀ (i : ℕ) t y, out.tVals[i]? = some t → out.yVals[i]? = some y → t ≤ T →
        ‖y - (u t - ((order + 1 / 2) * min dt (t1 - t0)) • fn.fn t (u t))‖ ≤
          C * (min dt (t1 - t0) ^ 2 + min dt (t1 - t0) * μ ^ i + 1 / 10 ^ 10) := by
  refine C113_lag (w := fun t => fn.fn t (u t)) h2 h6 hT hf hj hu (fun t ht => ?_) rfl hla
  have hd : DifferentiableAt ℝ (fn.fn t) (u t) := by
    have h1 : ContDiff ℝ 2 (fn.fn t) := hf.comp (contDiff_const.prodMk contDiff_id)
    exact (h1.differentiable (by norm_num)).differentiableAt
  have h2 := hd.hasFDerivAt.comp_hasDerivWithinAt t (hu t ht)
  exact h2.congr (fun s _ => haut s t _) rfl

/-- **C113 (the error is of first order and no better).**  Under the hypotheses of `C113_lag` the error of the sample with index `i` at `t ≤ T`
is at least `(k + 1/2) h ‖w(t)‖ - C (h² + h μ^i + 10⁻¹⁰)`. -/
theorem C113_lower (h2 : 2 ≤ order) (h6 : order ≤ 6) (hT : t0 < T)
    (hf : ContDiff ℝ 2 fun q : ℝ × (Fin n → ℝ) => fn.fn q.1 q.2)
    (hj : Continuous fun q : ℝ × (Fin n → ℝ) => fn.jac q.1 q.2)
    (hu : ∀ t ∈ Icc t0 T, HasDerivWithinAt u (fn.fn t (u t)) (Icc t0 T) t)
    (hw : ∀ t ∈ Icc t0 T, HasDerivWithinAt w (fderiv ℝ (fn.fn t) (u t) (w t)) (Icc t0 T) t) (hw0 : w t0 = fn.fn t0 (u t0)) (hla : la.Exact) :
    ∃ C η μ : ℝ, 0 ≤ C ∧ 0 < η ∧ 0 < μ ∧ μ < 1 ∧ ∀ nd t1 dt st0 fuelB fuel out, 0 < dt → dt ≤ η → t0 < t1 →
      bdf nd la fn t0 t1 (u t0) order dt st0 fuelB fuel = some (.ret out) →
      ∀ (i : ℕ) t y, out.tVals[i]? = some t → out.yVals[i]? = some y → t ≤ T →
        (order + 1 / 2) * min dt (t1 - t0) * ‖w t‖ - C * (min dt (t1 - t0) ^ 2 + min dt (t1 - t0) * μ ^ i + 1 / 10 ^ 10) ≤ ‖y - u t‖ := by
  obtain ⟨C, η, μ, hC, hη, hμ0, hμ1, hall⟩ := C113_lag h2 h6 hT hf hj hu hw hw0 hla
  refine ⟨C, η, μ, hC, hη, hμ0, hμ1, ?_⟩
  intro nd t1 dt st0 fuelB fuel out hdt hle ht1 h i t y hti hyi htT
  have hb := hall nd t1 dt st0 fuelB fuel out hdt hle ht1 h i t y hti hyi htT
  set hs := min dt (t1 - t0) with hhs
  have hpos : 0 < hs := lt_min hdt (by linarith)
  have ho : (0 : ℝ) < order + 1 / 2 := by
    have : (0 : ℝ) < (order : ℝ) := by exact_mod_cast (show 0 < order by omega)
    linarith
  have e : ((order + 1 / 2) * hs) • w t = (y - (u t - ((order + 1 / 2) * hs) • w t)) - (y - u t) := by abel
  have e2 : ‖((order + 1 / 2) * hs) • w t‖ = (order + 1 / 2) * hs * ‖w t‖ := by
    rw [norm_smul, Real.norm_eq_abs, abs_of_pos (mul_pos ho hpos)]
  have e3 := norm_sub_le (y - (u t - ((order + 1 / 2) * hs) • w t)) (y - u t)
  rw [← e, e2] at e3
  linarith

/-- `y' = y²`, `u = 1/(2-t)` on `[0,3/2]`: order 3 lags by `7/2` steps -/
example : ∃ C η μ : ℝ, 0 ≤ C ∧ 0 < η ∧ 0 < μ ∧ μ < 1 ∧ ∀ nd t1 dt st0 fuelB fuel out, 0 < dt → dt ≤ η → 0 < t1 →
    bdf nd laReal sqRhs 0 t1 ((fun (t : ℝ) (_ : Fin 1) => 1 / (2 - t)) 0) 3 dt st0 fuelB fuel = some (.ret out) →
    ∀ (i : ℕ) t y, out.tVals[i]? = some t → out.yVals[i]? = some y → t ≤ 3 / 2 →
      ‖y - ((fun _ => 1 / (2 - t)) - (((3 : ℤ) + 1 / 2) * min dt (t1 - 0)) • sqRhs.fn t fun _ => 1 / (2 - t))‖ ≤
        C * (min dt (t1 - 0) ^ 2 + min dt (t1 - 0) * μ ^ i + 1 / 10 ^ 10) :=
  C113_autonomous (u := fun t _ => 1 / (2 - t)) (by norm_num) (by norm_num) (by norm_num) (sqRhs_contDiff 2) (fun _ _ _ => rfl)
    (show Continuous (fun q : ℝ × (Fin 1 → ℝ) => fun _ _ : Fin 1 => 2 * q.2 0) by fun_prop) sqRhs_solution laReal_exact

/-- the right-hand side `f(t,y) = t` -/
def timeRhs : OdeFun ℝ 1 := ⟨fun t _ _ => t, fun _ _ _ _ => 0⟩

/-- a problem that depends on time: for `y' = t` from `t0 = 1` the variation is constantly 1, so that order 2 is too small by `5/2 h` at all
later times although `u' = t` grows -/
example : ∃ C η μ : ℝ, 0 ≤ C ∧ 0 < η ∧ 0 < μ ∧ μ < 1 ∧ ∀ nd t1 dt st0 fuelB fuel out, 0 < dt → dt ≤ η → 1 < t1 →
    bdf nd laReal timeRhs 1 t1 ((fun (t : ℝ) (_ : Fin 1) => t ^ 2 / 2) 1) 2 dt st0 fuelB fuel = some (.ret out) →
    ∀ (i : ℕ) t y, out.tVals[i]? = some t → out.yVals[i]? = some y → t ≤ 2 →
      ‖y - ((fun _ => t ^ 2 / 2) - (((2 : ℤ) + 1 / 2) * min dt (t1 - 1)) • fun _ => 1)‖ ≤
        C * (min dt (t1 - 1) ^ 2 + min dt (t1 - 1) * μ ^ i + 1 / 10 ^ 10) :=
  C113_lag (u := fun t _ => t ^ 2 / 2) (w := fun _ _ => 1) (by norm_num) (by norm_num) (by norm_num)
    (show ContDiff ℝ 2 (fun q : ℝ × (Fin 1 → ℝ) => fun _ : Fin 1 => q.1) by fun_prop)
    (show Continuous (fun _ : ℝ × (Fin 1 → ℝ) => fun _ _ : Fin 1 => (0 : ℝ)) by fun_prop)
    (fun t _ => by
      rw [hasDerivWithinAt_pi]
      intro i
      have := ((hasDerivAt_pow 2 t).div_const 2).hasDerivWithinAt (s := Icc 1 2)
      simpa [timeRhs] using this)
    (fun t _ => by
      have : fderiv ℝ (timeRhs.fn t) (fun _ : Fin 1 => t ^ 2 / 2) = 0 := by
        have e : timeRhs.fn t = fun _ => fun _ => t := rfl
        rw [e]; exact fderiv_const_apply _
      rw [this]
      exact (hasDerivAt_const t _).hasDerivWithinAt)
    (by funext i; simp [timeRhs]) laReal_exact

end Verif
