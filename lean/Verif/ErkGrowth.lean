import Verif.ErkReturns
import Mathlib.Analysis.SpecialFunctions.Exp
import Mathlib.Analysis.Normed.Group.Constructions

/-!
# Termination of the adaptive explicit integrator for right-hand sides of linear growth: helper lemmas
-/

namespace Verif
open Spec
variable {n : ℕ} {nd : Bool} {f : ℝ → Vec ℝ n → Vec ℝ n} {t0 t1 : ℝ} {y0 : Vec ℝ n}
  {o : ErkOpts ℝ} {dt : ℝ} {sc : SolverCoeffs ℝ} {oo : OutOpts} {mo : ℕ} {α β : ℝ}

/-- sum of the absolute values of the tableau -/
noncomputable def absTab (sc : SolverCoeffs ℝ) : ℝ :=
  ∑ i ∈ Finset.range sc.ns, ∑ j ∈ Finset.range sc.ns, |sc.a i j|

/-- sum of the absolute values of the weights -/
noncomputable def absWts (sc : SolverCoeffs ℝ) : ℝ := ∑ j ∈ Finset.range sc.ns, |sc.bw j|

theorem absTab_nonneg (sc : SolverCoeffs ℝ) : 0 ≤ absTab sc :=
  Finset.sum_nonneg fun _ _ => Finset.sum_nonneg fun _ _ => abs_nonneg _

theorem absWts_nonneg (sc : SolverCoeffs ℝ) : 0 ≤ absWts sc := Finset.sum_nonneg fun _ _ => abs_nonneg _

theorem row_le_absTab {i : ℕ} (hi : i < sc.ns) : ∑ j ∈ Finset.range i, |sc.a i j| ≤ absTab sc := by
  calc ∑ j ∈ Finset.range i, |sc.a i j| ≤ ∑ j ∈ Finset.range sc.ns, |sc.a i j| :=
        Finset.sum_le_sum_of_subset_of_nonneg
          (fun j hj => Finset.mem_range.mpr ((Finset.mem_range.mp hj).trans hi)) (fun _ _ _ => abs_nonneg _)
    _ ≤ absTab sc := Finset.single_le_sum (f := fun i => ∑ j ∈ Finset.range sc.ns, |sc.a i j|)
        (fun _ _ => Finset.sum_nonneg fun _ _ => abs_nonneg _) (Finset.mem_range.mpr hi)

/-- growth of the stages over a step of length at most `T` -/
noncomputable def stageGrow (sc : SolverCoeffs ℝ) (β T : ℝ) : ℝ := (1 + β * T * absTab sc) ^ sc.ns

theorem stageGrow_pos (hβ : 0 ≤ β) {T : ℝ} (hT : 0 ≤ T) : 0 < stageGrow sc β T := by
  have := absTab_nonneg sc
  unfold stageGrow
  positivity

/-- stages of an attempt from a state with `α + β ‖y‖ ≤ u` -/
theorem stages_le_of_growth (hfs : sc.fsal = true → FsalOK sc)
    (hcn : ∀ i, i < sc.ns → 0 ≤ sc.cn i ∧ sc.cn i ≤ 1) (hα : 0 ≤ α) (hβ : 0 ≤ β)
    (hf : ∀ t y, t0 ≤ t → t ≤ t1 → ‖f t y‖ ≤ α + β * ‖y‖) {s : ErkState ℝ n} (hT : TimeInv t0 t1 s)
    (hF : FsalInv f sc s) (hlt : s.t < t1) :
    ∀ j, j < sc.ns → ‖(attemptAt f t1 o sc mo s).Ks j‖ ≤ (α + β * ‖s.y‖) * stageGrow sc β (t1 - t0) := by
  set a := attemptAt f t1 o sc mo s with ha
  have hd := attempt_dt (f := f) (t1 := t1) (o := o) (sc := sc) (mo := mo) s
  obtain ⟨c1, c2, -⟩ := clip_facts hT hlt
  rw [← hd, ← ha] at c1 c2
  have hS := absTab_nonneg sc
  have hu : 0 ≤ α + β * ‖s.y‖ := by positivity
  have hTT : a.dt ≤ t1 - t0 := by linarith [hT.lo]
  have hx : 0 ≤ β * (t1 - t0) * absTab sc := by
    have : 0 ≤ t1 - t0 := c1.le.trans hTT
    positivity
  set x := β * (t1 - t0) * absTab sc with hxdef
  have key : ∀ j, j < sc.ns → ‖a.Ks j‖ ≤ (α + β * ‖s.y‖) * (1 + x) ^ j := by
    intro j
    induction j using Nat.strong_induction_on with
    | _ j ih =>
      intro hj
      have hst := attempt_stages (t1 := t1) (o := o) (mo := mo) hfs hF j hj
      obtain ⟨h1, h2⟩ := attempt_times (f := f) (o := o) (mo := mo) hcn hT hlt j hj
      rw [← ha] at h1 h2
      change a.Ks j = _ at hst
      rw [hst]
      refine (hf _ _ h1 h2).trans ?_
      rcases Nat.eq_zero_or_pos j with h0 | h0
      · subst h0
        rw [stageArg_real]
        simp
      have harg : ‖stageArg sc a.dt s.y a.Ks j‖ ≤
          ‖s.y‖ + (t1 - t0) * absTab sc * ((α + β * ‖s.y‖) * (1 + x) ^ (j - 1)) := by
        have hB : 0 ≤ (α + β * ‖s.y‖) * (1 + x) ^ (j - 1) := by positivity
        have hT0 : 0 ≤ t1 - t0 := c1.le.trans hTT
        rw [pi_norm_le_iff_of_nonneg (by positivity), stageArg_real]
        intro k
        refine (norm_add_le _ _).trans (add_le_add (norm_le_pi_norm s.y k) ?_)
        refine (norm_sum_le _ _).trans ?_
        calc ∑ i ∈ Finset.range j, ‖a.dt * sc.a j i * a.Ks i k‖
            ≤ ∑ i ∈ Finset.range j, (t1 - t0) * |sc.a j i| * ((α + β * ‖s.y‖) * (1 + x) ^ (j - 1)) := by
              apply Finset.sum_le_sum
              intro i hi
              have hij := Finset.mem_range.mp hi
              rw [norm_mul, norm_mul, Real.norm_eq_abs, Real.norm_eq_abs, abs_of_pos c1]
              apply mul_le_mul (mul_le_mul_of_nonneg_right hTT (abs_nonneg _)) _ (norm_nonneg _)
                (mul_nonneg hT0 (abs_nonneg _))
              refine (norm_le_pi_norm (a.Ks i) k).trans ((ih i hij (hij.trans hj)).trans ?_)
              apply mul_le_mul_of_nonneg_left _ hu
              exact pow_le_pow_right₀ (by linarith) (by omega)
          _ = (t1 - t0) * (∑ i ∈ Finset.range j, |sc.a j i|) * ((α + β * ‖s.y‖) * (1 + x) ^ (j - 1)) := by
              rw [Finset.mul_sum, Finset.sum_mul]
          _ ≤ _ := by
              apply mul_le_mul_of_nonneg_right _ hB
              exact mul_le_mul_of_nonneg_left (row_le_absTab hj) hT0
      obtain ⟨p, rfl⟩ : ∃ p, j = p + 1 := ⟨j - 1, by omega⟩
      rw [Nat.add_sub_cancel] at harg
      have hp1 : 1 ≤ (1 + x) ^ p := one_le_pow₀ (by linarith)
      calc α + β * ‖stageArg sc a.dt s.y a.Ks (p + 1)‖
          ≤ α + β * (‖s.y‖ + (t1 - t0) * absTab sc * ((α + β * ‖s.y‖) * (1 + x) ^ p)) := by
            have := mul_le_mul_of_nonneg_left harg hβ
            linarith
        _ = (α + β * ‖s.y‖) * (1 + x * (1 + x) ^ p) := by rw [hxdef]; ring
        _ ≤ (α + β * ‖s.y‖) * (1 + x) ^ (p + 1) := by
            apply mul_le_mul_of_nonneg_left _ hu
            rw [pow_succ]; linarith
  intro j hj
  refine (key j hj).trans ?_
  apply mul_le_mul_of_nonneg_left _ hu
  exact pow_le_pow_right₀ (by linarith) hj.le

/-- growth rate of the accepted values -/
noncomputable def growRate (sc : SolverCoeffs ℝ) (β T : ℝ) : ℝ := β * absWts sc * stageGrow sc β T

/-- invariant of the accepted values, a discrete Gronwall inequality -/
def Grown (sc : SolverCoeffs ℝ) (α β t0 t1 : ℝ) (y0 : Vec ℝ n) (s : ErkState ℝ n) : Prop :=
  α + β * ‖s.y‖ ≤ (α + β * ‖y0‖) * Real.exp (growRate sc β (t1 - t0) * (s.t - t0))

theorem yn_growth (hfs : sc.fsal = true → FsalOK sc)
    (hcn : ∀ i, i < sc.ns → 0 ≤ sc.cn i ∧ sc.cn i ≤ 1) (hα : 0 ≤ α) (hβ : 0 ≤ β)
    (hf : ∀ t y, t0 ≤ t → t ≤ t1 → ‖f t y‖ ≤ α + β * ‖y‖) {s : ErkState ℝ n} (hT : TimeInv t0 t1 s)
    (hF : FsalInv f sc s) (hlt : s.t < t1) :
    let a := attemptAt f t1 o sc mo s
    α + β * ‖a.yn‖ ≤ (α + β * ‖s.y‖) * Real.exp (growRate sc β (t1 - t0) * a.dt) := by
  intro a
  have hd := attempt_dt (f := f) (t1 := t1) (o := o) (sc := sc) (mo := mo) s
  obtain ⟨c1, c2, -⟩ := clip_facts hT hlt
  rw [← hd] at c1 c2
  change 0 < a.dt at c1
  change s.t + a.dt ≤ t1 at c2
  have hst := stages_le_of_growth (o := o) (mo := mo) hfs hcn hα hβ hf hT hF hlt
  have hu : 0 ≤ α + β * ‖s.y‖ := by positivity
  have hP := stageGrow_pos (sc := sc) hβ (T := t1 - t0) (by linarith [hT.lo])
  have hW := absWts_nonneg sc
  have hy := attempt_yn (f := f) (t1 := t1) (o := o) (sc := sc) (mo := mo) s
  change a.yn = _ at hy
  have hyn : ‖a.yn‖ ≤ ‖s.y‖ + a.dt * (absWts sc * ((α + β * ‖s.y‖) * stageGrow sc β (t1 - t0))) := by
    rw [pi_norm_le_iff_of_nonneg (by positivity), hy]
    intro k
    refine (norm_add_le _ _).trans (add_le_add (norm_le_pi_norm s.y k) ?_)
    change ‖a.dt * combine sc a.Ks sc.bw k‖ ≤ _
    rw [norm_mul, Real.norm_eq_abs, abs_of_pos c1, combine_real]
    apply mul_le_mul_of_nonneg_left _ c1.le
    refine (norm_sum_le _ _).trans ?_
    rw [absWts, Finset.sum_mul]
    apply Finset.sum_le_sum
    intro j hj
    rw [norm_mul, mul_comm, Real.norm_eq_abs (sc.bw j)]
    apply mul_le_mul_of_nonneg_left _ (abs_nonneg _)
    exact (norm_le_pi_norm (a.Ks j) k).trans (hst j (Finset.mem_range.mp hj))
  calc α + β * ‖a.yn‖
      ≤ α + β * (‖s.y‖ + a.dt * (absWts sc * ((α + β * ‖s.y‖) * stageGrow sc β (t1 - t0)))) := by
        have := mul_le_mul_of_nonneg_left hyn hβ
        linarith
    _ = (α + β * ‖s.y‖) * (growRate sc β (t1 - t0) * a.dt + 1) := by rw [growRate]; ring
    _ ≤ _ := mul_le_mul_of_nonneg_left (Real.add_one_le_exp _) hu

theorem grown_next (hfs : sc.fsal = true → FsalOK sc)
    (hcn : ∀ i, i < sc.ns → 0 ≤ sc.cn i ∧ sc.cn i ≤ 1) (hα : 0 ≤ α) (hβ : 0 ≤ β)
    (hf : ∀ t y, t0 ≤ t → t ≤ t1 → ‖f t y‖ ≤ α + β * ‖y‖) {s s' : ErkState ℝ n} (hT : TimeInv t0 t1 s)
    (hF : FsalInv f sc s) (hQ : Grown sc α β t0 t1 y0 s) (hb : erkBody nd f t1 o oo sc mo s = .next s') :
    Grown sc α β t0 t1 y0 s' := by
  have hc := bodyCase nd f t1 o oo sc mo s
  rw [hb] at hc
  cases hc with
  | accepted h hm hb2 a hA hE hr' =>
    have hlt : s.t < t1 := by simpa using h
    have hy := yn_growth (o := o) (mo := mo) hfs hcn hα hβ hf hT hF hlt
    rw [← hA] at hy
    change α + β * ‖a.yn‖ ≤ (α + β * ‖y0‖) * Real.exp (growRate sc β (t1 - t0) * (s.t + a.dt - t0))
    refine hy.trans ?_
    rw [show growRate sc β (t1 - t0) * (s.t + a.dt - t0) =
      growRate sc β (t1 - t0) * (s.t - t0) + growRate sc β (t1 - t0) * a.dt by ring, Real.exp_add, ← mul_assoc]
    exact mul_le_mul_of_nonneg_right hQ (Real.exp_pos _).le
  | rejected h hm hb2 a hA hE had' hr' => exact hQ

/-- all stages are bounded along the run -/
theorem grown_stages (hfs : sc.fsal = true → FsalOK sc)
    (hcn : ∀ i, i < sc.ns → 0 ≤ sc.cn i ∧ sc.cn i ≤ 1) (hα : 0 ≤ α) (hβ : 0 ≤ β)
    (hf : ∀ t y, t0 ≤ t → t ≤ t1 → ‖f t y‖ ≤ α + β * ‖y‖) {s : ErkState ℝ n} (hT : TimeInv t0 t1 s)
    (hF : FsalInv f sc s) (hQ : Grown sc α β t0 t1 y0 s) (hlt : s.t < t1) (j : ℕ) (k : Fin n) (hj : j < sc.ns) :
    |(attemptAt f t1 o sc mo s).Ks j k| ≤
      (α + β * ‖y0‖) * Real.exp (growRate sc β (t1 - t0) * (t1 - t0)) * stageGrow sc β (t1 - t0) := by
  have h01 : 0 ≤ t1 - t0 := by linarith [hT.lo]
  have hP := stageGrow_pos (sc := sc) hβ h01
  have hW := absWts_nonneg sc
  have hg : 0 ≤ growRate sc β (t1 - t0) := by unfold growRate; positivity
  have h1 := norm_le_pi_norm ((attemptAt f t1 o sc mo s).Ks j) k
  refine h1.trans ((stages_le_of_growth (o := o) (mo := mo) hfs hcn hα hβ hf hT hF hlt j hj).trans ?_)
  apply mul_le_mul_of_nonneg_right _ hP.le
  refine hQ.trans ?_
  apply mul_le_mul_of_nonneg_left _ (by positivity)
  apply Real.exp_le_exp.mpr
  apply mul_le_mul_of_nonneg_left _ hg
  linarith [hT.hi]

/-- (C73)  A right-hand side of linear growth: the adaptive integrator with an embedded method returns. -/
theorem adaptive_run_growth {m : ℤ} (hm : m ∈ erkImplemented) (hs : StreamOK oo)
    (had : o.adaptive = true) (hb2 : (erkCoeffs m : SolverCoeffs ℝ).b2 ≠ [])
    (ha : 0 < o.absTol) (hr : 0 ≤ o.relTol)
    (hf : ∀ t y, t0 ≤ t → t ≤ t1 → ‖f t y‖ ≤ α + β * ‖y‖) (hdt : 0 < dt) (h01 : t0 < t1) :
    ∃ fuel out, erkOdeint nd f t0 t1 y0 o oo m dt fuel = some (.ret out) := by
  obtain ⟨-, hfs, -, hcn, -⟩ := shipped_facts hm
  have hf' : ∀ t y, t0 ≤ t → t ≤ t1 → ‖f t y‖ ≤ max α 0 + max β 0 * ‖y‖ := fun t y h1 h2 =>
    (hf t y h1 h2).trans (add_le_add (le_max_left _ _) (mul_le_mul_of_nonneg_right (le_max_left _ _) (norm_nonneg _)))
  refine adaptive_run_of (Grown (erkCoeffs m) (max α 0) (max β 0) t0 t1 y0) hm hs had hb2 ha hr hdt h01 ?_
    (fun mo s s' hT hF hQ hb => grown_next hfs hcn (le_max_right _ _) (le_max_right _ _) hf' hT hF hQ hb)
    (fun mo s hT hF hQ hlt j k hj => grown_stages hfs hcn (le_max_right _ _) (le_max_right _ _) hf' hT hF hQ hlt j k hj)
  have i1 := (erkInit_fields (f := f) (t0 := t0) (y0 := y0) (sc := erkCoeffs m) (clipDt t0 t1 dt)).1
  have i2 : (erkInit f t0 y0 (clipDt t0 t1 dt) (erkCoeffs m)).y = y0 := by
    unfold erkInit
    by_cases hf : (erkCoeffs m : SolverCoeffs ℝ).fsal = true <;> simp [hf, evalFun]
  unfold Grown
  rw [i1, i2]
  simp

end Verif
