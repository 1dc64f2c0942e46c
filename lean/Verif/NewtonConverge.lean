import Verif.Prop.Newton
import Mathlib.Analysis.Normed.Group.Constructions
import Mathlib.Analysis.Normed.Module.Basic
import Mathlib.Analysis.SpecificLimits.Basic

/-!
# Runs of `newton_iterate` with regular matrices in exact arithmetic
-/

set_option linter.unusedSectionVars false

namespace Verif

variable {n : ℕ} {la : LinAlg ℝ} {fn : NFun ℝ n} {x : Vec ℝ n} {o : NewtonOpts ℝ} {st0 : NewtonStatus ℝ}

/-- the maximum norm -/
theorem normInf_real (v : Vec ℝ n) : normInf v = ‖v‖ := by
  have key : ∀ (l : List (Fin n)) (a : ℝ), 0 ≤ a →
      l.foldl (fun acc i => cmax acc (sabs (v i))) a = l.foldl (fun acc i => max acc ‖v i‖) a := by
    intro l
    induction l with
    | nil => intro a _; rfl
    | cons i l ih =>
      intro a ha
      rw [List.foldl_cons, List.foldl_cons, ← ih _ (le_max_of_le_left ha)]
      simp [Real.norm_eq_abs]
  have hmax : ∀ (l : List (Fin n)) (a : ℝ), a ≤ l.foldl (fun acc i => max acc ‖v i‖) a ∧
      (∀ i ∈ l, ‖v i‖ ≤ l.foldl (fun acc i => max acc ‖v i‖) a) ∧
      ∀ c, a ≤ c → (∀ i, ‖v i‖ ≤ c) → l.foldl (fun acc i => max acc ‖v i‖) a ≤ c := by
    intro l
    induction l with
    | nil => intro a; exact ⟨le_rfl, by simp, fun c hc _ => hc⟩
    | cons i l ih =>
      intro a
      obtain ⟨h1, h2, h3⟩ := ih (max a ‖v i‖)
      rw [List.foldl_cons]
      refine ⟨(le_max_left _ _).trans h1, ?_, fun c hc hv => h3 c (max_le hc (hv i)) hv⟩
      intro j hj
      rcases List.mem_cons.1 hj with rfl | hj
      · exact (le_max_right _ _).trans h1
      · exact h2 j hj
  unfold normInf
  rw [lit_real, Rat.cast_zero, key _ _ le_rfl]
  obtain ⟨h1, h2, h3⟩ := hmax (List.finRange n) 0
  refine le_antisymm (h3 _ (norm_nonneg _) fun i => norm_le_pi_norm v i) ?_
  rw [pi_norm_le_iff_of_nonneg h1]
  exact fun i => h2 i (List.mem_finRange i)

/-- the matrix used in the update from `z`, `x` being the initial guess -/
def usedJac (fn : NFun ℝ n) (o : NewtonOpts ℝ) (x z : Vec ℝ n) : Matrix (Fin n) (Fin n) ℝ :=
  Matrix.of (if 0 < o.refreshJac then fn.jac z else fn.jac x)

/-- the damping factor of the update from `z` -/
noncomputable def damping (fn : NFun ℝ n) (o : NewtonOpts ℝ) (z : Vec ℝ n) : ℝ :=
  if o.limitStep then 1 / (1 + ∑ i, fn.fn z i * fn.fn z i) else 1

/-- A run of `newton_iterate` without a bound on the step, as long as the matrices in use are regular: damped Newton
steps, until an increment is below `dx_delta` (SUCCESS, unless this is in the last permitted pass) or `maxit` steps are
made (failure, the initial guess is returned). -/
theorem newton_plain (hla : la.Exact) (hms : o.maxStep ≤ 0) (hmax : 0 ≤ o.maxit) (quiet : Bool)
    {xr : Vec ℝ n} {st : NewtonStatus ℝ} (h : newtonIterate la fn x o st0 quiet = some (.ret (xr, st))) :
    ∃ (m : ℕ) (xs ds : ℕ → Vec ℝ n), xs 0 = x ∧ (m : ℤ) ≤ o.maxit ∧
      (∀ k < m, IsUnit (usedJac fn o x (xs k)).det → (usedJac fn o x (xs k)).mulVec (ds k) = - fn.fn (xs k)) ∧
      (∀ k < m, xs (k + 1) = xs k + damping fn o (xs k) • ds k) ∧
      (∀ k, k + 1 < m → o.dxDelta ≤ ‖ds k‖) ∧
      (st.conv = 0 → 0 < m ∧ (m : ℤ) < o.maxit ∧ ‖ds (m - 1)‖ < o.dxDelta ∧ xr = xs m ∧ st.iters = m) ∧
      (IsUnit (usedJac fn o x (xs m)).det → st.conv ≠ 0 → (m : ℤ) = o.maxit) := by
  obtain ⟨s, xs, ds, hI, hcase⟩ := newtonImpl_trace (refresh_le o quiet) h
  set fl := newtonSwitch (newtonBits o quiet) with hfl
  have hcur : ∀ z, Matrix.of (curJac fl fn x z) = usedJac fn o x z := by
    intro z
    unfold curJac usedJac
    by_cases hr : 0 < o.refreshJac
    · rw [if_pos ((refresh_iff o quiet).mpr hr), if_pos hr]
    · rw [if_neg (fun hc => hr ((refresh_iff o quiet).mp hc)), if_neg hr]
  have hsol : ∀ z r, IsUnit (usedJac fn o x z).det →
      (if fl.precondition then la.solve (matMul (scaleMat (curJac fl fn x z)) (curJac fl fn x z))
          (mulVec (scaleMat (curJac fl fn x z)) r) else la.solve (curJac fl fn x z) r) =
        some ((usedJac fn o x z)⁻¹.mulVec r) := by
    intro z r hu
    rw [← hcur] at hu ⊢
    rw [precond_solve hla hu, hla.solve _ _ hu]
    split_ifs <;> rfl
  have hlam : ∀ z, newtonLambda fl (dot (fn.fn z) (fn.fn z)) = damping fn o z := by
    intro z
    unfold newtonLambda damping
    rw [hfl, C28_dispatch]
    simp only [dot_real, lit_real, Rat.cast_one]
  have hms2 : maxStep2 o = -1 := by
    unfold maxStep2; rw [if_neg (by simpa using hms)]; simp
  have hle : (s.iters : ℤ) ≤ o.maxit := by
    rcases hI.le with h | h
    · exact h
    · rw [h]; simpa using hmax
  refine ⟨s.iters, xs, ds, hI.start, hle, ?_, ?_, ?_, ?_, ?_⟩
  · intro k hk hu
    obtain ⟨z, h1, h2, h3⟩ := hI.upd k hk
    rw [hsol _ _ hu, Option.some.injEq] at h1
    rw [hms2, limitDir_off (by norm_num)] at h2
    have h4 : ds k = - z := h2
    rw [h4, Matrix.mulVec_neg, ← h1, Matrix.mulVec_mulVec, Matrix.mul_nonsing_inv _ hu, Matrix.one_mulVec]
  · intro k hk
    obtain ⟨z, h1, h2, h3⟩ := hI.upd k hk
    rw [h3, hlam]
    rfl
  · intro k hk
    have := hI.before k (by omega) (fun _ => hk)
    rw [normInf_real] at this
    simpa using this
  · intro hc
    rcases hcase with ⟨hend, hfin⟩ | ⟨hnone, h1, h2, -⟩
    · have hconv : st.conv = if isFin (ssqrt s.res2) then (if (s.iters : ℤ) = o.maxit then 3 else 0) else 4 := by
        have := congrArg (fun p => p.2.conv) hfin; simpa [newtonFinish] using this
      have hit : st.iters = s.iters := by
        have := congrArg (fun p => p.2.iters) hfin; simpa [newtonFinish] using this
      have hxr : xr = if st.conv = 0 then s.xn else x := by
        have := congrArg (fun p => p.1) hfin
        rw [hconv]
        simpa [newtonFinish] using this
      rw [hc] at hconv
      have hne : (s.iters : ℤ) ≠ o.maxit := by
        intro hc2
        simp [hc2] at hconv
      have hT : s.term = true := by
        by_contra hc2
        exact hend ⟨by simpa using hc2, lt_of_le_of_ne hle hne⟩
      obtain ⟨l1, l2⟩ := hI.last hT
      rw [normInf_real] at l2
      rw [if_pos hc] at hxr
      exact ⟨l1, lt_of_le_of_ne hle hne, by simpa using l2, by rw [hxr, hI.cur], hit⟩
    · rw [h2] at hc; cases hc
  · intro hu hc
    rcases hcase with ⟨hend, hfin⟩ | ⟨hnone, -⟩
    · have hconv : st.conv = if isFin (ssqrt s.res2) then (if (s.iters : ℤ) = o.maxit then 3 else 0) else 4 := by
        have := congrArg (fun p => p.2.conv) hfin; simpa [newtonFinish] using this
      by_contra hne
      refine hc ?_
      rw [hconv, if_neg hne]
      simp
    · exfalso
      obtain ⟨L, U, P, hlup, hP⟩ := hI.lup
      have hs := hsol (xs s.iters) s.r hu
      rw [hI.cur, ← hI.J] at hs
      unfold newtonDir at hnone
      cases hp : fl.precondition with
      | true => simp only [hp, hlup, precondDiag_eq hP, if_true] at hnone hs; rw [hs] at hnone; cases hnone
      | false =>
        have := refresh_le o quiet
        rw [← hfl] at this
        simp only [hp, this, if_true, Bool.false_eq_true, if_false] at hnone hs
        rw [hs] at hnone; cases hnone

/-- a matrix near the identity is regular and its inverse at most doubles -/
theorem near_one {J : Matrix (Fin n) (Fin n) ℝ} {a : ℝ} (ha : a ≤ 1 / 2) (hJ : ∀ v, ‖J.mulVec v - v‖ ≤ a * ‖v‖) :
    IsUnit J.det ∧ ∀ v, ‖v‖ ≤ 2 * ‖J.mulVec v‖ := by
  have hinj : ∀ v, ‖v‖ ≤ 2 * ‖J.mulVec v‖ := by
    intro v
    have h1 := hJ v
    have h2 : ‖v‖ ≤ ‖J.mulVec v‖ + ‖J.mulVec v - v‖ := by
      have := norm_sub_le (J.mulVec v) (J.mulVec v - v)
      rwa [sub_sub_cancel] at this
    nlinarith [norm_nonneg v]
  refine ⟨?_, hinj⟩
  rw [← Matrix.isUnit_iff_isUnit_det, ← Matrix.mulVec_injective_iff_isUnit]
  intro v w hvw
  have h1 := hinj (v - w)
  rw [Matrix.mulVec_sub, hvw, sub_self, norm_zero, mul_zero] at h1
  exact sub_eq_zero.1 (norm_le_zero_iff.1 h1)

/-- Newton iteration, without damping, for a function close to the identity around the initial guess: the increments
decrease geometrically, it succeeds if `maxit` allows for it, the result is near the guess and the residual is reduced
at least by the contraction factor and below the contraction factor times `dx_delta`. -/
theorem newton_near_one (hla : la.Exact) (hms : o.maxStep ≤ 0) (hlim : o.limitStep = false) (hmax : 2 ≤ o.maxit)
    (quiet : Bool) {a b : ℝ} (ha0 : 0 ≤ a) (hb0 : 0 ≤ b) (hab : a + b ≤ 1 / 4)
    (hJ : ∀ z, ‖z - x‖ ≤ 4 * ‖fn.fn x‖ → ∀ v, ‖(Matrix.of (fn.jac z)).mulVec v - v‖ ≤ a * ‖v‖)
    (hL : ∀ z w, ‖z - x‖ ≤ 4 * ‖fn.fn x‖ → ‖w - x‖ ≤ 4 * ‖fn.fn x‖ → ‖fn.fn z - fn.fn w - (z - w)‖ ≤ b * ‖z - w‖)
    {xr : Vec ℝ n} {st : NewtonStatus ℝ} (h : newtonIterate la fn x o st0 quiet = some (.ret (xr, st))) :
    (st.conv = 0 → ‖xr - x‖ ≤ 4 * ‖fn.fn x‖ ∧ ‖fn.fn xr‖ ≤ 2 * (a + b) * ‖fn.fn x‖ ∧ ‖fn.fn xr‖ ≤ (a + b) * o.dxDelta) ∧
    (2 * ‖fn.fn x‖ * (1 / 2) ^ (o.maxit.toNat - 2) < o.dxDelta → st.conv = 0) := by
  obtain ⟨m, xs, ds, h0, hm, hds, hxs, hgo, hok, hbad⟩ := newton_plain hla hms (by omega) quiet h
  set r0 := ‖fn.fn x‖ with hr0
  have hr0n : 0 ≤ r0 := norm_nonneg _
  have hq0 : 0 ≤ 2 * (a + b) := by linarith
  have hq1 : 2 * (a + b) ≤ 1 / 2 := by linarith
  have hused : ∀ z, ‖z - x‖ ≤ 4 * r0 → ∀ v, ‖(usedJac fn o x z).mulVec v - v‖ ≤ a * ‖v‖ := by
    intro z hz
    unfold usedJac
    split_ifs
    · exact hJ z hz
    · exact hJ x (by simp; positivity)
  have hpow : ∀ k : ℕ, (2 * (a + b)) ^ k ≤ (1 / 2) ^ k := fun k => pow_le_pow_left₀ hq0 hq1 k
  have key : ∀ k ≤ m, ‖xs k - x‖ ≤ 4 * r0 * (1 - (1 / 2) ^ k) ∧ ‖fn.fn (xs k)‖ ≤ (2 * (a + b)) ^ k * r0 ∧
      ∀ j, k = j + 1 → ‖fn.fn (xs k)‖ ≤ (a + b) * ‖ds j‖ := by
    intro k
    induction k with
    | zero => intro _; rw [h0]; simp [hr0]
    | succ k ih =>
      intro hk
      obtain ⟨i1, i2, -⟩ := ih (by omega)
      have hpk : 0 ≤ (1 / 2 : ℝ) ^ k := by positivity
      have hin : ‖xs k - x‖ ≤ 4 * r0 := i1.trans (by nlinarith [mul_nonneg hr0n hpk])
      obtain ⟨hu, hinv⟩ := near_one (by linarith) (hused _ hin)
      have hd := hds k (by omega) hu
      have hx := hxs k (by omega)
      rw [damping, if_neg (by simp [hlim]), one_smul] at hx
      have hdn : ‖ds k‖ ≤ 2 * ‖fn.fn (xs k)‖ := by
        have := hinv (ds k)
        rwa [hd, norm_neg] at this
      have hdn2 : ‖ds k‖ ≤ 2 * ((1 / 2) ^ k * r0) :=
        hdn.trans (by have := i2.trans (mul_le_mul_of_nonneg_right (hpow k) hr0n); linarith)
      have hx1 : ‖xs (k + 1) - x‖ ≤ 4 * r0 * (1 - (1 / 2) ^ (k + 1)) := by
        have : xs (k + 1) - x = (xs k - x) + ds k := by rw [hx]; abel
        rw [this, pow_succ]
        refine (norm_add_le _ _).trans ?_
        nlinarith
      have hin1 : ‖xs (k + 1) - x‖ ≤ 4 * r0 :=
        hx1.trans (by have : 0 ≤ (1 / 2 : ℝ) ^ (k + 1) := by positivity
                      nlinarith [mul_nonneg hr0n this])
      have hlast : ‖fn.fn (xs (k + 1))‖ ≤ (a + b) * ‖ds k‖ := by
        have hres : fn.fn (xs (k + 1)) = (fn.fn (xs (k + 1)) - fn.fn (xs k) - (xs (k + 1) - xs k)) -
            ((usedJac fn o x (xs k)).mulVec (ds k) - ds k) := by
          rw [hd, hx]; abel
        rw [hres]
        have e1 := hL _ _ hin1 hin
        have e2 := hused _ hin (ds k)
        have e3 : xs (k + 1) - xs k = ds k := by rw [hx]; abel
        rw [e3] at e1 ⊢
        refine (norm_sub_le _ _).trans ?_
        calc _ ≤ b * ‖ds k‖ + a * ‖ds k‖ := add_le_add e1 e2
          _ = (a + b) * ‖ds k‖ := by ring
      refine ⟨hx1, hlast.trans ?_, fun j hj => ?_⟩
      · rw [pow_succ]
        calc _ ≤ (a + b) * (2 * ((2 * (a + b)) ^ k * r0)) := mul_le_mul_of_nonneg_left (hdn.trans (by linarith)) (by linarith)
          _ = _ := by ring
      · obtain rfl : j = k := by omega
        exact hlast
  have hball : ∀ k ≤ m, ‖xs k - x‖ ≤ 4 * r0 := by
    intro k hk
    have : 0 ≤ (1 / 2 : ℝ) ^ k := by positivity
    exact (key k hk).1.trans (by nlinarith [mul_nonneg hr0n this])
  refine ⟨?_, ?_⟩
  · intro hc
    obtain ⟨hm0, -, hdx, hxr, -⟩ := hok hc
    refine ⟨by rw [hxr]; exact hball m le_rfl, ?_, ?_⟩
    · rw [hxr]
      refine (key m le_rfl).2.1.trans (mul_le_mul_of_nonneg_right ?_ hr0n)
      calc (2 * (a + b)) ^ m ≤ (2 * (a + b)) ^ 1 := pow_le_pow_of_le_one hq0 (by linarith) (by omega)
        _ = _ := pow_one _
    · rw [hxr]
      exact ((key m le_rfl).2.2 (m - 1) (by omega)).trans (mul_le_mul_of_nonneg_left hdx.le (by linarith))
  · intro hdx
    by_contra hc
    have hmm := hbad (near_one (by linarith) (hused _ (hball m le_rfl))).1 hc
    have hm2 : o.maxit.toNat = m := by omega
    have h1 := hgo (m - 2) (by omega)
    have hin := hball (m - 2) (by omega)
    obtain ⟨hu, hinv⟩ := near_one (by linarith) (hused _ hin)
    have hdn : ‖ds (m - 2)‖ ≤ 2 * ‖fn.fn (xs (m - 2))‖ := by
      have := hinv (ds (m - 2))
      rwa [hds (m - 2) (by omega) hu, norm_neg] at this
    have h2 := (key (m - 2) (by omega)).2.1.trans (mul_le_mul_of_nonneg_right (hpow (m - 2)) hr0n)
    rw [hm2] at hdx
    nlinarith

end Verif
