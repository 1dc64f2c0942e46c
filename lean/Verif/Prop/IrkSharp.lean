import Verif.Prop.IrkComplete
import Mathlib.Analysis.MeanInequalitiesPow

/-!
# Property C82: the order two of the convergence theorem is the best possible for a fixed Newton tolerance
-/

set_option linter.unusedSectionVars false

namespace Verif
open Spec Set TestEq

/-- `y₀' = 1`, `y₁' = (y₀ - t)²` with its Jacobi matrix; from `(t0, 0)` the solution is `(t, 0)` -/
def driftFun : OdeFun ℝ 2 :=
  { fn := fun t y => ![1, (y 0 - t) ^ 2]
    jac := fun t y => ![![0, 0], ![2 * (y 0 - t), 0]] }

theorem drift_smooth (k : WithTop ℕ∞) : ContDiff ℝ k fun q : ℝ × Vec ℝ 2 => driftFun.fn q.1 q.2 := by
  refine contDiff_pi.mpr fun i => ?_
  fin_cases i
  · exact contDiff_const
  · exact (((contDiff_apply ℝ ℝ (0 : Fin 2)).comp contDiff_snd).sub contDiff_fst).pow 2

theorem drift_jacobian (t : ℝ) (y : Vec ℝ 2) : IsJacobianAt (driftFun.fn t) (driftFun.jac t y) y := by
  have c := hasFDerivAt_coord y
  refine isJacobianAt_of fun i => ?_
  fin_cases i
  · exact ⟨_, hasFDerivAt_const (1 : ℝ) y, fun v => by simp [driftFun]⟩
  · refine ⟨_, ((c 0).sub_const t).pow 2, fun v => ?_⟩
    simp [driftFun, Fin.sum_univ_two]

theorem drift_solution (t0 t1 : ℝ) : ∀ t ∈ Icc t0 t1,
    HasDerivWithinAt (fun t : ℝ => (![t, 0] : Vec ℝ 2)) (driftFun.fn t ![t, 0]) (Icc t0 t1) t := by
  intro t _
  refine HasDerivAt.hasDerivWithinAt ?_
  rw [hasDerivAt_pi]
  intro i
  fin_cases i
  · simp only [driftFun, Fin.mk_zero', Matrix.cons_val_zero]
    exact hasDerivAt_id t
  · simpa [driftFun] using hasDerivAt_const t (0 : ℝ)

section
variable {nd : Bool} {la : LinAlg ℝ} {sc : SolverCoeffs ℝ}

/-- the size of the residual after one pass -/
noncomputable def driftConst (sc : SolverCoeffs ℝ) : ℝ :=
  ∑ i : Fin sc.ns, (∑ j : Fin sc.ns, sc.a i j * sc.cn j ^ 2) ^ 2

/-- the Newton iteration makes one pass, and its increment is not the solution of the stage equations -/
theorem drift_stage (hla : la.Exact) (hs : la.Sound) (hc : ∀ i : Fin sc.ns, ∑ j : Fin sc.ns, sc.a i j = sc.cn i) {t h : ℝ}
    {y : Vec ℝ 2} (hy : y 0 = t) {maxit refresh : ℤ} {xtol Rtol : ℝ} {count : IrkCounters} {log : CallLog ℝ 2}
    {r : StageResult ℝ (sc.ns * 2) 2} (hr : newtonSolveStages nd la driftFun sc t h y maxit refresh xtol Rtol count log = .ret r)
    (hst : r.status = 0) (hsmall : h ^ 6 * driftConst sc < Rtol ^ 2) (i : Fin sc.ns) :
    r.Y (finProdFinEquiv (i, 0)) = h * ∑ j : Fin sc.ns, sc.a i j ∧
      r.Y (finProdFinEquiv (i, 1)) = h * ∑ j : Fin sc.ns, sc.a i j * (sc.cn j * h) ^ 2 := by
  obtain ⟨-, m, Ys, dYs, S⟩ := stage_run hr
  have hm : 0 < m := by
    rcases S.stop with ⟨-, s2, -⟩ | ⟨s1, -⟩
    · omega
    · omega
  have hjac : ∀ q l, driftFun.jac t y q l = 0 := by
    intro q l
    fin_cases q <;> fin_cases l <;> simp [driftFun, hy]
  have hY1 : ∀ (p : Fin sc.ns) (q : Fin 2), Ys 1 (finProdFinEquiv (p, q)) =
      h * ∑ j : Fin sc.ns, sc.a p j * driftFun.fn (t + sc.cn j * h) y q := by
    intro p q
    have h1 := C36_newton_equation hla hs S hm p q
    rw [constructR_real] at h1
    simp only [hjac, zero_mul, Finset.sum_const_zero, mul_zero, sub_zero, S.start, lit_real, Rat.cast_zero, zero_sub, neg_neg] at h1
    rw [S.upd 0 hm, S.start]
    simp only [lit_real, Rat.cast_zero, Rat.cast_one, one_mul, zero_add, h1]
    congr 1
    refine Finset.sum_congr rfl fun j _ => ?_
    congr 2
    funext l
    simp
  have e0 : ∀ p, Ys 1 (finProdFinEquiv (p, 0)) = h * ∑ j : Fin sc.ns, sc.a p j := by
    intro p; rw [hY1]; simp [driftFun]
  have e1 : ∀ p, Ys 1 (finProdFinEquiv (p, 1)) = h * ∑ j : Fin sc.ns, sc.a p j * (sc.cn j * h) ^ 2 := by
    intro p; rw [hY1]; simp [driftFun, hy]
  have hm1 : m = 1 := by
    by_contra hne
    refine S.early 0 (by omega) (Or.inl ?_)
    rw [ltb_real, dot_real]
    have hR0 : ∀ p, constructR driftFun.fn sc t h y (Ys 1) (finProdFinEquiv (p, 0)) = 0 := by
      intro p; rw [constructR_real, e0]; simp [driftFun]
    have hR1 : ∀ p, constructR driftFun.fn sc t h y (Ys 1) (finProdFinEquiv (p, 1)) =
        h ^ 3 * ∑ j : Fin sc.ns, sc.a p j * sc.cn j ^ 2 := by
      intro p
      rw [constructR_real, e1]
      have : ∀ j : Fin sc.ns, driftFun.fn (t + sc.cn j * h) (y + fun l => Ys 1 (finProdFinEquiv (j, l))) 1 = 0 := by
        intro j
        have := e0 j
        rw [hc j] at this
        simp [driftFun, hy, this]
        ring
      simp only [this, mul_zero, Finset.sum_const_zero, sub_zero]
      rw [Finset.mul_sum, Finset.mul_sum]
      refine Finset.sum_congr rfl fun j _ => by ring
    rw [← finProdFinEquiv.sum_comp, Fintype.sum_prod_type]
    simp only [Fin.sum_univ_two, zero_add, hR0, hR1, mul_zero]
    refine lt_of_eq_of_lt ?_ (hsmall.trans_eq (by ring))
    unfold driftConst
    rw [Finset.mul_sum]
    refine Finset.sum_congr rfl fun p _ => by ring
  subst hm1
  rw [S.final]
  exact ⟨e0 i, e1 i⟩

theorem implicit_order_three {m : ℤ} (hm : m ∈ ([210, 211, 230, 231, 232] : List ℤ)) :
    ∑ i : Fin (irkCoeffs m : SolverCoeffs ℝ).ns, (irkCoeffs m : SolverCoeffs ℝ).bw i = 1 ∧
    ∑ i : Fin (irkCoeffs m : SolverCoeffs ℝ).ns, (irkCoeffs m : SolverCoeffs ℝ).bw i * (irkCoeffs m : SolverCoeffs ℝ).cn i ^ 2 = 1 / 3 ∧
      ∀ i : Fin (irkCoeffs m : SolverCoeffs ℝ).ns, ∑ j : Fin (irkCoeffs m : SolverCoeffs ℝ).ns, (irkCoeffs m : SolverCoeffs ℝ).a i j =
        (irkCoeffs m : SolverCoeffs ℝ).cn i := by
  have key : ∃ p : ℕ, (irkCoeffs m : SolverCoeffs ℝ).order = some (p : ℤ) ∧ 3 ≤ p := by
    simp only [List.mem_cons, List.not_mem_nil, or_false] at hm
    rcases hm with rfl | rfl | rfl | rfl | rfl
    · exact ⟨3, by simp [irkCoeffs, radauIIA32], by norm_num⟩
    · exact ⟨5, by simp [irkCoeffs, radauIIA53], by norm_num⟩
    · exact ⟨4, by simp [irkCoeffs, lobattoIIIC43], by norm_num⟩
    · exact ⟨6, by simp [irkCoeffs, lobattoIIIC64], by norm_num⟩
    · exact ⟨8, by simp [irkCoeffs, lobattoIIIC85], by norm_num⟩
  obtain ⟨p, hp, h3⟩ := key
  obtain ⟨-, ho, hc⟩ := implicit_order hm hp
  refine ⟨?_, ?_, hc⟩
  · have := ho (.node []) (le_trans (by simp [RTree.order, RTree.orderList]) h3)
    simpa [RTree.weight, RTree.weightList, RTree.density, RTree.densityList, RTree.orderList] using this
  · have := ho (.node [.node [], .node []]) (le_trans (by simp [RTree.order, RTree.orderList]) h3)
    simp only [RTree.weight, RTree.weightList, mul_one, hc, RTree.density, RTree.densityList, RTree.orderList, RTree.order] at this
    norm_num at this
    rw [← this]
    refine Finset.sum_congr rfl fun j _ => by ring

/-- one accepted step -/
theorem drift_step (hla : la.Exact) (hs : la.Sound) (hc : ∀ i : Fin sc.ns, ∑ j : Fin sc.ns, sc.a i j = sc.cn i)
    (o1 : ∑ i : Fin sc.ns, sc.bw i = 1) (o3 : ∑ i : Fin sc.ns, sc.bw i * sc.cn i ^ 2 = 1 / 3)
    {Ai : Mat ℝ sc.ns} (hA : la.inv sc.mat = some Ai) {t h : ℝ}
    {y : Vec ℝ 2} (hy : y 0 = t) {maxit refresh : ℤ} {xtol Rtol : ℝ} {count : IrkCounters} {log : CallLog ℝ 2}
    {r : StageResult ℝ (sc.ns * 2) 2} (hr : newtonSolveStages nd la driftFun sc t h y maxit refresh xtol Rtol count log = .ret r)
    (hst : r.status = 0) (hsmall : h ^ 6 * driftConst sc < Rtol ^ 2) :
    combineI sc r.Y (dWeights Ai fun i => sc.bw i) 0 = h ∧ combineI sc r.Y (dWeights Ai fun i => sc.bw i) 1 = h ^ 3 / 3 := by
  have key := drift_stage hla hs hc hy hr hst hsmall
  have hsum : ∀ g : Fin sc.ns → ℝ, ∑ i : Fin sc.ns, (h * ∑ j : Fin sc.ns, sc.a i j * g j) * dWeights Ai (fun i => sc.bw i) i =
      h * ∑ j : Fin sc.ns, sc.bw j * g j := by
    intro g
    have : ∀ j : Fin sc.ns, sc.bw j * g j = ∑ i, dWeights Ai (fun i => sc.bw i) i * sc.a i j * g j := by
      intro j
      rw [← Finset.sum_mul, dWeights_A hla hA]
    simp only [this]
    rw [Finset.sum_comm, Finset.mul_sum]
    refine Finset.sum_congr rfl fun i _ => ?_
    rw [Finset.mul_sum, Finset.mul_sum, Finset.sum_mul]
    refine Finset.sum_congr rfl fun j _ => by ring
  constructor
  · rw [combineI_real]
    have := hsum fun _ => 1
    simp only [mul_one] at this
    rw [o1, mul_one] at this
    refine Eq.trans (Finset.sum_congr rfl fun i _ => ?_) this
    rw [(key i).1]
  · rw [combineI_real]
    have := hsum fun j => (sc.cn j * h) ^ 2
    have e : ∑ j : Fin sc.ns, sc.bw j * (sc.cn j * h) ^ 2 = h ^ 2 * (1 / 3) := by
      rw [← o3, Finset.mul_sum]
      refine Finset.sum_congr rfl fun j _ => by ring
    rw [e] at this
    rw [show h ^ 3 / 3 = h * (h ^ 2 * (1 / 3)) by ring]
    refine Eq.trans (Finset.sum_congr rfl fun i _ => ?_) this
    rw [(key i).2]

/-- errors that add up -/
theorem drift_sum (ts : ℕ → ℝ) (es : ℕ → ℝ) (k : ℕ) (h0 : es 0 = 0) (hmono : ∀ i < k, ts i < ts (i + 1))
    (h : ∀ i < k, es (i + 1) = es i + (ts (i + 1) - ts i) ^ 3 / 3) : (ts k - ts 0) ^ 3 / (3 * (k : ℝ) ^ 2) ≤ es k := by
  have e1 : ∀ i ≤ k, es i = ∑ j ∈ Finset.range i, (ts (j + 1) - ts j) ^ 3 / 3 := by
    intro i
    induction i with
    | zero => intro _; simpa using h0
    | succ i ih => intro hi; rw [h i (by omega), ih (by omega), Finset.sum_range_succ]
  rw [e1 k le_rfl, ← Finset.sum_div, ← Finset.sum_range_sub]
  rcases Nat.eq_zero_or_pos k with rfl | hk
  · simp
  have hk' : (0 : ℝ) < k := by exact_mod_cast hk
  have := Real.pow_arith_mean_le_arith_mean_pow (Finset.range k) (fun _ => 1 / (k : ℝ)) (fun j => ts (j + 1) - ts j)
    (fun _ _ => by positivity) (by rw [Finset.sum_const, Finset.card_range, nsmul_eq_mul]; field_simp)
    (fun j hj => by linarith [hmono j (Finset.mem_range.mp hj)]) 3
  rw [← Finset.mul_sum, ← Finset.mul_sum, mul_pow] at this
  set S := ∑ i ∈ Finset.range k, (ts (i + 1) - ts i)
  set T := ∑ i ∈ Finset.range k, (ts (i + 1) - ts i) ^ 3
  have h2 : S ^ 3 ≤ T * (k : ℝ) ^ 2 := by
    have := mul_le_mul_of_nonneg_right this (by positivity : 0 ≤ (k : ℝ) ^ 3)
    field_simp at this
    linarith
  rw [div_le_div_iff₀ (by positivity) (by norm_num)]
  linarith

end

/-- **C82, no higher order.**  The problem `y₀' = 1`, `y₁' = (y₀ - t)²` with its true Jacobi matrix, solution `(t, 0)`.  For every shipped
stiffly accurate method with exact coefficients (declared orders 3 to 8) and every `τ > 0` there is `h₁ > 0` such that every run with
Newton tolerance at least `τ` in absolute value and steps at most `h₁` makes an error of exactly `h³/3` in every step of length `h`;
the errors add up.  So a run with `k` steps has at `t1` an error of at least `(t1-t0)³/(3k²)`: second order in the step size, whatever
the declared order. -/
theorem C82_order_sharp {m : ℤ} (hm : m ∈ ([210, 211, 230, 231, 232] : List ℤ)) (t0 t1 τ : ℝ) (hτ : 0 < τ) :
    ∃ h1 : ℝ, 0 < h1 ∧ ∀ (nd : Bool) (la : LinAlg ℝ) (o : IrkOpts ℝ) (no : NewtonOpts ℝ) (oo : OutOpts) (dt : ℝ) (fuel : ℕ)
      (out : IrkOutput ℝ ((irkCoeffs m : SolverCoeffs ℝ).ns * 2) 2), la.Exact → la.Sound →
      irkOdeint nd la driftFun t0 t1 ![t0, 0] o oo m dt fuel = some (.ret out) → (nd = false ∨ (0 < dt ∧ t0 < t1)) →
      o.newtonOpts = some no → τ ≤ |no.tol| → 0 < o.maxDt → o.maxDt ≤ h1 → dt ≤ h1 → oo.storeInVectors = true → oo.interval.toNat = 1 →
      (∀ (i : ℕ) (t t' : ℝ) (y y' : Vec ℝ 2), out.tVals[i]? = some t → out.yVals[i]? = some y → out.tVals[i + 1]? = some t' →
        out.yVals[i + 1]? = some y' → t < t' ∧ y' = ![t', y 1 + (t' - t) ^ 3 / 3]) ∧
      (out.status = 0 → ∃ yEnd, out.yVals.getLast? = some yEnd ∧
        (t1 - t0) ^ 3 / (3 * ((out.tVals.length - 1 : ℕ) : ℝ) ^ 2) ≤ ‖yEnd - ![t1, 0]‖) := by
  set sc : SolverCoeffs ℝ := irkCoeffs m with hsc
  have hD : 0 ≤ driftConst sc := Finset.sum_nonneg fun _ _ => sq_nonneg _
  refine ⟨min 1 (τ ^ 2 / (driftConst sc + 1)), by positivity, ?_⟩
  intro nd la o no oo dt fuel out hla hs hrun hpos hno htol hmx hmxle hdtle hst hint
  have hsmall : ∀ h, 0 ≤ h → h ≤ min 1 (τ ^ 2 / (driftConst sc + 1)) → h ^ 6 * driftConst sc < no.tol ^ 2 := by
    intro h hh hle
    have h1 : h ≤ 1 := hle.trans (min_le_left _ _)
    have h2 : h * (driftConst sc + 1) ≤ τ ^ 2 := (le_div_iff₀ (by positivity)).mp (hle.trans (min_le_right _ _))
    have h3 : τ ^ 2 ≤ no.tol ^ 2 := by rw [← sq_abs no.tol]; exact pow_le_pow_left₀ hτ.le htol 2
    rcases hh.eq_or_lt with rfl | hpos
    · have : 0 < τ ^ 2 := by positivity
      norm_num; linarith
    · have h6 : h ^ 6 ≤ h := pow_le_of_le_one hh h1 (by norm_num)
      have : h ^ 6 * driftConst sc ≤ h * driftConst sc := mul_le_mul_of_nonneg_right h6 hD
      nlinarith
  obtain ⟨o', e1, e2, hg⟩ := irkOdeint_ret hrun
  obtain ⟨hc, h01⟩ := validI_of_ret hg hpos
  obtain ⟨o1, o3, hcc⟩ := implicit_order_three hm
  have hstep : ∀ (no' : NewtonOpts ℝ) (mo : ℕ) (Ai : Mat ℝ sc.ns) (s : IrkState ℝ (sc.ns * 2) 2) (r : StageResult ℝ (sc.ns * 2) 2)
      (a : AttemptI ℝ 2) (d2 : Vec ℝ sc.ns), o'.newtonOpts = some no' → la.inv sc.mat = some Ai →
      (TimeInvI t0 t1 s ∧ s.dt ≤ min 1 (τ ^ 2 / (driftConst sc + 1)) ∧ s.y 0 = s.t) → ltb s.t t1 = true →
      solveAt nd la driftFun t1 no' sc s = .ret r → r.status = 0 →
      attemptI la driftFun o' sc mo (dWeights Ai fun i => sc.bw i) d2 s (clipDt s.t t1 s.dt) r.success = some a →
      0 < a.dt ∧ a.yn 0 = s.t + a.dt ∧ a.yn 1 = s.y 1 + a.dt ^ 3 / 3 := by
    intro no' mo Ai s r a d2 h1 hA hJ hlt hr hst ha
    rw [e1, hno] at h1
    cases h1
    obtain ⟨q1, q2, -⟩ := attemptI_spec ha
    obtain ⟨c1, c2, c3⟩ := clip_factsI hJ.1 (by simpa using hlt)
    obtain ⟨k1, k2⟩ := drift_step (sc := sc) hla hs hcc o1 o3 hA hJ.2.2 hr hst (hsmall _ c1.le (c3.trans hJ.2.1))
    rw [q1, q2]
    refine ⟨c1, ?_, ?_⟩
    · show s.y 0 + combineI sc r.Y _ 0 = _
      rw [k1, hJ.2.2]
    · show s.y 1 + combineI sc r.Y _ 1 = _
      rw [k2]
  obtain ⟨no', mo, Ai, s, acc, -, -, -, -, -, -, hinv, hv, -⟩ := irk_accs (sc := sc) (fn := driftFun)
    (J := fun s => TimeInvI t0 t1 s ∧ s.dt ≤ min 1 (τ ^ 2 / (driftConst sc + 1)) ∧ s.y 0 = s.t)
    (Rel := fun a b => a.t < b.t ∧ b.y = ![b.t, a.y 1 + (b.t - a.t) ^ 3 / 3]) hg
    (fun no' _ _ => ⟨timeInvI_init h01.le hc _, by
      show clipDt t0 t1 dt ≤ _
      rw [clipDt_real]; exact (min_le_left _ _).trans hdtle, by simp [irkInit]⟩)
    (fun no' mo Ai s s' h1 _ hA hJ hb => by
      refine ⟨timeInvI_next hJ.1 hb, dt_le_next (by rw [e2]; exact hmx) (by rw [e2]; exact hmxle) hJ.1 hJ.2.1 hb, ?_⟩
      have hcase := bodyCaseI nd la driftFun t1 o' no' oo sc mo (dWeights Ai fun i => sc.bw i) (dWeights Ai fun i => sc.bw2 i) s
      rw [hb] at hcase
      cases hcase with
      | newton hl hm r hr hst had => exact hJ.2.2
      | rejected hl hm r hr hst had a ha hE hj => exact hJ.2.2
      | accepted hl hm r hr hst had a ha hE hj hi hw => exact (hstep no' mo Ai s r a _ h1 hA hJ hl hr hst ha).2.1)
    (fun no' mo Ai s r a l h1 _ hA hJ hlt _ hr hst _ ha _ _ e1 e2 => by
      obtain ⟨g1, g2, g3⟩ := hstep no' mo Ai s r a _ h1 hA hJ hlt hr hst ha
      refine ⟨by rw [e1]; show s.t < s.t + a.dt; linarith, ?_⟩
      show a.yn = ![s.t + a.dt, l.y 1 + (s.t + a.dt - l.t) ^ 3 / 3]
      rw [e1, e2, add_sub_cancel_left]
      funext k
      fin_cases k
      · exact g2
      · exact g3)
  have hstored : storedI oo acc = acc := by
    unfold storedI; rw [if_pos hst, hint, everyNth_one]
  have ht := hv.cols.t
  have hy := hv.cols.y
  rw [hstored] at ht hy
  have hchain := List.isChain_iff_getElem.mp hinv.chain
  refine ⟨?_, ?_⟩
  · intro i t t' y y' a1 a2 a3 a4
    rw [ht, List.getElem?_map, Option.map_eq_some_iff] at a1 a3
    rw [hy, List.getElem?_map, Option.map_eq_some_iff] at a2 a4
    obtain ⟨a, ha, rfl⟩ := a1
    obtain ⟨b, hb, rfl⟩ := a3
    obtain ⟨a', ha', rfl⟩ := a2
    obtain ⟨b', hb', rfl⟩ := a4
    rw [ha] at ha'; cases ha'
    rw [hb] at hb'; cases hb'
    obtain ⟨hi, rfl⟩ := List.getElem?_eq_some_iff.mp ha
    obtain ⟨hi', rfl⟩ := List.getElem?_eq_some_iff.mp hb
    exact hchain i hi'
  · intro h0
    obtain ⟨-, -, -, hlast⟩ := C38_times hg hpos
    have hlast := hlast h0 hst hint
    have hne : acc ≠ [] := by
      intro h; rw [ht, h] at hlast; cases hlast
    obtain ⟨x, l, rfl⟩ := List.exists_cons_of_ne_nil hne
    have hhead := hinv.head
    simp only [List.head?_cons, Option.some.injEq] at hhead
    have hlen : out.tVals.length - 1 = l.length := by rw [ht]; simp
    have hget : ∀ i < (x :: l).length, (x :: l)[i]? = some ((x :: l).getD i x) := by
      intro i hi
      rw [List.getD_eq_getElem _ _ hi, List.getElem?_eq_getElem hi]
    have hch : ∀ i < l.length, ((x :: l).getD i x).t < ((x :: l).getD (i + 1) x).t ∧
        ((x :: l).getD (i + 1) x).y = ![((x :: l).getD (i + 1) x).t,
          ((x :: l).getD i x).y 1 + (((x :: l).getD (i + 1) x).t - ((x :: l).getD i x).t) ^ 3 / 3] := by
      intro i hi
      rw [List.getD_eq_getElem _ _ (show i < (x :: l).length by simp; omega),
        List.getD_eq_getElem _ _ (show i + 1 < (x :: l).length by simpa using hi)]
      exact hchain i (by simpa using hi)
    have hsum := drift_sum (fun i => ((x :: l).getD i x).t) (fun i => ((x :: l).getD i x).y 1) l.length
      (by simp [hhead, firstI]) (fun i hi => (hch i hi).1) (fun i hi => by
        have := congrFun (hch i hi).2 1
        simpa using this)
    have hlt : ((x :: l).getD l.length x).t = t1 := by
      rw [ht, List.getLast?_eq_getElem?, List.getElem?_map] at hlast
      simp only [List.length_map, List.length_cons, Nat.add_sub_cancel] at hlast
      rw [hget _ (by simp)] at hlast
      simpa using hlast
    refine ⟨((x :: l).getD l.length x).y, ?_, ?_⟩
    · rw [hy, List.getLast?_eq_getElem?, List.getElem?_map]
      simp only [List.length_map, List.length_cons, Nat.add_sub_cancel]
      rw [hget _ (by simp)]
      rfl
    · rw [hlen]
      have hx : x.t = t0 := by rw [hhead]; rfl
      simp only [hlt, List.getD_cons_zero, hx] at hsum
      refine hsum.trans ?_
      have := norm_le_pi_norm (((x :: l).getD l.length x).y - ![t1, 0]) 1
      rw [Real.norm_eq_abs] at this
      refine le_trans (le_abs_self _) (le_trans (le_of_eq ?_) this)
      simp

end Verif
