import Verif.IrkLemmas
import Verif.ErkReal
import Verif.NewtonReal
import Verif.LUExists

/-!
# The implicit integrator in exact arithmetic: helper lemmas
-/

set_option linter.unusedSectionVars false

namespace Verif
open Spec

variable {n : ℕ}

/-! ### step size -/

/-- the unclipped proposal -/
noncomputable def proposal (mo : ℕ) (dt err errs0 errs1 dts0 dts1 : ℝ) (maxit : ℤ) (iters : ℕ) : ℝ :=
  9 / 10 * ((maxit : ℝ) + 1) / ((maxit : ℝ) + iters) * dt *
    min 8 (min ((1 / err) ^ ((1 : ℝ) / (1 + mo)))
      ((1 / err) ^ ((1 : ℝ) / (1 + mo)) * (dts0 / dts1) * (errs1 / errs0) ^ ((1 : ℝ) / (1 + mo))))

theorem newDtI_real (o : IrkOpts ℝ) (mo : ℕ) {dt err errs0 errs1 dts0 dts1 : ℝ} {maxit : ℤ} {iters : ℕ}
    (h0 : 0 < errs0) (h1 : 0 < errs1) :
    newDtI o mo dt err errs0 errs1 dts0 dts1 maxit iters =
      if 0 < o.maxDt then min o.maxDt (proposal mo dt err errs0 errs1 dts0 dts1 maxit iters)
      else proposal mo dt err errs0 errs1 dts0 dts1 maxit iters := by
  unfold newDtI proposal
  have e0 : ¬ (eqb errs1 (lit 0) || eqb errs0 (lit 0)) = true := by
    simp [h0.ne', h1.ne']
  rw [if_neg e0]
  simp only [cmin_real, spow_real, lit_real, ltb_real,
    Rat.cast_one, Rat.cast_natCast, Rat.cast_zero, Rat.cast_ofNat, Rat.cast_intCast, Int.cast_add, Int.cast_natCast]
  norm_num

theorem proposal_facts (mo : ℕ) {dt err errs0 errs1 dts0 dts1 : ℝ} {maxit : ℤ} {iters : ℕ}
    (hdt : 0 < dt) (he : 0 < err) (h0 : 0 < errs0) (h1 : 0 < errs1) (hd0 : 0 < dts0) (hd1 : 0 < dts1)
    (hm : 0 < maxit) (hi : 1 ≤ iters) :
    0 < proposal mo dt err errs0 errs1 dts0 dts1 maxit iters ∧
    proposal mo dt err errs0 errs1 dts0 dts1 maxit iters ≤ 36 / 5 * dt ∧
    (1 ≤ err → proposal mo dt err errs0 errs1 dts0 dts1 maxit iters ≤ 9 / 10 * dt) := by
  have hM : (0 : ℝ) < maxit := by exact_mod_cast hm
  have hI : (1 : ℝ) ≤ iters := by exact_mod_cast hi
  have a1 : 0 < (1 / err) ^ ((1 : ℝ) / (1 + mo)) := Real.rpow_pos_of_pos (by positivity) _
  have a2 : 0 < (errs1 / errs0) ^ ((1 : ℝ) / (1 + mo)) := Real.rpow_pos_of_pos (by positivity) _
  have hfac0 : 0 < 9 / 10 * ((maxit : ℝ) + 1) / ((maxit : ℝ) + iters) := by positivity
  have hfac1 : 9 / 10 * ((maxit : ℝ) + 1) / ((maxit : ℝ) + iters) ≤ 9 / 10 := by
    rw [div_le_iff₀ (by linarith)]; nlinarith
  unfold proposal
  set s27 := (1 / err) ^ ((1 : ℝ) / (1 + mo))
  set s28 := s27 * (dts0 / dts1) * (errs1 / errs0) ^ ((1 : ℝ) / (1 + mo))
  have a3 : 0 < s28 := by positivity
  set fac := 9 / 10 * ((maxit : ℝ) + 1) / ((maxit : ℝ) + iters)
  have hmin : 0 < min 8 (min s27 s28) := lt_min (by norm_num) (lt_min a1 a3)
  refine ⟨by positivity, ?_, ?_⟩
  · have b1 : min 8 (min s27 s28) ≤ 8 := min_le_left _ _
    calc fac * dt * min 8 (min s27 s28) ≤ (9 / 10 * dt) * 8 := by
          apply mul_le_mul (mul_le_mul_of_nonneg_right hfac1 hdt.le) b1 hmin.le; positivity
      _ = 36 / 5 * dt := by ring
  · intro h
    have c1 : s27 ≤ 1 := by
      apply Real.rpow_le_one
      · positivity
      · rw [div_le_one (by linarith)]; exact h
      · positivity
    have b1 : min 8 (min s27 s28) ≤ 1 := (min_le_right _ _).trans ((min_le_left _ _).trans c1)
    calc fac * dt * min 8 (min s27 s28) ≤ (9 / 10 * dt) * 1 := by
          apply mul_le_mul (mul_le_mul_of_nonneg_right hfac1 hdt.le) b1 hmin.le; positivity
      _ = 9 / 10 * dt := by ring

/-! ### time invariant -/

structure TimeInvI {m : ℕ} (t0 t1 : ℝ) (s : IrkState ℝ m n) : Prop where
  lo : t0 ≤ s.t
  hi : s.t ≤ t1
  dt : 0 < s.dt
  dts0 : 0 < s.dts0
  dts1 : 0 < s.dts1
  errs0 : 0 < s.errs0
  errs1 : 0 < s.errs1

variable {nd : Bool} {la : LinAlg ℝ} {fn : OdeFun ℝ n} {t0 t1 : ℝ} {y0 : Vec ℝ n} {o : IrkOpts ℝ}
  {no : NewtonOpts ℝ} {dt : ℝ} {sc : SolverCoeffs ℝ} {oo : OutOpts} {mo : ℕ} {d d2 : Vec ℝ sc.ns}

theorem clip_factsI {m : ℕ} {s : IrkState ℝ m n} (h : TimeInvI t0 t1 s) (hlt : s.t < t1) :
    0 < clipDt s.t t1 s.dt ∧ s.t + clipDt s.t t1 s.dt ≤ t1 ∧ clipDt s.t t1 s.dt ≤ s.dt := by
  rw [clipDt_real]
  refine ⟨lt_min h.dt (by linarith), ?_, min_le_left _ _⟩
  have := min_le_right s.dt (t1 - s.t)
  linarith

/-- a successful stage solve made at least one pass, fewer than `maxit` -/
theorem success_iters {F : Type} [Add F] [Sub F] [Mul F] [Div F] [Neg F] [Scalar F] {n : ℕ} {nd : Bool}
    {la : LinAlg F} {fn : OdeFun F n} {sc : SolverCoeffs F} {t dt : F} {y : Vec F n} {maxit refresh : ℤ} {xtol Rtol : F}
    {count : IrkCounters} {log : CallLog F n} {r : StageResult F (sc.ns * n) n}
    (h : newtonSolveStages nd la fn sc t dt y maxit refresh xtol Rtol count log = .ret r) (hs : r.status = 0) :
    1 ≤ r.iters ∧ (r.iters : ℤ) < maxit := by
  obtain ⟨-, m, Ys, dYs, H⟩ := stage_run h
  rcases H.stop with ⟨-, h2, h3, -, h5, -⟩ | ⟨h1, -⟩
  · omega
  · omega

theorem attemptI_facts {s : IrkState ℝ (sc.ns * n) n} (h : TimeInvI t0 t1 s) (hlt : s.t < t1)
    {r : StageResult ℝ (sc.ns * n) n} (hr : solveAt nd la fn t1 no sc s = .ret r) (hs : r.status = 0)
    {a : AttemptI ℝ n} (ha : attemptI la fn o sc mo d d2 s (clipDt s.t t1 s.dt) r.success = some a) :
    0 < a.newDt ∧ 0 < a.err ∧ a.newDt ≤ 36 / 5 * clipDt s.t t1 s.dt ∧ (0 < o.maxDt → a.newDt ≤ o.maxDt) ∧
      (a.reject = true → a.newDt ≤ 9 / 10 * clipDt s.t t1 s.dt) := by
  obtain ⟨e1, e2, e3, e4, e5, e6⟩ := attemptI_spec ha
  have hit := success_iters hr hs
  have he : 0 < a.err := by rw [e4]; exact errNorm_pos _ _
  obtain ⟨p1, p2, p3⟩ := proposal_facts mo (iters := r.iters) (maxit := s.newtonMaxit) (clip_factsI h hlt).1 he he
    h.errs0 h.dts0 h.dts1 (by omega) hit.1
  have e6' : a.newDt = if 0 < o.maxDt then min o.maxDt (proposal mo (clipDt s.t t1 s.dt) a.err a.err s.errs0 s.dts0
      s.dts1 s.newtonMaxit r.iters) else proposal mo (clipDt s.t t1 s.dt) a.err a.err s.errs0 s.dts0
      s.dts1 s.newtonMaxit r.iters := by
    rw [e6, newDtI_real _ _ he h.errs0]; rfl
  refine ⟨?_, he, ?_, ?_, ?_⟩
  · rw [e6']; split_ifs with hm
    · exact lt_min hm p1
    · exact p1
  · rw [e6']; split_ifs with hm
    · exact (min_le_right _ _).trans p2
    · exact p2
  · intro hm; rw [e6', if_pos hm]; exact min_le_left _ _
  · intro hj
    rw [e5] at hj
    have h1 : (1 : ℝ) ≤ a.err := by
      have : (1 : ℝ) < a.err := by simpa using hj
      exact this.le
    rw [e6']; split_ifs with hm
    · exact (min_le_right _ _).trans (p3 h1)
    · exact p3 h1

theorem timeInvI_next {s s' : IrkState ℝ (sc.ns * n) n} (h : TimeInvI t0 t1 s)
    (hb : irkBody nd la fn t1 o no oo sc mo d d2 s = .next s') : TimeInvI t0 t1 s' := by
  have hc := bodyCaseI nd la fn t1 o no oo sc mo d d2 s
  rw [hb] at hc
  cases hc with
  | newton hl hm r hr hs had =>
    have hl' : s.t < t1 := by simpa using hl
    obtain ⟨c1, c2, c3⟩ := clip_factsI h hl'
    refine ⟨h.lo, h.hi, ?_, h.dts0, h.dts1, h.errs0, h.errs1⟩
    simp only [newtonReject, lit_real]
    have : (0 : ℝ) < ((7 / 10 : ℚ) : ℝ) := by norm_num
    positivity
  | rejected hl hm r hr hs had a ha hE hj =>
    have hl' : s.t < t1 := by simpa using hl
    obtain ⟨f1, f2, -⟩ := attemptI_facts h hl' hr hs ha
    exact ⟨h.lo, h.hi, f1, f1, h.dts0, f2, h.errs0⟩
  | accepted hl hm r hr hs had a ha hE hj hi hw =>
    have hl' : s.t < t1 := by simpa using hl
    obtain ⟨c1, c2, c3⟩ := clip_factsI h hl'
    obtain ⟨f1, f2, -⟩ := attemptI_facts h hl' hr hs ha
    obtain ⟨e1, -⟩ := attemptI_spec ha
    refine ⟨?_, ?_, f1, f1, h.dts0, f2, h.errs0⟩
    · change t0 ≤ s.t + a.dt
      rw [e1]; linarith [h.lo]
    · change s.t + a.dt ≤ t1
      rw [e1]; exact c2

theorem timeInvI_init {m : ℕ} (h01 : t0 ≤ t1) (hdt : 0 < dt) (mx : ℤ) :
    TimeInvI t0 t1 (irkInit m t0 y0 dt mx) := by
  refine ⟨le_refl _, h01, hdt, hdt, hdt, ?_, ?_⟩ <;> (simp only [irkInit, lit_real]; norm_num)

/-! ### stage algebra -/

theorem sum_stage {m : ℕ} (g : Fin (m * n) → ℝ) : ∑ q, g q = ∑ j, ∑ l, g (finProdFinEquiv (j, l)) := by
  rw [← finProdFinEquiv.sum_comp, Fintype.sum_prod_type]

@[simp] theorem divNat_stage {m : ℕ} (i : Fin m) (k : Fin n) : (finProdFinEquiv (i, k)).divNat = i := by
  have := finProdFinEquiv.symm_apply_apply (i, k)
  rw [finProdFinEquiv_symm_apply] at this
  exact congrArg Prod.fst this

@[simp] theorem modNat_stage {m : ℕ} (i : Fin m) (k : Fin n) : (finProdFinEquiv (i, k)).modNat = k := by
  have := finProdFinEquiv.symm_apply_apply (i, k)
  rw [finProdFinEquiv_symm_apply] at this
  exact congrArg Prod.snd this

/-- `dt*kron(A,B)` applied to a stage vector -/
theorem kron_mulVec {m : ℕ} (A : Mat ℝ m) (B : Mat ℝ n) (h : ℝ) (v : Vec ℝ (m * n)) (i : Fin m) (k : Fin n) :
    mulVec (fun p q => h * kron A B p q) v (finProdFinEquiv (i, k)) =
      h * ∑ j, A i j * ∑ l, B k l * v (finProdFinEquiv (j, l)) := by
  rw [mulVec_real]
  simp only [Matrix.mulVec, dotProduct, Matrix.of_apply, kron]
  rw [sum_stage, Finset.mul_sum]
  refine Finset.sum_congr rfl fun j _ => ?_
  rw [Finset.mul_sum, Finset.mul_sum]
  refine Finset.sum_congr rfl fun l _ => ?_
  simp only [divNat_stage, modNat_stage]
  ring

theorem eye_real (n : ℕ) : (eye n : Mat ℝ n) = fun i j => (1 : Matrix (Fin n) (Fin n) ℝ) i j := by
  funext i j
  simp [eye, Matrix.one_apply]

/-- the residual by components -/
theorem constructR_real (f : ℝ → Vec ℝ n → Vec ℝ n) (sc : SolverCoeffs ℝ) (t dt : ℝ) (y : Vec ℝ n)
    (Y : Vec ℝ (sc.ns * n)) (i : Fin sc.ns) (k : Fin n) :
    constructR f sc t dt y Y (finProdFinEquiv (i, k)) =
      Y (finProdFinEquiv (i, k)) - dt * ∑ j : Fin sc.ns, sc.a i j *
        f (t + sc.cn j * dt) (y + fun l => Y (finProdFinEquiv (j, l))) k := by
  unfold constructR
  rw [kron_mulVec]
  congr 2
  refine Finset.sum_congr rfl fun j _ => ?_
  simp only [eye_real, Matrix.one_apply, ite_mul, one_mul, zero_mul, Finset.sum_ite_eq, Finset.mem_univ, if_true,
    SolverCoeffs.mat, stageFuns, stageArgI, divNat_stage, modNat_stage]
  rfl

theorem combineI_real (sc : SolverCoeffs ℝ) (Y : Vec ℝ (sc.ns * n)) (w : Vec ℝ sc.ns) (k : Fin n) :
    combineI sc Y w k = ∑ i, Y (finProdFinEquiv (i, k)) * w i := by
  unfold combineI stageOf
  rw [sumFin_real]

theorem dWeights_real {m : ℕ} (Ai : Mat ℝ m) (w : Vec ℝ m) (i : Fin m) : dWeights Ai w i = ∑ j, Ai j i * w j := by
  unfold dWeights
  rw [mulVec_real]
  simp [Matrix.mulVec, dotProduct]

/-- `inv(A)^T b` applied to the rows of `A` gives back `b` -/
theorem dWeights_A (hla : la.Exact) {Ai : Mat ℝ sc.ns} (hA : la.inv sc.mat = some Ai) (w : Vec ℝ sc.ns) (j : Fin sc.ns) :
    ∑ i, dWeights Ai w i * sc.a i j = w j := by
  have hu : IsUnit (Matrix.of sc.mat).det := by
    by_contra hc
    rw [hla.inv_none _ hc] at hA; cases hA
  rw [hla.inv _ hu, Option.some.injEq] at hA
  have hm : (Matrix.of sc.mat)⁻¹ * Matrix.of sc.mat = 1 := Matrix.nonsing_inv_mul _ hu
  calc ∑ i, dWeights Ai w i * sc.a i j = ∑ i, ∑ l, w l * ((Matrix.of sc.mat)⁻¹ l i * sc.a i j) := by
        refine Finset.sum_congr rfl fun i _ => ?_
        rw [dWeights_real, Finset.sum_mul, ← hA]
        refine Finset.sum_congr rfl fun l _ => by ring
    _ = ∑ l, w l * ((Matrix.of sc.mat)⁻¹ * Matrix.of sc.mat) l j := by
        rw [Finset.sum_comm]
        refine Finset.sum_congr rfl fun l _ => ?_
        rw [Matrix.mul_apply, Finset.mul_sum]
        rfl
    _ = w j := by rw [hm]; simp [Matrix.one_apply]

/-- the update in terms of the right-hand side and the residual -/
theorem combine_update (hla : la.Exact) {Ai : Mat ℝ sc.ns} (hA : la.inv sc.mat = some Ai) (w : Vec ℝ sc.ns)
    (f : ℝ → Vec ℝ n → Vec ℝ n) (t dt : ℝ) (y : Vec ℝ n) (Y : Vec ℝ (sc.ns * n)) (k : Fin n) :
    combineI sc Y (dWeights Ai w) k =
      dt * ∑ j : Fin sc.ns, w j * f (t + sc.cn j * dt) (y + fun l => Y (finProdFinEquiv (j, l))) k +
      ∑ i : Fin sc.ns, dWeights Ai w i * constructR f sc t dt y Y (finProdFinEquiv (i, k)) := by
  rw [combineI_real]
  simp only [constructR_real]
  have key : ∑ i : Fin sc.ns, dWeights Ai w i * (dt * ∑ j : Fin sc.ns, sc.a i j *
      f (t + sc.cn j * dt) (y + fun l => Y (finProdFinEquiv (j, l))) k) =
      dt * ∑ j : Fin sc.ns, w j * f (t + sc.cn j * dt) (y + fun l => Y (finProdFinEquiv (j, l))) k := by
    rw [Finset.mul_sum]
    simp only [Finset.mul_sum]
    rw [Finset.sum_comm]
    refine Finset.sum_congr rfl fun j _ => ?_
    rw [← dWeights_A hla hA w j, Finset.sum_mul, Finset.mul_sum]
    refine Finset.sum_congr rfl fun i _ => by ring
  simp only [mul_sub, Finset.sum_sub_distrib]
  rw [key]
  simp only [mul_comm (dWeights Ai w _)]
  ring

end Verif
