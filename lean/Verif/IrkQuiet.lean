import Verif.ErkQuiet
import Verif.Prop.IrkStiff

/-!
# Adaptive implicit runs that see a right-hand side only where it vanishes
-/

namespace Verif
open Spec Set

variable {n : ℕ} {sc : SolverCoeffs ℝ}

/-- a right-hand side that depends on time only, with its Jacobi matrix -/
def timeFun (g : ℝ → Vec ℝ n) : OdeFun ℝ n := ⟨fun t _ => g t, fun _ _ _ _ => 0⟩

theorem timeFun_regular (g : ℝ → Vec ℝ n) (t : ℝ) (y : Vec ℝ n) (h : ℝ) : RegularAt (timeFun g) sc t y h := by
  constructor
  · have : Matrix.of (stageJac sc h ((timeFun g).jac t y)) = 1 := by
      ext a b
      simp [stageJac, eye_real, timeFun, kron]
    rw [this, Matrix.det_one]
    exact isUnit_one
  · have : (Matrix.of fun i j => eye n i j - sc.gamma * h * (timeFun g).jac t y i j) = 1 := by
      ext a b
      simp [eye_real, timeFun]
    rw [this, Matrix.det_one]
    exact isUnit_one

/-- adaptive implicit runs for such a right-hand side return SUCCESS -/
theorem timeFun_completes {m : ℤ} (hm : m ∈ irkUsable) {g : ℝ → Vec ℝ n} (hg : TimeBounded g) (hn : 0 < n)
    {t0 t1 dt : ℝ} {y0 : Vec ℝ n} {o : IrkOpts ℝ} {no : NewtonOpts ℝ} {oo : OutOpts}
    (ht : t0 < t1) (hdt : 0 < dt) (had : o.adaptive = true) (hms : o.maxSteps < 0)
    (hno : o.newtonOpts = some no) (hmax : 2 ≤ no.maxit) (htol : no.tol ≠ 0) (hr : no.refreshJac ≠ 0)
    (hat : 0 < o.absTol) (hrt : 0 ≤ o.relTol) (hi : oo.interval.toNat ≠ 0)
    (hw : oo.writeToFile = true → oo.streamSet = true) :
    ∃ fuel out, irkOdeint false laReal (timeFun g) t0 t1 y0 o oo m dt fuel = some (.ret out) ∧
      irkGuts false laReal (timeFun g) t0 t1 y0 o dt (irkCoeffs m) oo fuel = some (.ret out) ∧ out.status = 0 ∧
      out.tVals.head? = some t0 ∧ out.yVals.head? = some y0 ∧
      (oo.storeInVectors = true → oo.interval.toNat = 1 → out.tVals.getLast? = some t1) := by
  have hmo : ∀ mo, minOrder (irkCoeffs m : SolverCoeffs ℝ) = some mo → (machinePrecision : ℝ) < (9 / 10) ^ (1 + mo) := by
    intro mo h
    have hle : mo ≤ 13 := by
      simp only [irkUsable, List.mem_cons, List.not_mem_nil, or_false] at hm
      rcases hm with rfl | rfl | rfl | rfl | rfl | rfl | rfl <;>
        simp [irkCoeffs, minOrder, radauIIA32, radauIIA53, radauIIA95, radauIIA137, lobattoIIIC43, lobattoIIIC64, lobattoIIIC85] at h <;> omega
    have h1 : ((9 / 10 : ℝ)) ^ (14 : ℕ) ≤ (9 / 10) ^ (1 + mo) := pow_le_pow_of_le_one (by norm_num) (by norm_num) (by omega)
    refine lt_of_lt_of_le ?_ h1
    simp only [machinePrecision, lit_real]
    norm_num
  obtain ⟨fuel, r, h⟩ := C67_affine (nd := false) (la := laReal) (fn := timeFun g) (t0 := t0) (t1 := t1) (y0 := y0) (dt := dt)
    (o := o) (oo := oo) (sc := irkCoeffs m) laReal_exact laReal_sound (Or.inl rfl) hno hmax htol hat hrt
    hmo (J := 0) (g := g) (fun t y => by simp [timeFun]) (fun _ _ _ _ => rfl) hg
  have hv : irkVerify (irkCoeffs m : SolverCoeffs ℝ) = true :=
    (C08_irk m).mpr (by
      have : ∀ m ∈ irkUsable,
        m ∈ ([200, 210, 211, 212, 213, 220, 222, 230, 231, 232, 240, 243] : List ℤ) := by decide
      exact this m hm)
  have hb : 0 < (irkCoeffs m : SolverCoeffs ℝ).b2.length := by
    have hI : m ∈ irkImplemented := by
      have : ∀ m ∈ irkUsable, m ∈ irkImplemented := by decide
      exact this m hm
    rw [(usable_shipped (m := m) hm).b2]
    exact ((img_shipped hI).shape (baseOK_shipped m hI)).2.2.2.1
  have he : irkOdeint false laReal (timeFun g) t0 t1 y0 o oo m dt fuel =
      irkGuts false laReal (timeFun g) t0 t1 y0 o dt (irkCoeffs m) oo fuel := by
    unfold irkOdeint
    have : ((if (o.adaptive && (irkCoeffs m : SolverCoeffs ℝ).b2.length == 0) = true then
        { o with adaptive := false } else o) : IrkOpts ℝ) = o := by
      rw [if_neg]; simp; intro _ h; rw [h] at hb; simp at hb
    simp only [hv, Bool.not_true, Bool.and_false, Bool.false_eq_true, if_false, this]
  have hfine := C43_adaptive_partial (fn := timeFun g) (t0 := t0) (t1 := t1) (y0 := y0) (dt := dt) (o := o) (oo := oo) hm hno had
    hn hr hi hw ht hdt (fun t y h _ => timeFun_regular g t y h) fuel
  rw [he] at hfine
  rcases hfine with hN | ⟨out, hret⟩
  · rw [hN] at h; cases h
  · have h0 := adaptive_status had hms hret
    obtain ⟨-, -, -, hlast⟩ := C38_times hret (Or.inl rfl)
    obtain ⟨-, -, -, -, f1, f2⟩ := C38_lengths hret
    exact ⟨fuel, out, by rw [he]; exact hret, hret, h0, f1, f2, hlast h0⟩

/-- Newton's method ends after one pass with zero stages if the right-hand side vanishes at the nodes -/
theorem quiet_solve {g : ℝ → Vec ℝ n} {t h : ℝ} {y : Vec ℝ n} {maxit refresh : ℤ} {xtol Rtol : ℝ} {count : IrkCounters}
    {log : CallLog ℝ n} {r : StageResult ℝ (sc.ns * n) n} (hm : 1 < maxit) (hR : Rtol ≠ 0)
    (hg : ∀ i : Fin sc.ns, g (t + sc.cn i * h) = 0)
    (hr : newtonSolveStages false laReal (timeFun g) sc t h y maxit refresh xtol Rtol count log = .ret r) :
    r.status = 0 ∧ r.iters = 1 ∧ r.J = (fun _ _ => 0) ∧ ∀ i k, r.Y (finProdFinEquiv (i, k)) = 0 := by
  obtain ⟨-, m, Ys, dYs, H⟩ := stage_run hr
  have hm1 : 0 < m := by
    rcases H.stop with h | h
    · exact h.2.1
    · have := h.2.1; omega
  have h1 : ∀ i k, Ys 1 (finProdFinEquiv (i, k)) = 0 := by
    intro i k
    have e := C36_newton_equation laReal_exact laReal_sound H hm1 i k
    rw [constructR_real, H.start] at e
    rw [H.upd 0 hm1, H.start]
    simp only [timeFun, hg, Pi.zero_apply, lit_real, Rat.cast_zero, Rat.cast_one, zero_mul, mul_zero, Finset.sum_const_zero, sub_zero,
      neg_zero, zero_add, one_mul] at e ⊢
    exact e
  have hconv : Converged (timeFun g).fn sc t h y xtol Rtol (Ys 1) (dYs 0) := by
    left
    have : dot (constructR (timeFun g).fn sc t h y (Ys 1)) (constructR (timeFun g).fn sc t h y (Ys 1)) = 0 := by
      rw [dot_stage]
      refine Finset.sum_eq_zero fun i _ => Finset.sum_eq_zero fun k _ => ?_
      rw [constructR_real, h1]
      simp [timeFun, hg]
    rw [ltb_real, this]
    exact mul_self_pos.2 hR
  have hmeq : m = 1 := by
    by_contra hne
    exact H.early 0 (by omega) hconv
  rcases H.stop with h | ⟨-, -, -, h⟩
  · refine ⟨h.1, ?_, H.jac, fun i k => by rw [H.final, hmeq, h1]⟩
    have := h.2.2.2.2.1
    omega
  · exact absurd hconv (h 0 hm1)

/-- then the step leaves the value alone and the error estimate is zero -/
theorem quiet_attemptI {g : ℝ → Vec ℝ n} {o : IrkOpts ℝ} {mo : ℕ} {d d2 : Vec ℝ sc.ns} {m : ℕ} {s : IrkState ℝ m n} {h : ℝ}
    {r : StageResult ℝ (sc.ns * n) n} (hg : g s.t = 0) (hJ : r.J = fun _ _ => 0) (hY : ∀ i k, r.Y (finProdFinEquiv (i, k)) = 0)
    {a : AttemptI ℝ n} (ha : attemptI laReal (timeFun g) o sc mo d d2 s h r = some a) :
    a.dt = h ∧ a.yn = s.y ∧ a.err = machinePrecision ∧ a.reject = false ∧
      a.newDt = newDtI o mo h machinePrecision machinePrecision s.errs0 s.dts0 s.dts1 s.newtonMaxit r.iters := by
  have hcomb : ∀ (w : Vec ℝ sc.ns) k, combineI sc r.Y w k = 0 := by
    intro w k
    unfold combineI
    rw [sumFin_real]
    exact Finset.sum_eq_zero fun i _ => by simp only [stageOf, hY, zero_mul]
  have hone : (Matrix.of fun i j => eye n i j - sc.gamma * h * r.J i j) = (1 : Matrix (Fin n) (Fin n) ℝ) := by
    ext p q
    simp [eye_real, hJ]
  have hu : IsUnit (Matrix.of fun i j => eye n i j - sc.gamma * h * r.J i j).det := by
    rw [hone, Matrix.det_one]; exact isUnit_one
  obtain ⟨e1, e2, e3, e4, e5, e6⟩ := attemptI_spec ha
  have hee : a.errEst = 0 := by
    funext k
    unfold attemptI at ha
    simp only at ha
    rw [laReal_exact.solve _ _ hu] at ha
    simp only at ha
    by_cases halt : s.alt = true
    · rw [if_pos halt, laReal_exact.solve _ _ hu, hone] at ha
      simp only [inv_one, Matrix.one_mulVec, Option.some.injEq] at ha
      rw [← ha]
      simp only [hcomb, timeFun, hg, Pi.zero_apply]
      ring
    · rw [if_neg halt, hone] at ha
      simp only [inv_one, Matrix.one_mulVec, Option.some.injEq] at ha
      rw [← ha]
      simp only [hcomb, timeFun, hg, Pi.zero_apply]
      ring
  have het : a.errTot = 0 := by
    rw [e3, errTot_real, hee]
    simp
  have her : a.err = machinePrecision := by
    rw [e4, het, errNorm_real, zero_div, Real.sqrt_zero, max_eq_right mp_pos.le]
  refine ⟨e1, ?_, her, ?_, ?_⟩
  · rw [e2]; funext k; simp only [hcomb, add_zero]
  · rw [e5, her]
    have := mp_lt_one
    have h' : ¬ ((1 : ℝ) < machinePrecision) := not_lt.mpr this.le
    simpa [lit_real, ltb_real] using this.le
  · rw [e6, her]

/-- times, proposed steps and the controller's memory in a run all of whose error estimates vanish -/
structure QuietMem where
  t : ℝ
  dt : ℝ
  dts0 : ℝ
  dts1 : ℝ
  errs0 : ℝ

noncomputable def quietI (maxDt : ℝ) (maxit : ℤ) (mo : ℕ) (t0 t1 d : ℝ) : ℕ → QuietMem
  | 0 => ⟨t0, d, d, d, 9 / 10⟩
  | k + 1 =>
    let q := quietI maxDt maxit mo t0 t1 d k
    let nd := newDtI (⟨true, 0, 0, maxDt, -1, none⟩ : IrkOpts ℝ) mo (clipDt q.t t1 q.dt) machinePrecision machinePrecision q.errs0 q.dts0 q.dts1
      maxit 1
    ⟨q.t + clipDt q.t t1 q.dt, nd, nd, q.dts0, machinePrecision⟩

/-- the times at which the first `K` steps of such a run evaluate the right-hand side -/
noncomputable def quietNodesI (maxDt : ℝ) (maxit : ℤ) (mo : ℕ) (t0 t1 d : ℝ) (sc : SolverCoeffs ℝ) (K : ℕ) : Finset ℝ :=
  (Finset.range K ×ˢ Finset.range sc.ns).image (fun p =>
    (quietI maxDt maxit mo t0 t1 d p.1).t +
      sc.cn p.2 * clipDt (quietI maxDt maxit mo t0 t1 d p.1).t t1 (quietI maxDt maxit mo t0 t1 d p.1).dt) ∪
  (Finset.range K).image fun k => (quietI maxDt maxit mo t0 t1 d k).t

structure QuietI (maxDt : ℝ) (maxit : ℤ) (mo : ℕ) (t0 t1 d : ℝ) (y0 : Vec ℝ n) {m : ℕ} (s : IrkState ℝ m n) (k : ℕ) : Prop where
  t : s.t = (quietI maxDt maxit mo t0 t1 d k).t
  dt : s.dt = (quietI maxDt maxit mo t0 t1 d k).dt
  dts0 : s.dts0 = (quietI maxDt maxit mo t0 t1 d k).dts0
  dts1 : s.dts1 = (quietI maxDt maxit mo t0 t1 d k).dts1
  errs0 : s.errs0 = (quietI maxDt maxit mo t0 t1 d k).errs0
  maxit : s.newtonMaxit = maxit
  y : s.y = y0
  vals : ∀ y ∈ s.sol.yVals, y = y0

theorem newDtI_congr {o o' : IrkOpts ℝ} (h : o.maxDt = o'.maxDt) (mo : ℕ) (dt err e0 e1 d0 d1 : ℝ) (maxit : ℤ) (iters : ℕ) :
    newDtI o mo dt err e0 e1 d0 d1 maxit iters = newDtI o' mo dt err e0 e1 d0 d1 maxit iters := by
  simp only [newDtI, h]

theorem quietI_next {g : ℝ → Vec ℝ n} {t0 t1 e : ℝ} {o : IrkOpts ℝ} {no : NewtonOpts ℝ} {oo : OutOpts} {mo K k : ℕ} {d d2 : Vec ℝ sc.ns}
    {y0 : Vec ℝ n} {s s' : IrkState ℝ (sc.ns * n) n} (hmax : 1 < no.maxit) (htol : no.tol ≠ 0) (hk : k < K)
    (hg : ∀ t ∈ quietNodesI o.maxDt no.maxit mo t0 t1 e sc K, g t = 0)
    (hq : QuietI o.maxDt no.maxit mo t0 t1 e y0 s k) (hb : irkBody false laReal (timeFun g) t1 o no oo sc mo d d2 s = .next s') :
    QuietI o.maxDt no.maxit mo t0 t1 e y0 s' (k + 1) := by
  have hcase := bodyCaseI false laReal (timeFun g) t1 o no oo sc mo d d2 s
  rw [hb] at hcase
  have hnodes : ∀ i : Fin sc.ns, g (s.t + sc.cn i * clipDt s.t t1 s.dt) = 0 := by
    intro i
    refine hg _ ?_
    rw [quietNodesI, Finset.mem_union, Finset.mem_image]
    exact Or.inl ⟨(k, i), by simp [hk], by rw [hq.t, hq.dt]⟩
  have hbase : g s.t = 0 := by
    refine hg _ ?_
    rw [quietNodesI, Finset.mem_union, Finset.mem_image, Finset.mem_image]
    exact Or.inr ⟨k, by simp [hk], by rw [hq.t]⟩
  have hsol : ∀ r, solveAt false laReal (timeFun g) t1 no sc s = .ret r → _ := fun r hr =>
    quiet_solve (by rw [hq.maxit]; exact hmax) htol hnodes hr
  cases hcase with
  | newton h hm r hr hs had => exact absurd (hsol r hr).1 hs
  | rejected h hm r hr hs had a ha hE hj =>
    obtain ⟨-, -, h3, h4⟩ := hsol r hr
    have := (quiet_attemptI (r := r.success) hbase h3 h4 ha).2.2.2.1
    rw [hj] at this
    cases this
  | accepted h hm r hr hs had a ha hE hj hi hw =>
    obtain ⟨-, h2, h3, h4⟩ := hsol r hr
    obtain ⟨e1, e2, e3, -, e5⟩ := quiet_attemptI (r := r.success) hbase h3 h4 ha
    have hnd : a.newDt = (quietI o.maxDt no.maxit mo t0 t1 e (k + 1)).dt := by
      rw [e5, show r.success.iters = 1 from h2]
      simp only [quietI, hq.t, hq.dt, hq.errs0, hq.dts0, hq.dts1, hq.maxit]
      exact newDtI_congr rfl _ _ _ _ _ _ _ _ _
    refine ⟨?_, hnd, hnd, ?_, ?_, ?_, ?_, ?_⟩
    · simp only [acceptI, quietI, e1, hq.t, hq.dt]
    · simp only [acceptI, quietI, hq.dts0]
    · simp only [acceptI, quietI, e3]
    · simp only [acceptI, hq.maxit]
    · simp only [acceptI, e2, hq.y]
    · intro y hy
      have : y ∈ s.sol.yVals ∨ y = a.yn := by
        by_cases c1 : (s.step + 1) % oo.interval.toNat = 0 <;> cases c2 : oo.storeInVectors <;>
          cases c3 : oo.writeToFile <;> simp [acceptI, c1, c2, c3, IrkOutput.bump] at hy <;> first | exact Or.inl hy | exact hy
      rcases this with h | h
      · exact hq.vals y h
      · rw [h, e2, hq.y]

theorem quietI_init {t0 t1 e maxDt : ℝ} {maxit : ℤ} {mo m : ℕ} {y0 : Vec ℝ n} :
    QuietI maxDt maxit mo t0 t1 e y0 (irkInit (F := ℝ) m t0 y0 e maxit) 0 := by
  constructor <;> simp [irkInit, quietI]

theorem irkBody_lt {nd : Bool} {la : LinAlg ℝ} {fn : OdeFun ℝ n} {t1 : ℝ} {o : IrkOpts ℝ} {no : NewtonOpts ℝ} {oo : OutOpts} {mo : ℕ} {d d2 : Vec ℝ sc.ns}
    {s s' : IrkState ℝ (sc.ns * n) n} (hb : irkBody nd la fn t1 o no oo sc mo d d2 s = .next s') : s.t < t1 := by
  by_contra h
  have : ltb s.t t1 = false := by
    by_contra h'
    exact h ((ltb_real _ _).mp (by simpa using h'))
  unfold irkBody at hb
  rw [this] at hb
  simp at hb

end Verif
