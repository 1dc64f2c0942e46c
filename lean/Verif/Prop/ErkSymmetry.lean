import Verif.ErkReturns

/-!
# Property C93: the explicit integrators commute with changes of variables
-/

set_option autoImplicit false

namespace Verif

/-- An affine change of time `t ↦ lam t + tau` and of the unknowns `y ↦ L y + c`; `abs_tol` is multiplied by `mu`. -/
structure Change (n m : ℕ) where
  lam : ℝ
  tau : ℝ
  mu : ℝ
  L : Vec ℝ n →ₗ[ℝ] Vec ℝ m
  c : Vec ℝ m

namespace Change
variable {n m : ℕ} (w : Change n m)

/-- the new time -/
noncomputable def T (t : ℝ) : ℝ := w.lam * t + w.tau

/-- the new unknowns -/
noncomputable def Y (y : Vec ℝ n) : Vec ℝ m := w.L y + w.c

/-- the new derivatives -/
noncomputable def K (k : Vec ℝ n) : Vec ℝ m := w.lam⁻¹ • w.L k

/-- the options with `max_dt` and `abs_tol` in the new units -/
noncomputable def opts (o : ErkOpts ℝ) : ErkOpts ℝ := { o with maxDt := w.lam * o.maxDt, absTol := w.mu * o.absTol }

/-- what the integrator returns, in the new variables: times, values, stages, error estimates, calls of the right-hand side and lines of the
output file are transformed, everything else stays as it is -/
noncomputable def out (s : ErkOutput ℝ n) : ErkOutput ℝ m where
  status := s.status
  tVals := s.tVals.map w.T
  yVals := s.yVals.map w.Y
  stages := s.stages.map (List.map w.K)
  errEst := s.errEst.map w.L
  err := s.err
  acceptFrac := s.acceptFrac
  attempt := s.attempt
  rejectErr := s.rejectErr
  funEvals := s.funEvals
  calls := s.calls.map fun p => (w.T p.1, w.Y p.2)
  file := s.file.map fun p => (w.T p.1, w.Y p.2)

/-- outcomes in the new variables -/
noncomputable def outcome : Outcome (ErkOutput ℝ n) → Outcome (ErkOutput ℝ m)
  | .ret a => .ret (w.out a)
  | .assertFail => .assertFail
  | .throws => .throws
  | .ub => .ub

/-- the error norm is the same in both sets of variables -/
def Isometric (o : ErkOpts ℝ) : Prop :=
  ∀ y yn e : Vec ℝ n, errNorm m (errTot (w.opts o) (w.Y y) (w.Y yn) (w.L e)) = errNorm n (errTot o y yn e)

/-- the state in the new variables -/
noncomputable def st (s : ErkState ℝ n) : ErkState ℝ m where
  t := w.T s.t
  dt := w.lam * s.dt
  y := w.Y s.y
  Ks := fun j => w.K (s.Ks j)
  step := s.step
  err := s.err
  errEst := w.L s.errEst
  sol := w.out s.sol

variable {w}

theorem T_add (t h : ℝ) : w.T t + w.lam * h = w.T (t + h) := by unfold T; ring

theorem Y_add (y k : Vec ℝ n) : w.Y y + w.L k = w.Y (y + k) := by unfold Y; rw [map_add]; abel

theorem clip (hl : 0 < w.lam) (t t1 dt : ℝ) : clipDt (w.T t) (w.T t1) (w.lam * dt) = w.lam * clipDt t t1 dt := by
  unfold clipDt
  rw [T_add]
  have : ltb (w.T t1) (w.T (t + dt)) = ltb t1 (t + dt) := by
    rw [Bool.eq_iff_iff, ltb_real, ltb_real]
    unfold T
    constructor
    · intro h; nlinarith
    · intro h; nlinarith
  rw [this]
  split
  · unfold T; ring
  · rfl

theorem eval {f : ℝ → Vec ℝ n → Vec ℝ n} {g : ℝ → Vec ℝ m → Vec ℝ m} (hfg : ∀ t y, g (w.T t) (w.Y y) = w.K (f t y)) (t : ℝ) (y : Vec ℝ n)
    (sol : ErkOutput ℝ n) : evalFun g (w.T t) (w.Y y) (w.out sol) = (w.K (evalFun f t y sol).1, w.out (evalFun f t y sol).2) := by
  simp [evalFun, hfg, out]

theorem lamK (hl : 0 < w.lam) (h : ℝ) (k : Vec ℝ n) : (w.lam * h) • w.K k = w.L (h • k) := by
  unfold K
  rw [smul_smul, map_smul]
  congr 1
  field_simp

theorem arg (hl : 0 < w.lam) (sc : SolverCoeffs ℝ) (dt : ℝ) (y : Vec ℝ n) (Ks : ℕ → Vec ℝ n) (i : ℕ) :
    stageArg sc (w.lam * dt) (w.Y y) (fun j => w.K (Ks j)) i = w.Y (stageArg sc dt y Ks i) := by
  unfold stageArg
  generalize List.range i = l
  induction l generalizing y with
  | nil => rfl
  | cons j l ih =>
    simp only [List.foldl_cons]
    rw [← ih]
    congr 1
    have e : w.Y (fun k => y k + dt * sc.a i j * Ks j k) = w.Y y + w.L ((dt * sc.a i j) • Ks j) := by rw [Y_add]; rfl
    rw [e, ← lamK hl]
    funext k
    simp [mul_assoc]

theorem stages {f : ℝ → Vec ℝ n → Vec ℝ n} {g : ℝ → Vec ℝ m → Vec ℝ m} (hl : 0 < w.lam) (hfg : ∀ t y, g (w.T t) (w.Y y) = w.K (f t y))
    (sc : SolverCoeffs ℝ) (t dt : ℝ) (y : Vec ℝ n) (start : ℕ) (Ks : ℕ → Vec ℝ n) (sol : ErkOutput ℝ n) :
    stageLoop g sc (w.T t) (w.lam * dt) (w.Y y) start (fun j => w.K (Ks j)) (w.out sol) =
      (fun j => w.K ((stageLoop f sc t dt y start Ks sol).1 j), w.out (stageLoop f sc t dt y start Ks sol).2) := by
  unfold stageLoop
  generalize List.range' start (sc.ns - start) = l
  induction l generalizing Ks sol with
  | nil => rfl
  | cons i l ih =>
    simp only [List.foldl_cons]
    rw [← ih]
    congr 1
    have e : w.T t + sc.cn i * (w.lam * dt) = w.T (t + sc.cn i * dt) := by rw [← T_add]; ring
    rw [e, arg hl, eval hfg]
    refine Prod.ext ?_ rfl
    funext j
    by_cases hj : j = i
    · subst hj; simp
    · simp [Function.update_of_ne hj]

theorem comb (sc : SolverCoeffs ℝ) (Ks : ℕ → Vec ℝ n) (b : ℕ → ℝ) :
    combine sc (fun j => w.K (Ks j)) b = w.K (combine sc Ks b) := by
  have e : ∀ (n : ℕ) (Q : ℕ → Vec ℝ n), combine sc Q b = ∑ j ∈ Finset.range sc.ns, b j • Q j := by
    intro n Q
    funext k
    rw [combine, sumRange_real, Finset.sum_apply]
    exact Finset.sum_congr rfl fun j _ => mul_comm _ _
  rw [e, e]
  unfold K
  rw [map_sum, Finset.smul_sum]
  refine Finset.sum_congr rfl fun j _ => ?_
  rw [map_smul, smul_comm]

theorem newDt' (hl : 0 < w.lam) (o : ErkOpts ℝ) (mo : ℕ) (dt err : ℝ) : newDt (w.opts o) mo (w.lam * dt) err = w.lam * newDt o mo dt err := by
  unfold newDt opts
  simp only [cmin_real]
  have h1 : ltb (lit 0) (w.lam * o.maxDt) = ltb (lit 0) o.maxDt := by
    rw [Bool.eq_iff_iff, ltb_real, ltb_real]
    simp [hl]
  rw [h1]
  have h2 : ∀ a b : ℝ, min (w.lam * a) (w.lam * b) = w.lam * min a b := fun a b => (mul_min_of_nonneg a b hl.le).symm
  split
  · rw [← h2]; congr 1; ring
  · ring

/-- the attempt in the new variables; `errTot` is only looked at through its norm and its sign -/
theorem attempt' {f : ℝ → Vec ℝ n → Vec ℝ n} {g : ℝ → Vec ℝ m → Vec ℝ m} (hl : 0 < w.lam) (hfg : ∀ t y, g (w.T t) (w.Y y) = w.K (f t y))
    {o : ErkOpts ℝ} (hE : o.adaptive = true → w.Isometric o) (sc : SolverCoeffs ℝ) (mo : ℕ) (s : ErkState ℝ n) (dt : ℝ) (sol : ErkOutput ℝ n) :
    let a := attempt f o sc mo s dt sol
    let a' := attempt g (w.opts o) sc mo (w.st s) (w.lam * dt) (w.out sol)
    a'.dt = w.lam * a.dt ∧ a'.Ks = (fun j => w.K (a.Ks j)) ∧ a'.sol = w.out a.sol ∧ a'.yn = w.Y a.yn ∧ a'.errEst = w.L a.errEst ∧
      a'.err = a.err ∧ a'.newDt = w.lam * a.newDt ∧ a'.reject = a.reject := by
  have h1 := stages hl hfg sc s.t dt s.y (stageStart sc) s.Ks sol
  obtain ⟨S, hS⟩ : ∃ S, S = stageLoop f sc s.t dt s.y (stageStart sc) s.Ks sol := ⟨_, rfl⟩
  have h1' : stageLoop g sc (w.st s).t (w.lam * dt) (w.st s).y (stageStart sc) (w.st s).Ks (w.out sol) =
      (fun j => w.K (S.1 j), w.out S.2) := by rw [hS]; exact h1
  have hyn : (fun k => (w.st s).y k + w.lam * dt * combine sc (fun j => w.K (S.1 j)) sc.bw k) = w.Y fun k => s.y k + dt * combine sc S.1 sc.bw k := by
    have e : w.Y (fun k => s.y k + dt * combine sc S.1 sc.bw k) = w.Y s.y + w.L (dt • combine sc S.1 sc.bw) := by rw [Y_add]; rfl
    rw [e, comb, ← lamK hl]
    rfl
  have hee : (fun k => w.lam * dt * (combine sc (fun j => w.K (S.1 j)) sc.bw2 k - combine sc (fun j => w.K (S.1 j)) sc.bw k)) =
      w.L fun k => dt * (combine sc S.1 sc.bw2 k - combine sc S.1 sc.bw k) := by
    have e : (fun k => dt * (combine sc S.1 sc.bw2 k - combine sc S.1 sc.bw k)) = dt • combine sc S.1 sc.bw2 - dt • combine sc S.1 sc.bw := by
      funext k; simp [mul_sub]
    rw [e, map_sub, ← lamK hl, ← lamK hl, comb, comb]
    funext k
    simp [mul_sub]
  unfold attempt
  simp only [h1', ← hS, hyn, hee]
  cases ho : o.adaptive with
  | false =>
    have ho' : (w.opts o).adaptive = false := ho
    rw [ho']
    exact ⟨rfl, rfl, rfl, rfl, rfl, rfl, rfl, rfl⟩
  | true =>
    have ho' : (w.opts o).adaptive = true := ho
    rw [ho']
    simp only [if_true]
    have := hE ho s.y (fun k => s.y k + dt * combine sc S.1 sc.bw k) (fun k => dt * (combine sc S.1 sc.bw2 k - combine sc S.1 sc.bw k))
    have hy : (w.st s).y = w.Y s.y := rfl
    rw [hy, this]
    refine ⟨trivial, trivial, ?_, trivial, trivial, rfl, newDt' hl _ _ _ _, rfl⟩
    split <;> simp [out]

/-- results of one pass in the new variables -/
noncomputable def loopStep (w : Change n m) : LoopStep (ErkState ℝ n) (ErkOutput ℝ n) → LoopStep (ErkState ℝ m) (ErkOutput ℝ m)
  | .next s => .next (w.st s)
  | .done r => .done (w.outcome r)

theorem line' (oo : OutOpts) (t : ℝ) (yn : Vec ℝ n) (sol : ErkOutput ℝ n) :
    (w.out sol).line oo (w.T t) (w.Y yn) = w.out (sol.line oo t yn) := by
  unfold ErkOutput.line
  split <;> simp [out]

theorem ks_list (sc : SolverCoeffs ℝ) (Ks : ℕ → Vec ℝ n) : ksList sc (fun j => w.K (Ks j)) = (ksList sc Ks).map w.K := by
  simp [ksList]

theorem fsal' (sc : SolverCoeffs ℝ) (Ks : ℕ → Vec ℝ n) : fsalHook sc (fun j => w.K (Ks j)) = fun j => w.K (fsalHook sc Ks j) := by
  unfold fsalHook
  split
  · funext j
    by_cases hj : j = 0
    · subst hj; simp
    · simp [Function.update_of_ne hj]
  · rfl

/-- **one pass of the loop** -/
theorem body {f : ℝ → Vec ℝ n → Vec ℝ n} {g : ℝ → Vec ℝ m → Vec ℝ m} (hl : 0 < w.lam) (hfg : ∀ t y, g (w.T t) (w.Y y) = w.K (f t y))
    {o : ErkOpts ℝ} (hE : o.adaptive = true → w.Isometric o) (nd : Bool) (t1 : ℝ) (oo : OutOpts) (sc : SolverCoeffs ℝ) (mo : ℕ)
    (s : ErkState ℝ n) :
    erkBody nd g (w.T t1) (w.opts o) oo sc mo (w.st s) = w.loopStep (erkBody nd f t1 o oo sc mo s) := by
  have hat : attemptAt g (w.T t1) (w.opts o) sc mo (w.st s) =
      attempt g (w.opts o) sc mo (w.st s) (w.lam * clipDt s.t t1 s.dt) (w.out s.sol.bump) := by
    unfold attemptAt
    have : clipDt (w.st s).t (w.T t1) (w.st s).dt = w.lam * clipDt s.t t1 s.dt := clip hl _ _ _
    rw [this]
    rfl
  obtain ⟨e1, e2, e3, e4, e5, e6, e7, e8⟩ := attempt' hl hfg hE sc mo s (clipDt s.t t1 s.dt) s.sol.bump
  rw [← hat] at e1 e2 e3 e4 e5 e6 e7 e8
  have hA : attempt f o sc mo s (clipDt s.t t1 s.dt) s.sol.bump = attemptAt f t1 o sc mo s := rfl
  rw [hA] at e1 e2 e3 e4 e5 e6 e7 e8
  have hlt : ltb (w.st s).t (w.T t1) = ltb s.t t1 := by
    rw [Bool.eq_iff_iff, ltb_real, ltb_real]
    simp only [st, T]
    constructor
    · intro h; nlinarith
    · intro h; nlinarith
  have hpos : ∀ (k : ℕ) (F : ℝ → Vec ℝ k → Vec ℝ k) (q : ErkOpts ℝ) (T1 : ℝ) (S : ErkState ℝ k), q.adaptive = true →
      leb (lit 0) (attemptAt F T1 q sc mo S).errTot = true := by
    intro k F q T1 S hq
    rw [leb_real]
    have : (attemptAt F T1 q sc mo S).errTot =
        errTot q S.y (attemptAt F T1 q sc mo S).yn (attemptAt F T1 q sc mo S).errEst := by
      simp [attemptAt, attempt, hq]
    rw [this]
    simpa using errTot_nonneg q _ _ _
  unfold erkBody
  rw [hlt]
  have ho : (w.opts o).adaptive = o.adaptive := rfl
  have hms : (w.opts o).maxSteps = o.maxSteps := rfl
  have hst : (w.st s).step = s.step := rfl
  simp only [ho, hms, hst]
  by_cases h1 : ltb s.t t1 = true
  · rw [if_pos h1, if_pos h1]
    by_cases h2 : 0 ≤ o.maxSteps ∧ o.maxSteps < s.step
    · rw [if_pos h2, if_pos h2]
      rfl
    rw [if_neg h2, if_neg h2]
    by_cases h3 : o.adaptive = true ∧ sc.b2.length ≠ sc.ns
    · rw [if_pos h3, if_pos h3]; rfl
    rw [if_neg h3, if_neg h3]
    have h4 : ∀ (k : ℕ) (F : ℝ → Vec ℝ k → Vec ℝ k) (q : ErkOpts ℝ) (T1 : ℝ) (S : ErkState ℝ k), q.adaptive = o.adaptive →
        ¬ (o.adaptive && !nd && !(leb (lit 0) (attemptAt F T1 q sc mo S).errTot)) = true := by
      intro k F q T1 S hq
      cases hoo : o.adaptive with
      | false => simp
      | true => rw [hpos k F q T1 S (by rw [hq, hoo])]; simp
    rw [if_neg (h4 m g (w.opts o) (w.T t1) (w.st s) rfl), if_neg (h4 n f o t1 s rfl)]
    by_cases h5 : (oo.writeToFile && !oo.streamSet) = true
    · rw [if_pos h5, if_pos h5]; rfl
    rw [if_neg h5, if_neg h5, e8]
    have hline : (attemptAt g (w.T t1) (w.opts o) sc mo (w.st s)).sol.line oo (w.st s).t (attemptAt g (w.T t1) (w.opts o) sc mo (w.st s)).yn =
        w.out ((attemptAt f t1 o sc mo s).sol.line oo s.t (attemptAt f t1 o sc mo s).yn) := by
      rw [e3, e4]; exact line' oo s.t _ _
    rw [hline]
    have ht : (w.st s).t + (attemptAt g (w.T t1) (w.opts o) sc mo (w.st s)).dt = w.T (s.t + (attemptAt f t1 o sc mo s).dt) := by
      rw [e1]; exact T_add _ _
    by_cases h6 : (!o.adaptive || !(attemptAt f t1 o sc mo s).reject) = true
    · rw [if_pos h6, if_pos h6]
      unfold accept
      rw [ht, e2, e4, e5, e6, e7, fsal', ks_list]
      simp [loopStep, st, out]
    · rw [if_neg h6, if_neg h6]
      unfold rejectStep
      rw [e2, e5, e6, e7]
      simp [loopStep, st]
  · rw [if_neg h1, if_neg h1]
    rfl

theorem loop {f : ℝ → Vec ℝ n → Vec ℝ n} {g : ℝ → Vec ℝ m → Vec ℝ m} (hl : 0 < w.lam) (hfg : ∀ t y, g (w.T t) (w.Y y) = w.K (f t y))
    {o : ErkOpts ℝ} (hE : o.adaptive = true → w.Isometric o) (nd : Bool) (t1 : ℝ) (oo : OutOpts) (sc : SolverCoeffs ℝ) (mo fuel : ℕ)
    (s : ErkState ℝ n) :
    runLoop (erkBody nd g (w.T t1) (w.opts o) oo sc mo) fuel (w.st s) = (runLoop (erkBody nd f t1 o oo sc mo) fuel s).map w.outcome := by
  induction fuel generalizing s with
  | zero => rfl
  | succ k ih =>
    unfold runLoop
    rw [body hl hfg hE]
    cases erkBody nd f t1 o oo sc mo s with
    | next s' => exact ih s'
    | done r => rfl

theorem init {f : ℝ → Vec ℝ n → Vec ℝ n} {g : ℝ → Vec ℝ m → Vec ℝ m} (hfg : ∀ t y, g (w.T t) (w.Y y) = w.K (f t y)) (t0 dt : ℝ)
    (y0 : Vec ℝ n) (sc : SolverCoeffs ℝ) : erkInit g (w.T t0) (w.Y y0) (w.lam * dt) sc = w.st (erkInit f t0 y0 dt sc) := by
  have hz : ∀ k, (fun _ => lit 0 : Vec ℝ k) = 0 := by intro k; funext i; simp
  have hK : w.K 0 = 0 := by simp [K]
  have hks : ksList sc (fun _ => (0 : Vec ℝ m)) = (ksList sc fun _ => (0 : Vec ℝ n)).map w.K := by
    have := ks_list (w := w) sc fun _ => 0
    simp only [hK] at this
    exact this
  unfold erkInit
  simp only [hz]
  have hK' : w.K (fun _ => 0) = fun _ => 0 := hK
  have hks' : ksList sc (fun _ _ => 0) = (ksList sc fun _ => fun _ : Fin n => (0 : ℝ)).map w.K := hks
  split
  · simp only [evalFun, hfg, st, out]
    congr 1
    · funext j
      by_cases hj : j = 0
      · subst hj; simp
      · simp [Function.update_of_ne hj, hK']
    · simp
    · simp [hks']
  · simp only [st, out]
    congr 1
    · funext j; simp [hK']
    · simp
    · simp [hks']

end Change

open Change

/-- **C93.**  Let `t ↦ lam t + tau`, `lam > 0`, and `y ↦ L y + c` be affine changes of the time and of the unknowns (`L` need not be
invertible, the dimensions may differ), and let `g` be the right-hand side `f` in the new variables.  If the steps are fixed, or if the change does not alter the
error norm, the explicit integrator does in the new variables exactly what it does in the old ones: the same outcome after the same number of
passes, the same counters, and the transformed records. -/
theorem C93_equivariant {n k : ℕ} {f : ℝ → Vec ℝ n → Vec ℝ n} {g : ℝ → Vec ℝ k → Vec ℝ k} {w : Change n k} (hl : 0 < w.lam)
    (hfg : ∀ t y, g (w.T t) (w.Y y) = w.K (f t y)) {o : ErkOpts ℝ} {m : ℤ}
    (hE : o.adaptive = true → (erkCoeffs m : SolverCoeffs ℝ).b2 ≠ [] → w.Isometric o) (nd : Bool) (t0 t1 dt : ℝ) (y0 : Vec ℝ n) (oo : OutOpts)
    (fuel : ℕ) :
    erkOdeint nd g (w.T t0) (w.T t1) (w.Y y0) (w.opts o) oo m (w.lam * dt) fuel = (erkOdeint nd f t0 t1 y0 o oo m dt fuel).map w.outcome := by
  unfold erkOdeint
  have heff : ∀ q : ErkOpts ℝ, (if (q.adaptive && (erkCoeffs m : SolverCoeffs ℝ).b2.length == 0) = true then { q with adaptive := false } else q) =
      effOpts q (erkCoeffs m) := fun q => rfl
  simp only [heff]
  have hopt : effOpts (w.opts o) (erkCoeffs m : SolverCoeffs ℝ) = w.opts (effOpts o (erkCoeffs m)) := by
    unfold effOpts opts
    split <;> rfl
  have hE' : (effOpts o (erkCoeffs m : SolverCoeffs ℝ)).adaptive = true → w.Isometric (effOpts o (erkCoeffs m)) := by
    intro h
    obtain ⟨h1, h2⟩ := effOpts_adaptive.mp h
    have := hE h1 (by intro h; rw [h] at h2; exact h2 rfl)
    intro y yn e
    obtain ⟨a1, a2, -, -⟩ := effOpts_fields o (erkCoeffs m : SolverCoeffs ℝ)
    have q : errTot (n := n) (effOpts o (erkCoeffs m : SolverCoeffs ℝ)) = errTot o := by
      unfold errTot
      rw [a1, a2]
    have q' : errTot (n := k) (w.opts (effOpts o (erkCoeffs m : SolverCoeffs ℝ))) = errTot (w.opts o) := by
      unfold errTot opts
      dsimp only
      rw [a1, a2]
    rw [q, q']
    exact this y yn e
  split
  · rfl
  · unfold erkGuts
    rw [clip hl]
    have hpos : ltb (lit 0) (w.lam * clipDt t0 t1 dt) = ltb (lit 0) (clipDt t0 t1 dt) := by
      rw [Bool.eq_iff_iff, ltb_real, ltb_real]
      simp [hl]
    dsimp only
    rw [hpos]
    split
    · rfl
    · cases minOrder (erkCoeffs m : SolverCoeffs ℝ) with
      | none => rfl
      | some mo =>
        dsimp only
        rw [hopt, init hfg, loop hl hfg hE']

theorem errTot_sum {n : ℕ} (o : ErkOpts ℝ) (y yn e : Vec ℝ n) :
    errTot o y yn e = ∑ i, (e i / (o.absTol + o.relTol * max |y i| |yn i|)) ^ 2 := by
  have key : ∀ (l : List (Fin n)) (a : ℝ), l.foldl (fun acc i => acc + (e i / (o.absTol + o.relTol * max |y i| |yn i|)) ^ 2) a =
      a + (l.map fun i => (e i / (o.absTol + o.relTol * max |y i| |yn i|)) ^ 2).sum := by
    intro l
    induction l with
    | nil => intro a; simp
    | cons i l ih => intro a; rw [List.foldl_cons, ih, List.map_cons, List.sum_cons]; ring
  unfold errTot
  simp only [cmax_real, sabs_real, ← pow_two, lit_real, Rat.cast_zero]
  rw [key, zero_add, Fin.sum_univ_def]

/-- the change of units: time in units of `1/lam`, counted from another instant; component `i` of the unknowns moved to place `σ i`
with its sign possibly reversed, in units of `1/mu` -/
noncomputable def units {n : ℕ} (lam tau mu : ℝ) (σ : Equiv.Perm (Fin n)) (sg : Fin n → ℝ) : Change n n where
  lam := lam
  tau := tau
  mu := mu
  L := { toFun := fun y i => mu * sg i * y (σ i)
         map_add' := by intro y z; funext i; simp [mul_add]
         map_smul' := by intro a y; funext i; simp; ring }
  c := 0

/-- **C93, units and names do not matter, adaptive steps included.**  Time may be measured from another instant and in another unit, the unknowns may be
renumbered, change their signs and be measured in another unit (then `abs_tol` is, too): the run is the same. -/
theorem C93_units {n : ℕ} {f g : ℝ → Vec ℝ n → Vec ℝ n} {lam tau mu : ℝ} {σ : Equiv.Perm (Fin n)} {sg : Fin n → ℝ} (hl : 0 < lam) (hmu : 0 < mu)
    (hsg : ∀ i, sg i = 1 ∨ sg i = -1)
    (hfg : ∀ t y i, g (lam * t + tau) (fun j => mu * sg j * y (σ j)) i = lam⁻¹ * (mu * sg i * f t y (σ i))) (nd : Bool) (t0 t1 dt : ℝ)
    (y0 : Vec ℝ n) (o : ErkOpts ℝ) (oo : OutOpts) (m : ℤ) (fuel : ℕ) :
    erkOdeint nd g (lam * t0 + tau) (lam * t1 + tau) (fun i => mu * sg i * y0 (σ i)) { o with maxDt := lam * o.maxDt, absTol := mu * o.absTol } oo m
      (lam * dt) fuel = (erkOdeint nd f t0 t1 y0 o oo m dt fuel).map (units lam tau mu σ sg).outcome := by
  have hY : ∀ y, (units lam tau mu σ sg).Y y = fun i => mu * sg i * y (σ i) := by
    intro y
    unfold Change.Y
    funext i
    simp [units]
  have := C93_equivariant (w := units lam tau mu σ sg) (f := f) (g := g) hl (fun t y => by
    rw [hY]
    funext i
    exact hfg t y i) (o := o) (m := m) (fun _ _ y yn e => by
    congr 1
    rw [errTot_sum, errTot_sum, hY, hY]
    refine Eq.trans (Finset.sum_congr rfl fun i _ => ?_) (Equiv.sum_comp σ fun i => (e i / (o.absTol + o.relTol * max |y i| |yn i|)) ^ 2)
    have h1 : |sg i| = 1 := by rcases hsg i with h | h <;> rw [h] <;> simp
    have h2 : sg i ^ 2 = 1 := by rw [← sq_abs, h1, one_pow]
    have ha : ∀ a : ℝ, |mu * sg i * a| = mu * |a| := fun a => by rw [abs_mul, abs_mul, h1, abs_of_pos hmu, mul_one]
    have hL : (units lam tau mu σ sg).L e i = mu * sg i * e (σ i) := rfl
    have ho1 : ((units lam tau mu σ sg).opts o).absTol = mu * o.absTol := rfl
    have ho2 : ((units lam tau mu σ sg).opts o).relTol = o.relTol := rfl
    rw [hL, ho1, ho2, ha, ha, ← mul_max_of_nonneg _ _ hmu.le]
    have e1 : mu * o.absTol + o.relTol * (mu * max |y (σ i)| |yn (σ i)|) = mu * (o.absTol + o.relTol * max |y (σ i)| |yn (σ i)|) := by ring
    rw [e1, mul_assoc, mul_div_mul_left _ _ hmu.ne', div_pow, div_pow, mul_pow, h2, one_mul]) nd t0 t1 dt y0 oo fuel
  rw [hY] at this
  exact this

/-- **C93, affine changes of variables, fixed steps.**  `L` may be any matrix: an invertible change of variables, the projection to a subsystem that
does not need the other components, or a linear functional. -/
theorem C93_fixed {n k : ℕ} {f : ℝ → Vec ℝ n → Vec ℝ n} {g : ℝ → Vec ℝ k → Vec ℝ k} {L : Vec ℝ n →ₗ[ℝ] Vec ℝ k} {c : Vec ℝ k}
    (hfg : ∀ t y, g t (L y + c) = L (f t y)) {o : ErkOpts ℝ} (ho : o.adaptive = false) (nd : Bool) (t0 t1 dt : ℝ) (y0 : Vec ℝ n) (oo : OutOpts)
    (m : ℤ) (fuel : ℕ) :
    erkOdeint nd g t0 t1 (L y0 + c) o oo m dt fuel = (erkOdeint nd f t0 t1 y0 o oo m dt fuel).map (Change.mk 1 0 1 L c).outcome := by
  have hT : ∀ t, (Change.mk 1 0 1 L c).T t = t := fun t => by simp [Change.T]
  have := C93_equivariant (w := Change.mk 1 0 1 L c) (f := f) (g := g) one_pos (fun t y => by
    rw [hT]
    simp only [Change.Y, Change.K, inv_one, one_smul]
    exact hfg t y) (o := o) (m := m) (fun h => by rw [ho] at h; cases h) nd t0 t1 dt y0 oo fuel
  rw [hT, hT] at this
  have e : (Change.mk 1 0 1 L c).opts o = o := by simp [Change.opts]
  rw [e] at this
  simpa [Change.Y] using this

/-- the harmonic oscillator `q' = p, p' = -q` with time in milliseconds, the unknowns in the other order, the momentum reversed and both in
units of a tenth -/
example (nd : Bool) (o : ErkOpts ℝ) (fuel : ℕ) :
    erkOdeint nd (fun _ y => ![-(1 / 1000) * (-y 1), -(1 / 1000) * y 0]) (1000 * 0 + 5) (1000 * 1 + 5)
      (fun i : Fin 2 => 10 * (![-1, 1] : Fin 2 → ℝ) i * (![1, 2] : Fin 2 → ℝ) (Equiv.swap 0 1 i))
      { o with maxDt := 1000 * o.maxDt, absTol := 10 * o.absTol } OutOpts.dflt 131 (1000 * (1 / 10)) fuel =
    (erkOdeint nd (fun _ y => ![y 1, -y 0]) 0 1 ![1, 2] o OutOpts.dflt 131 (1 / 10) fuel).map
      (units 1000 5 10 (Equiv.swap 0 1) ![-1, 1]).outcome := by
  refine C93_units (by norm_num) (by norm_num) (fun i => ?_) (fun t y i => ?_) nd 0 1 (1 / 10) ![1, 2] o OutOpts.dflt 131 fuel
  · fin_cases i <;> simp
  · fin_cases i <;> simp

/-- the first component of a triangular system does not notice the second -/
example (nd : Bool) (fuel : ℕ) (o : ErkOpts ℝ) (ho : o.adaptive = false) :
    erkOdeint nd (fun t y => fun _ : Fin 1 => y 0 ^ 2 + t) 0 1 (LinearMap.funLeft ℝ ℝ (fun _ : Fin 1 => (0 : Fin 2)) ![1, 7] + 0) o OutOpts.dflt 110
      (1 / 4) fuel =
    (erkOdeint nd (fun t y => ![y 0 ^ 2 + t, y 0 * Real.exp (y 1)]) 0 1 ![1, 7] o OutOpts.dflt 110 (1 / 4) fuel).map
      (Change.mk 1 0 1 (LinearMap.funLeft ℝ ℝ (fun _ : Fin 1 => (0 : Fin 2))) 0).outcome := by
  refine C93_fixed (fun t y => ?_) ho nd 0 1 (1 / 4) ![1, 7] OutOpts.dflt 110 fuel
  funext i
  simp [LinearMap.funLeft]

end Verif
