import Verif.Prop.IrkConverge
import Verif.Prop.IrkTerm
import Verif.Prop.IrkAffine
import Verif.Prop.ErkFP

/-!
# The theorems about the implicit integrator, applied to concrete runs

Three runs: a stiff exchange reaction that completes, a run with a fixed step size that gives up, and a run that cannot end.
-/

namespace Verif
open Spec

/-! ### a run that completes -/

/-- a stiff exchange reaction: `y0' = -1000 (y0 - y1)`, `y1' = 1000 (y0 - y1)` -/
noncomputable def exchange : OdeFun ℝ 2 :=
  { fn := fun _ y => (!![-1000, 1000; 1000, -1000] : Matrix (Fin 2) (Fin 2) ℝ).mulVec y
    jac := fun _ _ i j => (!![-1000, 1000; 1000, -1000] : Matrix (Fin 2) (Fin 2) ℝ) i j }

theorem exchange_dissipative : Dissipative (!![-1000, 1000; 1000, -1000] : Matrix (Fin 2) (Fin 2) ℝ) := by
  intro l v hv hl
  have h0 := hl 0
  have h1 := hl 1
  simp only [Fin.sum_univ_two, Matrix.of_apply, Matrix.cons_val_zero, Matrix.cons_val_one, Complex.ofReal_neg] at h0 h1
  push_cast at h0 h1
  have hs : l * (v 0 + v 1) = 0 := by linear_combination - h0 - h1
  rcases mul_eq_zero.mp hs with h | h
  · rw [h]; simp
  · have hv1 : v 1 = - v 0 := by linear_combination h
    rw [hv1] at h0
    have h2 : (l + 2000) * v 0 = 0 := by linear_combination - h0
    rcases mul_eq_zero.mp h2 with h3 | h3
    · rw [eq_neg_of_add_eq_zero_left h3]; norm_num
    · exfalso
      apply hv
      funext k
      fin_cases k
      · exact h3
      · show v 1 = 0
        rw [hv1, h3, neg_zero]

/-- options of the run: step limit 1/2 -/
noncomputable def exchangeOpts : IrkOpts ℝ :=
  { adaptive := true, relTol := 1 / 10 ^ 3, absTol := 1 / 10 ^ 6, maxDt := 1 / 2, maxSteps := -1
    newtonOpts := some NewtonOpts.dflt }

/-- output into vectors and into a stream -/
def bothOutputs : OutOpts := OutOpts.dflt.after [.setStream]

/-- what the examples below assume of `out`: it is what RADAU_IIA_53 returns for the exchange reaction on `[0,10]` from `(1,2)` with
first step `1/2` -/
def ExchangeRun (fuel : ℕ) (out : IrkOutput ℝ ((irkCoeffs 211 : SolverCoeffs ℝ).ns * 2) 2) : Prop :=
  irkGuts false laReal exchange 0 10 ![1, 2] exchangeOpts (1 / 2) (irkCoeffs 211) bothOutputs fuel = some (.ret out)

/-- the run exists, and it ends with SUCCESS -/
theorem exchange_run : ∃ fuel out, ExchangeRun fuel out ∧ out.status = 0 := by
  obtain ⟨fuel, out, h1, h2, -⟩ := C67_stiff_success (n := 2) (m := 211) (no := NewtonOpts.dflt) (t0 := 0) (t1 := 10)
    (y0 := ![1, 2]) (o := exchangeOpts) (oo := bothOutputs) (dt := 1 / 2) (fn := exchange)
    (J := !![-1000, 1000; 1000, -1000]) (g := fun _ => 0) (by decide)
    (fun t y => by simp [exchange]) (fun t y i j => rfl) (fun R => ⟨0, fun t _ k => by simp⟩) exchange_dissipative (by norm_num)
    (by norm_num) (by norm_num) rfl (by norm_num [exchangeOpts]) rfl (by norm_num [NewtonOpts.dflt])
    (by norm_num [NewtonOpts.dflt]) (by norm_num [NewtonOpts.dflt]) (by norm_num [exchangeOpts]) (by norm_num [exchangeOpts])
    (by decide) (by decide)
  exact ⟨fuel, out, h1, h2⟩

section
variable {fuel : ℕ} {out : IrkOutput ℝ ((irkCoeffs 211 : SolverCoeffs ℝ).ns * 2) 2} (h : ExchangeRun fuel out) (hs : out.status = 0)
include h

/-- `C38_lengths`, `C38_times`: the records are parallel, the times increase from 0 to 10 -/
example (hs : out.status = 0) : out.yVals.length = out.tVals.length ∧ out.tVals.Pairwise (· < ·) ∧ out.tVals.head? = some 0 ∧
    out.yVals.head? = some ![1, 2] ∧ out.tVals.getLast? = some 10 := by
  obtain ⟨h1, -, -, -, h5, h6⟩ := C38_lengths h
  obtain ⟨h7, -, -, h8⟩ := C38_times h (Or.inl rfl)
  exact ⟨h1, h7, h5, h6, h8 hs (by decide) (by decide)⟩

/-- `C38_records`: the recorded times are the times of a chain of steps that ends at 10 -/
example (hs : out.status = 0) : ∃ (Ai : Mat ℝ (irkCoeffs 211 : SolverCoeffs ℝ).ns) (acc : List (SampleI ℝ 2)),
    acc.IsChain (IrkStep false laReal exchange exchangeOpts NewtonOpts.dflt (irkCoeffs 211) Ai) ∧
    out.tVals = (everyNth 1 acc).map (·.t) ∧ ∃ l, acc.getLast? = some l ∧ 10 ≤ l.t := by
  obtain ⟨no, Ai, h1, -, acc, -, h4, -, ⟨rec, h6, h7, -⟩, -, h9, -⟩ := C38_records h
  cases h1
  obtain ⟨l, g1, g2⟩ := h9 hs
  refine ⟨Ai, acc, h4, ?_, l, g1, by simpa using g2⟩
  rw [h7, h6]
  rfl

/-- `C39_calls`, `C39_counters` -/
example (hs : out.status = 0) : out.count.funEvals = out.log.funs.length ∧ out.count.jacEvals = out.log.jacs.length ∧
    out.count.newtonMaxitExceed = out.count.rejectNewton ∧
    out.count.attempt = out.count.newtonSuccess + out.count.rejectNewton := by
  obtain ⟨acc, -, -, h3, h4, h5, -⟩ := C39_counters h hs
  exact ⟨(C39_calls h).1, (C39_calls h).2, h5, by omega⟩

/-- `C40_accepted`, `C40_tolerance`: no accepted error above 1, and what the error is -/
example : (∀ e ∈ out.err.tail, e ≤ 1) ∧ ∀ i y y' ee e, out.yVals[i]? = some y → out.yVals[i + 1]? = some y' →
    out.errEst[i + 1]? = some ee → out.err[i + 1]? = some e →
    e = max (wrms (1 / 10 ^ 6) (1 / 10 ^ 3) y y' ee) (1 / 10 ^ 17) :=
  ⟨fun e he => by simpa using C40_accepted h e he, (C40_tolerance h).2 (by decide) (by decide)⟩

/-- `C41_stream`: one line per accepted step -/
example : ∃ acc : List (SampleI ℝ 2), out.file.length = acc.length - 1 ∧
    ∀ i < out.file.length, out.file[i]? = (acc[i + 1]?).map fun b => (b.t, b.y) := by
  obtain ⟨no, Ai, -, -, acc, -, -, -, h6, -⟩ := C41_stream h (by decide)
  obtain ⟨g1, g2⟩ := h6 (by decide)
  have e : bothOutputs.interval.toNat = 1 := by decide
  rw [e] at g1 g2
  simp only [Nat.div_one, mul_one] at g1 g2
  exact ⟨acc, g1, g2⟩

/-- `C42_stages_zero_partial`: the recorded stages are zero -/
example : ∀ k ∈ out.stages, k = fun _ => 0 := by
  simpa using C42_stages_zero_partial h

/-- `C18_irk_max_dt_partial`: no step is longer than `max_dt` -/
example {i : ℕ} {t t' : ℝ} (ht : out.tVals[i]? = some t) (ht' : out.tVals[i + 1]? = some t') : t' - t ≤ 1 / 2 :=
  C18_irk_max_dt_partial h (Or.inl rfl) (by norm_num [exchangeOpts]) (le_refl _) (by decide) (by decide) ht ht'

/-- `C44_linear`: the total amount is conserved exactly, in the records and in the lines written -/
example : (∀ y ∈ out.yVals, y 0 + y 1 = 3) ∧ ∀ p ∈ out.file, p.2 0 + p.2 1 = 3 := by
  obtain ⟨h1, h2⟩ := C44_linear (w := fun _ => 1) laReal_exact laReal_sound
    (by intro t y; simp [exchange, Fin.sum_univ_two, dotProduct]; ring)
    (by intro t y l; fin_cases l <;> simp [exchange, Fin.sum_univ_two]) h
  simp only [Fin.sum_univ_two, one_mul, Matrix.cons_val_zero, Matrix.cons_val_one] at h1 h2
  exact ⟨fun y hy => by rw [h1 y hy]; norm_num, fun p hp => by rw [h2 p hp]; norm_num⟩

/-- `C37_run`: every step satisfies the Runge–Kutta equations up to a residual within the Newton tolerance -/
example : ∃ acc : List (SampleI ℝ 2), out.yVals = (everyNth 1 acc).map (·.y) ∧
    acc.IsChain (ResidualStep exchange NewtonOpts.dflt (irkCoeffs 211)) := by
  obtain ⟨no, h1, acc, -, -, h4, -, h6⟩ := C37_run laReal_exact laReal_sound h
  cases h1
  exact ⟨acc, h4, h6⟩

/-- `C37_affine`: since the system is linear every step is an exact Runge–Kutta step -/
example : ∃ acc : List (SampleI ℝ 2), out.yVals = (everyNth 1 acc).map (·.y) ∧
    acc.IsChain fun a b => a.t < b.t ∧ ∃ k, IsRKStep (fun i j : Fin (irkCoeffs 211 : SolverCoeffs ℝ).ns => (irkCoeffs 211 : SolverCoeffs ℝ).a i j)
      (fun i => (irkCoeffs 211 : SolverCoeffs ℝ).bw i) (fun i => (irkCoeffs 211 : SolverCoeffs ℝ).cn i) exchange.fn a.t (b.t - a.t)
      a.y b.y k := by
  obtain ⟨acc, -, h2, -, -, h5⟩ := C37_affine laReal_exact laReal_sound
    ⟨!![-1000, 1000; 1000, -1000], fun _ => 0, fun t y => by simp [exchange], fun t y i j => rfl⟩ h
  exact ⟨acc, h2, h5⟩

end

/-- `C37_update` for RADAU_IIA_53 and any `Y` -/
example (t h : ℝ) (y : Vec ℝ 2) (Y : Vec ℝ ((irkCoeffs 211 : SolverCoeffs ℝ).ns * 2)) :
    ∃ (Ai : Mat ℝ (irkCoeffs 211 : SolverCoeffs ℝ).ns) (d : Fin (irkCoeffs 211 : SolverCoeffs ℝ).ns → ℝ),
      laReal.inv (irkCoeffs 211 : SolverCoeffs ℝ).mat = some Ai ∧
      ∀ j : Fin (irkCoeffs 211 : SolverCoeffs ℝ).ns, ∑ i : Fin (irkCoeffs 211 : SolverCoeffs ℝ).ns,
        d i * (irkCoeffs 211 : SolverCoeffs ℝ).a i j = (irkCoeffs 211 : SolverCoeffs ℝ).bw j := by
  obtain ⟨fuel, out, hr, -⟩ := exchange_run
  obtain ⟨no, Ai, -, h2, -⟩ := C38_records hr
  obtain ⟨d, hd, -⟩ := C37_update laReal_exact h2 exchange.fn t h y Y
  exact ⟨Ai, d, h2, hd⟩

/-! ### the stage solver -/

/-- a solve of the stage equations that returns: the exchange reaction, step `1/2`, at most nine iterations, the Jacobian evaluated
again in every one of them -/
theorem exchange_solve : ∃ r, newtonSolveStages false laReal exchange (irkCoeffs 211) 0 (1 / 2) ![1, 2] 10 1 (1 / 10 ^ 8) (1 / 10 ^ 8)
    {} {} = .ret r :=
  newtonSolve_total (by norm_num) (usable_shipped (m := 211) (by decide)).c (by norm_num)
    (regular_dissipative (m := 211) (by decide) (fun t y i j => rfl) exchange_dissipative 0 ![1, 2] (by norm_num)).1

/-- `C36_contract` and `C36_evaluations`: the first iterate is zero and the Jacobian at the starting point is the one used -/
example : ∃ r m, newtonSolveStages false laReal exchange (irkCoeffs 211) 0 (1 / 2) ![1, 2] 10 1 (1 / 10 ^ 8) (1 / 10 ^ 8) {} {} = .ret r ∧
    ((r.status = 0 ∧ 0 < m ∧ m < 10) ∨ (r.status = 3 ∧ m = 9)) ∧ r.J = exchange.jac 0 ![1, 2] := by
  obtain ⟨r, hr⟩ := exchange_solve
  obtain ⟨m, Ys, dYs, h1, h2, h3, h4⟩ := C36_contract hr
  obtain ⟨m', Ys', -, -, hJ, -⟩ := C36_evaluations hr
  refine ⟨r, m, hr, ?_, hJ⟩
  rcases h4 with ⟨g1, g2, g3, -⟩ | ⟨g1, g2, -⟩
  · exact Or.inl ⟨g1, g2, by omega⟩
  · exact Or.inr ⟨g1, by omega⟩

/-- `C36_newton_equation`: the corrections of that solve satisfy the linear system with the matrix `I - h A ⊗ J` -/
example : ∃ (r : StageResult ℝ ((irkCoeffs 211 : SolverCoeffs ℝ).ns * 2) 2) (m : ℕ)
    (Ys dYs : ℕ → Vec ℝ ((irkCoeffs 211 : SolverCoeffs ℝ).ns * 2)), r.Y = Ys m ∧
    ∀ j < m, ∀ (p : Fin (irkCoeffs 211 : SolverCoeffs ℝ).ns) (q : Fin 2),
      dYs j (finProdFinEquiv (p, q)) - 1 / 2 * ∑ u : Fin (irkCoeffs 211 : SolverCoeffs ℝ).ns, (irkCoeffs 211 : SolverCoeffs ℝ).a p u *
        ∑ l, exchange.jac 0 ![1, 2] q l * dYs j (finProdFinEquiv (u, l)) =
      - constructR exchange.fn (irkCoeffs 211) 0 (1 / 2) ![1, 2] (Ys j) (finProdFinEquiv (p, q)) := by
  obtain ⟨r, hr⟩ := exchange_solve
  obtain ⟨-, m, Ys, dYs, H⟩ := stage_run hr
  exact ⟨r, m, Ys, dYs, H.final, fun j hj p q => C36_newton_equation laReal_exact laReal_sound H hj p q⟩

/-- `C36_ndebug_throws`: the same call in a build without assertions -/
example : newtonSolveStages true laReal exchange (irkCoeffs 211) 0 (1 / 2) ![1, 2] 10 1 (1 / 10 ^ 8) (1 / 10 ^ 8) {} {} = .throws :=
  C36_ndebug_throws (by norm_num)

/-! ### a run with a fixed step size -/

/-- Newton options that allow one iteration only -/
noncomputable def oneIter : NewtonOpts ℝ := { NewtonOpts.dflt with maxit := 1 }

/-- with an iteration limit of 1 the stage solve returns and fails, for any step size and whatever has been counted -/
theorem exchange_fails {h : ℝ} (hh : 0 < h) (c : IrkCounters) (l : CallLog ℝ 2) :
    ∃ r, newtonSolveStages false laReal exchange (irkCoeffs 211) 0 h ![1, 2] 1 oneIter.refreshJac oneIter.dxDelta oneIter.tol c l = .ret r ∧
      r.status ≠ 0 := by
  obtain ⟨r, hr⟩ := newtonSolve_total (fn := exchange) (sc := irkCoeffs 211) (t := 0) (h := h)
    (y := ![1, 2]) (maxit := 1) (refresh := oneIter.refreshJac) (xtol := oneIter.dxDelta)
    (Rtol := oneIter.tol) (count := c) (log := l) (by norm_num) (usable_shipped (m := 211) (by decide)).c
    (by norm_num [oneIter, NewtonOpts.dflt])
    (regular_dissipative (m := 211) (by decide) (fun t y i j => rfl) exchange_dissipative 0 ![1, 2] hh).1
  refine ⟨r, hr, fun h0 => ?_⟩
  have := success_iters hr h0
  omega

/-- a pass of the loop whose stage solve fails -/
theorem irkBody_fails {n : ℕ} {nd : Bool} {la : LinAlg ℝ} {fn : OdeFun ℝ n} {t1 : ℝ} {o : IrkOpts ℝ} {no : NewtonOpts ℝ} {oo : OutOpts}
    {sc : SolverCoeffs ℝ} {mo : ℕ} {d d2 : Vec ℝ sc.ns} {s : IrkState ℝ (sc.ns * n) n} {r : StageResult ℝ (sc.ns * n) n}
    (ht : s.t < t1) (hm : ¬ (0 ≤ o.maxSteps ∧ o.maxSteps < s.step))
    (hr : newtonSolveStages nd la fn sc s.t (clipDt s.t t1 s.dt) s.y s.newtonMaxit no.refreshJac no.dxDelta no.tol s.sol.bump.count
      s.sol.log = .ret r) (hs : r.status ≠ 0) :
    irkBody nd la fn t1 o no oo sc mo d d2 s = if o.adaptive then .next (newtonReject s (clipDt s.t t1 s.dt) no.maxit r.status r.count r.log)
      else .done (.ret { s.sol.bump with status := 4, count := r.count, log := r.log }) := by
  unfold irkBody
  rw [if_pos (by simpa using ht)]
  simp only
  rw [if_neg hm, hr]
  simp only
  rw [if_pos hs]
  cases o.adaptive <;> rfl

/-- `C43_fixed_never_steps`: the first stage solve fails and the run returns GENERAL_ERROR -/
example : ∃ out, irkGuts false laReal exchange 0 10 ![1, 2]
      { exchangeOpts with adaptive := false, newtonOpts := some oneIter } (1 / 2) (irkCoeffs 211)
      bothOutputs 1 = some (.ret out) ∧ out.tVals = [0] ∧ out.status ≠ 0 := by
  have hc : (0 : ℝ) < clipDt 0 10 (1 / 2) := by rw [clipDt_real]; norm_num
  obtain ⟨mo, he⟩ := irkGuts_loop (fn := exchange) (y0 := ![1, 2]) (oo := bothOutputs) (fuel := 1) (t0 := 0) (t1 := 10) (dt := 1 / 2)
    (o := { exchangeOpts with adaptive := false, newtonOpts := some oneIter }) (usable_shipped (m := 211) (by decide)) rfl hc
  have hp : (0 : ℝ) < clipDt 0 10 (clipDt 0 10 (1 / 2)) := by rw [clipDt_real]; exact lt_min hc (by norm_num)
  obtain ⟨r, hr, hs⟩ := exchange_fails hp { attempt := 1 } {}
  have hb : ∃ out, irkGuts false laReal exchange 0 10 ![1, 2]
      { exchangeOpts with adaptive := false, newtonOpts := some oneIter } (1 / 2) (irkCoeffs 211)
      bothOutputs 1 = some (.ret out) := by
    have hbody := irkBody_fails (o := { exchangeOpts with adaptive := false, newtonOpts := some oneIter }) (no := oneIter) (mo := mo)
      (oo := bothOutputs) (t1 := 10) (s := irkInit _ 0 ![1, 2] (clipDt 0 10 (1 / 2)) oneIter.maxit) (by norm_num [irkInit])
      (by norm_num [exchangeOpts]) (d := dWeights (fun i j => (Matrix.of (irkCoeffs 211 : SolverCoeffs ℝ).mat)⁻¹ i j) fun i => (irkCoeffs 211 : SolverCoeffs ℝ).bw i)
      (d2 := dWeights (fun i j => (Matrix.of (irkCoeffs 211 : SolverCoeffs ℝ).mat)⁻¹ i j) fun i => (irkCoeffs 211 : SolverCoeffs ℝ).bw2 i) hr hs
    rw [he]
    simp only [runLoop, hbody]
    exact ⟨_, rfl⟩
  obtain ⟨out, ho⟩ := hb
  obtain ⟨h1, -, h3⟩ := C43_fixed_never_steps rfl ho
  exact ⟨out, ho, h1, fun h0 => by have := h3 h0; norm_num at this⟩

/-! ### a run that cannot end -/

/-- `C63_irk_diverges` and `C63_irk_only_rejections_partial`: with an iteration limit of 1 and `max_steps = 3`, after ten passes at least
six attempts have been rejected -/
example : irkGuts false laReal exchange 0 10 ![1, 2] { exchangeOpts with maxSteps := 3, newtonOpts := some oneIter } (1 / 2)
      (irkCoeffs 211) bothOutputs 10 = none ∧
    ∃ mo d d2 s, Reach (irkBody false laReal exchange 10 { exchangeOpts with maxSteps := 3, newtonOpts := some oneIter } oneIter
      bothOutputs (irkCoeffs 211) mo d d2) (irkInit _ 0 ![1, 2] (1 / 2) 1) s ∧
      6 ≤ s.sol.count.rejectErr + s.sol.count.rejectNewton := by
  have h := C63_irk_diverges (fn := exchange) (y0 := ![1, 2]) (t0 := 0) (t1 := 10) (dt := 1 / 2) (oo := bothOutputs)
    (o := { exchangeOpts with maxSteps := 3, newtonOpts := some oneIter })
    (usable_shipped (m := 211) (by decide)) rfl rfl (by norm_num) (by norm_num) (by norm_num) (by norm_num [oneIter, NewtonOpts.dflt])
    (fun h hh => regular_dissipative (m := 211) (by decide) (fun t y i j => rfl) exchange_dissipative 0 ![1, 2] hh)
    (Or.inl (by simp [oneIter])) 10
  refine ⟨h, ?_⟩
  obtain ⟨no, mo, Ai, s, h1, -, -, hr, hk⟩ := C63_irk_only_rejections_partial (by norm_num) h
  cases h1
  have e : clipDt (0 : ℝ) 10 (1 / 2) = 1 / 2 := by rw [clipDt_real]; norm_num
  rw [e] at hr
  refine ⟨mo, _, _, s, hr, ?_⟩
  push_cast at hk
  omega

/-- `C21_irk_reject` and `C25_irk_decided`: the first pass of that run is a rejection by Newton's method; the next attempt starts from the
same state with `0.7` times the step size -/
example (d d2 : Vec ℝ (irkCoeffs 211 : SolverCoeffs ℝ).ns) : ∃ s', irkBody false laReal exchange 10
      { exchangeOpts with maxSteps := 3, newtonOpts := some oneIter } oneIter bothOutputs (irkCoeffs 211) 3 d d2
      (irkInit _ 0 ![1, 2] (1 / 2) 1) = .next s' ∧ s'.t = 0 ∧ s'.y = ![1, 2] ∧ s'.sol.tVals = [0] ∧ s'.dt = 7 / 20 := by
  obtain ⟨r, hr, hs⟩ := exchange_fails (h := clipDt 0 10 (1 / 2)) (by rw [clipDt_real]; norm_num) { attempt := 1 } {}
  have hbody := irkBody_fails (o := { exchangeOpts with maxSteps := 3, newtonOpts := some oneIter }) (no := oneIter) (mo := 3)
    (oo := bothOutputs) (t1 := 10) (s := irkInit _ 0 ![1, 2] (1 / 2) 1) (by norm_num [irkInit]) (by norm_num [irkInit]) (d := d) (d2 := d2)
    hr hs
  replace hbody := hbody.trans (if_pos rfl)
  refine ⟨_, hbody, ?_⟩
  have hT : TimeInvI 0 10 (irkInit ((irkCoeffs 211 : SolverCoeffs ℝ).ns * 2) (0 : ℝ) (![1, 2] : Vec ℝ 2) (1 / 2) 1) := by
    constructor <;> norm_num [irkInit]
  obtain ⟨h1, h2, h3, -, -, -, -, -, -, -, h11⟩ := C21_irk_reject hT hbody rfl
  refine ⟨h1, h2, h3, ?_⟩
  rw [h11 ?_]
  · norm_num [irkInit]
  · simp [newtonReject, irkInit, IrkOutput.bump]

/-- `C25_irk_refused` and `C25_irk_odeint_refused`: an empty interval, and a step size of zero -/
example : irkGuts false laReal exchange 1 1 ![1, 2] exchangeOpts (1 / 2) (irkCoeffs 211) bothOutputs 5 = some .assertFail ∧
    irkOdeint false laReal exchange 0 1 ![1, 2] exchangeOpts bothOutputs 211 0 5 = some .assertFail :=
  ⟨C25_irk_refused (Or.inl le_rfl), C25_irk_odeint_refused (Or.inr le_rfl)⟩

/-- `C17_irk_max_steps_partial`: `y' = 1` with `max_steps = 7` -/
example : ∃ out, irkGuts false laReal (constFun (n := 1) fun _ => 1) 0 1 (fun _ => 0) (demoOpts 7) 1
    (irkCoeffs 210 : SolverCoeffs ℝ) OutOpts.dflt 2 = some (.ret out) ∧ out.tVals.length ≤ 9 := by
  obtain ⟨out, h1, -⟩ := demo_run 7
  have := (C17_irk_max_steps_partial (by norm_num [demoOpts]) h1).2.2
  simp only [demoOpts] at this
  exact ⟨out, h1, by omega⟩

/-! ### methods that never return -/

/-- `C08_irk_unsupported`: the code of LOBATTO_IIIA_85, and of an explicit method -/
example : irkOdeint false laReal exchange 0 1 ![1, 2] exchangeOpts bothOutputs 221 1 5 = some .assertFail ∧
    irkOdeint true laReal exchange 0 1 ![1, 2] exchangeOpts bothOutputs 131 1 5 = some .ub :=
  ⟨C08_irk_unsupported (by decide), C08_irk_unsupported (by decide)⟩

/-- `C43_uninitialised`, `C43_implicit_euler`, `C43_singular` on the exchange reaction -/
example : irkOdeint false laReal exchange 0 1 ![1, 2] exchangeOpts bothOutputs 222 1 5 = some .ub ∧
    irkOdeint false laReal exchange 0 1 ![1, 2] exchangeOpts bothOutputs 200 1 5 = some .throws ∧
    irkOdeint false laReal exchange 0 1 ![1, 2] exchangeOpts bothOutputs 240 1 5 = some .throws :=
  ⟨C43_uninitialised (Or.inl rfl) rfl (Or.inr (by rw [clipDt_real]; norm_num)),
   C43_implicit_euler rfl (Or.inr (by rw [clipDt_real]; norm_num)),
   C43_singular laReal_exact (Or.inr rfl) rfl (Or.inr ⟨by norm_num, by norm_num⟩)⟩

/-! ### order -/

/-- `C49_row_sums`, `C49_order_conditions`, `C49_embedded_partial`, `C49_embedded_fails`: the main formulas of LOBATTO_IIIC_85, the
embedded ones of RADAU_IIA_53 and of RADAU_IIA_32 -/
example : (∀ i : Fin (irkCoeffs 232 : SolverCoeffs ℝ).ns, ∑ j : Fin (irkCoeffs 232 : SolverCoeffs ℝ).ns, (irkCoeffs 232 : SolverCoeffs ℝ).a i j = (irkCoeffs 232 : SolverCoeffs ℝ).cn i) ∧
    (∃ p : ℕ, 0 < p ∧ (irkCoeffs 232 : SolverCoeffs ℝ).order = some (p : ℤ) ∧
      HasOrder (fun i j : Fin (irkCoeffs 232 : SolverCoeffs ℝ).ns => (irkCoeffs 232 : SolverCoeffs ℝ).a i j)
        (fun i => (irkCoeffs 232 : SolverCoeffs ℝ).bw i) p) ∧
    (∃ p : ℕ, 0 < p ∧ (irkCoeffs 211 : SolverCoeffs ℝ).order2 = some (p : ℤ) ∧
      HasOrder (extA fun i j : Fin (irkCoeffs 211 : SolverCoeffs ℝ).ns => (irkCoeffs 211 : SolverCoeffs ℝ).a i j)
        (extB (irkCoeffs 211 : SolverCoeffs ℝ).gamma fun i => (irkCoeffs 211 : SolverCoeffs ℝ).bw2 i) p) ∧
    ∃ p : ℕ, 2 ≤ p ∧ (irkCoeffs 210 : SolverCoeffs ℝ).order2 = some (p : ℤ) ∧ ∀ r, (badTree 210).order ≤ r →
      ¬ HasOrder (extA fun i j : Fin (irkCoeffs 210 : SolverCoeffs ℝ).ns => (irkCoeffs 210 : SolverCoeffs ℝ).a i j)
        (extB (irkCoeffs 210 : SolverCoeffs ℝ).gamma fun i => (irkCoeffs 210 : SolverCoeffs ℝ).bw2 i) r :=
  ⟨fun i => C49_row_sums (by decide) i, C49_order_conditions (by decide), C49_embedded_partial (by decide),
    C49_embedded_fails (by decide)⟩

/-! ### binary64 -/

section
open FP

/-- the `pow` of the examples in `Verif.Prop.ErkFP` -/
local instance : Libm := powOne

/-- linear algebra that treats every matrix as the identity -/
def laId : LinAlg FP :=
  { solve := fun _ v => some v, inv := fun M => some M, lu := fun {n} M => some (eye n, M, eye n), solveL := fun _ v => some v
    solveU := fun _ v => some v }

/-- linear algebra in which no factorisation succeeds -/
def laNoLu : LinAlg FP := { laId with lu := fun _ => none }

/-- an absolute tolerance that is NaN -/
def nanOpts : IrkOpts FP :=
  { adaptive := true, relTol := fin 0, absTol := nan, maxDt := fin 0, maxSteps := -1, newtonOpts := none }

/-- `y' = 0` -/
def restFP : OdeFun FP 1 := ⟨fun _ _ _ => fin 0, fun _ _ _ _ => fin 0⟩

/-- `C25_irk_lu_asserts`: `y' = 0` in binary64 with a factorisation that fails -/
example : irkBody false laNoLu restFP (fin 1) nanOpts NewtonOpts.dflt OutOpts.dflt
      (irkCoeffs 210) 2 (fun _ => fin 0) (fun _ => fin 0) (irkInit _ (fin 0) (fun _ => fin 0) (fin 1) 10) = .done .assertFail :=
  C25_irk_lu_asserts (by decide +kernel) (by decide) rfl

/-- `C25_irk_nan_asserts`: `y' = 0` in binary64 with a tolerance that is NaN -/
example : irkBody false laId restFP (fin 1) nanOpts NewtonOpts.dflt OutOpts.dflt
      (irkCoeffs 210) 2 (fun _ => fin 0) (fun _ => fin 0) (irkInit _ (fin 0) (fun _ => fin 0) (fin 1) 10) = .done .assertFail := by
  have h0 : (match newtonSolveStages false laId restFP (irkCoeffs 210)
      (fin 0) (clipDt (fin 0) (fin 1) (fin 1)) (fun _ => fin 0) 10 (NewtonOpts.dflt : NewtonOpts FP).refreshJac
      (NewtonOpts.dflt : NewtonOpts FP).dxDelta (NewtonOpts.dflt : NewtonOpts FP).tol { attempt := 1 } {} with
    | .ret r => decide (r.status = 0) && (match attemptI laId restFP nanOpts (irkCoeffs 210) 2 (fun _ => fin 0)
        (fun _ => fin 0) (irkInit ((irkCoeffs 210 : SolverCoeffs FP).ns * 1) (fin 0) (fun _ => fin 0) (fin 1) 10)
        (clipDt (fin 0) (fin 1) (fin 1)) r.success with
      | some a => !leb (lit 0) a.errTot
      | none => false)
    | _ => false) = true := by
    decide +kernel
  split at h0
  case h_1 r hr =>
    rw [Bool.and_eq_true] at h0
    obtain ⟨h1, h2⟩ := h0
    split at h2
    case h_1 a ha =>
      exact C25_irk_nan_asserts (by decide +kernel) (by decide) rfl hr (of_decide_eq_true h1) ha (by simpa using h2)
    case h_2 => cases h2
  case h_2 => cases h0
end

end Verif
