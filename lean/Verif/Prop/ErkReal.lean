import Verif.ErkRun
import Verif.Prop.Erk

/-!
# Properties C11, C12, C13, C15, C18, C21, C24, C25 of the explicit integrator in exact arithmetic
-/

namespace Verif
open Spec
variable {n : ℕ} {nd : Bool} {f : ℝ → Vec ℝ n → Vec ℝ n} {t0 t1 : ℝ} {y0 : Vec ℝ n}
  {o : ErkOpts ℝ} {dt : ℝ} {sc : SolverCoeffs ℝ} {oo : OutOpts} {fuel : ℕ} {out : ErkOutput ℝ n}
  {m : ℤ}

/-- **C11.**  Returned times strictly increase, start at `t0`, lie in `[t0, t1]`; the status is SUCCESS (0), and
then the last time is exactly `t1`, or ERROR_MAX_STEPS_EXCEEDED (128), and then it is smaller.  `hpos`: either
assertions are enabled or the arguments are valid. -/
theorem C11_times (h : erkGuts nd f t0 t1 y0 o dt sc oo fuel = some (.ret out))
    (hpos : nd = false ∨ (0 < dt ∧ t0 < t1)) :
    out.tVals.Pairwise (· < ·) ∧ (∀ t ∈ out.tVals, t0 ≤ t ∧ t ≤ t1) ∧
    out.tVals.head? = some t0 ∧
    ∃ tl, out.tVals.getLast? = some tl ∧
      ((out.status = 0 ∧ tl = t1) ∨ (out.status = 128 ∧ tl < t1)) := by
  obtain ⟨recs, s, hc, hch, hh, hT, -, -, ⟨l, hl, hlt, -⟩, hst⟩ :=
    erk_chain (J := fun _ => True) (Rel := fun t _ b => t < b.t) h hpos
      (fun _ _ _ => trivial) (fun _ _ _ _ _ _ => trivial)
      (fun mo s _ hT hlt hr => by
        have := (clip_facts hT hlt).1
        rw [← attempt_dt (f := f) (o := o) (sc := sc) (mo := mo)] at this
        simp only [newSample]; linarith)
  have hpw : out.tVals.Pairwise (· < ·) := by
    rw [hc.t, List.pairwise_map]
    exact List.isChain_iff_pairwise.mp (hch.imp (fun _ _ h => h)) |>.imp (fun h => h)
  have hhead : out.tVals.head? = some t0 := by rw [hc.t, List.head?_map, hh]; rfl
  have hlast : out.tVals.getLast? = some s.t := by
    rw [hc.t, List.getLast?_map, hl, Option.map_some, hlt]
  refine ⟨hpw, ?_, hhead, s.t, hlast, hst⟩
  intro t ht
  constructor
  · cases hv : out.tVals with
    | nil => rw [hv] at ht; cases ht
    | cons a l =>
      rw [hv] at ht hhead hpw
      simp only [List.head?_cons, Option.some.injEq] at hhead
      subst hhead
      rcases List.mem_cons.mp ht with rfl | ht
      · exact le_refl _
      · exact (List.rel_of_pairwise_cons hpw ht).le
  · obtain ⟨l', hl'⟩ := List.getLast?_eq_some_iff.mp hlast
    rw [hl'] at ht hpw
    rcases List.mem_append.mp ht with ht | ht
    · have := (List.pairwise_append.mp hpw).2.2 t ht s.t (by simp)
      linarith [hT.hi]
    · rw [List.mem_singleton] at ht; rw [ht]; exact hT.hi

example : ∃ fuel out, erkOdeint (F := ℝ) (n := 2) false (fun _ y => ![y 1 - y 0, y 0 - y 1]) 0 1 ![1, 3]
    { adaptive := false, relTol := 1, absTol := 1, maxDt := 0, maxSteps := -1 } OutOpts.dflt 110 (1 / 2) fuel
      = some (.ret out) ∧ out.tVals.Pairwise (· < ·) := by
  obtain ⟨fuel, out, h, -⟩ := system_demo (m := 110) (by decide)
  exact ⟨fuel, out, h, (C11_times (erkOdeint_ret h).2 (Or.inl rfl)).1⟩

/-- **C11 (odeint).** -/
theorem C11_odeint (h : erkOdeint nd f t0 t1 y0 o oo m dt fuel = some (.ret out))
    (hpos : nd = false ∨ (0 < dt ∧ t0 < t1)) :
    out.tVals.Pairwise (· < ·) ∧ (∀ t ∈ out.tVals, t0 ≤ t ∧ t ≤ t1) ∧
    out.tVals.head? = some t0 ∧
    ∃ tl, out.tVals.getLast? = some tl ∧
      ((out.status = 0 ∧ tl = t1) ∨ (out.status = 128 ∧ tl < t1)) :=
  C11_times (erkOdeint_ret h).2 hpos

/-- hypotheses of the run theorems are met by an adaptive Dormand–Prince run -/
example : ∃ fuel out, erkOdeint (F := ℝ) (n := 1) false (fun _ _ _ => 1) 0 1 (fun _ => 0)
    { adaptive := true, relTol := 1, absTol := 1, maxDt := 1 / 2, maxSteps := -1 } OutOpts.dflt 131 1
    fuel = some (.ret out) ∧ out.tVals.head? = some 0 := by
  obtain ⟨fuel, out, h⟩ := adaptive_demo
  exact ⟨fuel, out, h, (C11_odeint h (Or.inl rfl)).2.2.1⟩

/-- the relation between consecutive records: a Runge–Kutta step and its error estimate -/
def RKRel (f : ℝ → Vec ℝ n → Vec ℝ n) (sc : SolverCoeffs ℝ) (o : ErkOpts ℝ) (t : ℝ) (y : Vec ℝ n)
    (b : Sample ℝ n) : Prop :=
  ∃ k : Fin sc.ns → Vec ℝ n, b.ks = List.ofFn k ∧
    IsRKStep (fun i j => sc.a i j) (fun i => sc.bw i) (fun i => sc.cn i) f t (b.t - t) y b.y k ∧
    (o.adaptive = true → b.errEst = (b.t - t) • ∑ j : Fin sc.ns, (sc.bw2 j - sc.bw j) • k j ∧
      b.err = max (wrms o.absTol o.relTol y b.y b.errEst) (1 / 10 ^ 17) ∧ b.err < 1)

/-- chain of Runge–Kutta steps, with the error estimate -/
theorem rk_chain (hex : Explicit sc) (hfs : sc.fsal = true → FsalOK sc)
    (h : erkGuts nd f t0 t1 y0 o dt sc oo fuel = some (.ret out))
    (hpos : nd = false ∨ (0 < dt ∧ t0 < t1)) {i : ℕ} {t t' : ℝ}
    (ht : out.tVals[i]? = some t) (ht' : out.tVals[i + 1]? = some t') :
    ∃ (y y' : Vec ℝ n) (k : Fin sc.ns → Vec ℝ n) (ee : Vec ℝ n) (e : ℝ),
      out.yVals[i]? = some y ∧ out.yVals[i + 1]? = some y' ∧
      out.stages[i + 1]? = some (List.ofFn k) ∧
      out.errEst[i + 1]? = some ee ∧ out.err[i + 1]? = some e ∧
      IsRKStep (fun i j => sc.a i j) (fun i => sc.bw i) (fun i => sc.cn i) f t (t' - t) y y' k ∧
      (o.adaptive = true → ee = (t' - t) • ∑ j : Fin sc.ns, (sc.bw2 j - sc.bw j) • k j ∧
        e = max (wrms o.absTol o.relTol y y' ee) (1 / 10 ^ 17) ∧ e < 1) := by
  obtain ⟨recs, s, hc, hch, -⟩ :=
    erk_chain (J := fun s => FsalInv f sc s) (Rel := RKRel f sc o)
      h hpos (fun _ _ _ => fsalInv_init) (fun _ _ _ _ hJ hb => fsalInv_next hfs hex hJ hb)
      (fun mo s hF hT hlt hr => by
        refine ⟨fun i => (attemptAt f t1 o sc mo s).Ks i, ?_, ?_, ?_⟩
        · simp only [newSample]; rw [ksList_ofFn]
        · have := attempt_isRKStep (t1 := t1) (o := o) (mo := mo) hfs hex hF
          simp only [newSample, add_sub_cancel_left]
          exact this
        · intro had
          obtain ⟨e1, e2, e3, e4, e5⟩ :=
            attempt_adaptive (f := f) (t1 := t1) (sc := sc) (mo := mo) had s
          rw [had] at hr
          simp only [newSample, add_sub_cancel_left]
          refine ⟨?_, ?_, ?_⟩
          · rw [e5]
            funext k
            simp only [combine_real, Pi.smul_apply, Finset.sum_apply, smul_eq_mul]
            rw [← Finset.sum_sub_distrib,
              Fin.sum_univ_eq_sum_range
                (fun j => (sc.bw2 j - sc.bw j) * (attemptAt f t1 o sc mo s).Ks j k) sc.ns]
            congr 1
            apply Finset.sum_congr rfl; intros; ring
          · rw [e1, e4, errNorm_wrms]
            simp [machinePrecision]
          · have hr' := hr.resolve_left (by simp)
            rw [e3] at hr'
            simpa using hr')
  obtain ⟨b, y, h1, ⟨k, hk, hs, he⟩, rfl, h3, h4, h5, h6⟩ := chain_at (Rel := RKRel f sc o) hc hch ht ht'
  exact ⟨y, b.y, k, b.errEst, b.err, h1, h3, by rw [h4, hk], h5, h6, hs, he⟩

/-- **C12 (erk_guts).**  For every explicit tableau that passes `verify_solver_coeffs` (and has the
first-same-as-last structure if it is flagged so), sample `i+1` is one textbook Runge–Kutta step of length
`t_{i+1} - t_i` from sample `i`, and the recorded stages are the stages of that step. -/
theorem C12_guts (hv : erkVerify sc = true) (hfs : sc.fsal = true → FsalOK sc)
    (h : erkGuts nd f t0 t1 y0 o dt sc oo fuel = some (.ret out))
    (hpos : nd = false ∨ (0 < dt ∧ t0 < t1)) {i : ℕ} {t t' : ℝ}
    (ht : out.tVals[i]? = some t) (ht' : out.tVals[i + 1]? = some t') :
    ∃ (y y' : Vec ℝ n) (k : Fin sc.ns → Vec ℝ n),
      out.yVals[i]? = some y ∧ out.yVals[i + 1]? = some y' ∧
      out.stages[i + 1]? = some (List.ofFn k) ∧
      IsRKStep (fun i j => sc.a i j) (fun i => sc.bw i) (fun i => sc.cn i) f t (t' - t) y y' k := by
  obtain ⟨y, y', k, -, -, h1, h2, h3, -, -, h4, -⟩ :=
    rk_chain (erkVerify_explicit hv).1 hfs h hpos ht ht'
  exact ⟨y, y', k, h1, h2, h3, h4⟩

/-- the second of two RK4 steps -/
example : ∃ fuel out, erkOdeint (F := ℝ) (n := 2) false (fun _ y => ![y 1 - y 0, y 0 - y 1]) 0 1 ![1, 3]
    { adaptive := false, relTol := 1, absTol := 1, maxDt := 0, maxSteps := -1 } OutOpts.dflt 110 (1 / 2) fuel
      = some (.ret out) ∧ ∃ y y' : Vec ℝ 2, out.yVals[1]? = some y ∧ out.yVals[2]? = some y' := by
  obtain ⟨fuel, out, h, -, ht⟩ := system_demo (m := 110) (by decide)
  obtain ⟨hm, h'⟩ := erkOdeint_ret h
  obtain ⟨y, y', k, h1, h2, -⟩ := C12_guts (i := 1) ((C08_erk (F := ℝ) (by simp) 110).mpr hm)
    (fun _ => (shipped_facts hm).2.1 ‹_›) h' (Or.inl rfl) (t := 1 / 2) (t' := 1) (by rw [ht]; rfl) (by rw [ht]; rfl)
  exact ⟨fuel, out, h, y, y', h1, h2⟩

/-- **C12 (odeint).**  Same for `odeint` with any method code for which it returns. -/
theorem C12_odeint (h : erkOdeint nd f t0 t1 y0 o oo m dt fuel = some (.ret out))
    (hpos : nd = false ∨ (0 < dt ∧ t0 < t1)) {i : ℕ} {t t' : ℝ}
    (ht : out.tVals[i]? = some t) (ht' : out.tVals[i + 1]? = some t') :
    ∃ (y y' : Vec ℝ n) (k : Fin (erkCoeffs m : SolverCoeffs ℝ).ns → Vec ℝ n),
      out.yVals[i]? = some y ∧ out.yVals[i + 1]? = some y' ∧
      out.stages[i + 1]? = some (List.ofFn k) ∧
      IsRKStep (fun i j => (erkCoeffs m : SolverCoeffs ℝ).a i j)
        (fun i => (erkCoeffs m : SolverCoeffs ℝ).bw i)
        (fun i => (erkCoeffs m : SolverCoeffs ℝ).cn i) f t (t' - t) y y' k := by
  obtain ⟨hm, h'⟩ := erkOdeint_ret h
  obtain ⟨hex, hfs, -⟩ := shipped_facts hm
  obtain ⟨y, y', k, -, -, h1, h2, h3, -, -, h4, -⟩ := rk_chain hex hfs h' hpos ht ht'
  exact ⟨y, y', k, h1, h2, h3, h4⟩

/-- the second of two RK4 steps has length 1/2 -/
example : ∃ fuel out, erkOdeint (F := ℝ) (n := 2) false (fun _ y => ![y 1 - y 0, y 0 - y 1]) 0 1 ![1, 3]
    { adaptive := false, relTol := 1, absTol := 1, maxDt := 0, maxSteps := -1 } OutOpts.dflt 110 (1 / 2) fuel
      = some (.ret out) ∧ ∃ (y y' : Vec ℝ 2) (k : Fin 4 → Vec ℝ 2), out.yVals[1]? = some y ∧
    out.yVals[2]? = some y' ∧ out.stages[2]? = some (List.ofFn k) := by
  obtain ⟨fuel, out, h, -, ht⟩ := system_demo (m := 110) (by decide)
  obtain ⟨y, y', k, h1, h2, h3, -⟩ := C12_odeint h (Or.inl rfl) (i := 1) (t := 1 / 2) (t' := 1) (by rw [ht]; rfl)
    (by rw [ht]; rfl)
  exact ⟨fuel, out, h, y, y', k, h1, h2, h3⟩

/-- hypotheses met: one Euler step, samples 0 and 1 -/
example : ∃ fuel out, erkOdeint (F := ℝ) (n := 1) false (fun _ _ _ => 1) 0 1 (fun _ => 0)
    { adaptive := false, relTol := 1, absTol := 1, maxDt := 0, maxSteps := -1 } OutOpts.dflt 100 1 fuel
      = some (.ret out) ∧ out.tVals[0]? = some 0 ∧ out.tVals[0 + 1]? = some 1 := by
  obtain ⟨fuel, out, h, h0, ht⟩ := euler_one_step (-1) (Or.inl (by norm_num)) OutOpts.dflt
    (fun h => by revert h; decide)
  exact ⟨fuel, out, h, by rw [ht]; rfl, by rw [ht]; rfl⟩

/-- **C13.**  Adaptive run (embedded weights present): the estimate recorded with sample `i+1` is
`h Σ (b2_j - b_j) k_j` for the stages `k` of that step, its weighted RMS norm is `< 1`, and the recorded `err` is
the larger of that norm and `1e-17`. -/
theorem C13_within_tolerance (h : erkOdeint nd f t0 t1 y0 o oo m dt fuel = some (.ret out))
    (hpos : nd = false ∨ (0 < dt ∧ t0 < t1)) (had : o.adaptive = true)
    (hb2 : (erkCoeffs m : SolverCoeffs ℝ).b2 ≠ []) {i : ℕ} {t t' : ℝ}
    (ht : out.tVals[i]? = some t) (ht' : out.tVals[i + 1]? = some t') :
    ∃ (y y' : Vec ℝ n) (k : Fin (erkCoeffs m : SolverCoeffs ℝ).ns → Vec ℝ n) (ee : Vec ℝ n) (e : ℝ),
      out.yVals[i]? = some y ∧ out.yVals[i + 1]? = some y' ∧
      out.stages[i + 1]? = some (List.ofFn k) ∧
      out.errEst[i + 1]? = some ee ∧ out.err[i + 1]? = some e ∧
      ee = (t' - t) • ∑ j : Fin (erkCoeffs m : SolverCoeffs ℝ).ns, ((erkCoeffs m : SolverCoeffs ℝ).bw2 j -
        (erkCoeffs m : SolverCoeffs ℝ).bw j) • k j ∧
      wrms o.absTol o.relTol y y' ee < 1 ∧
      e = max (wrms o.absTol o.relTol y y' ee) (1 / 10 ^ 17) := by
  obtain ⟨hm, h'⟩ := erkOdeint_ret h
  obtain ⟨hex, hfs, -⟩ := shipped_facts hm
  obtain ⟨y, y', k, ee, e, h1, h2, h3, h4, h5, -, h6⟩ := rk_chain hex hfs h' hpos ht ht'
  obtain ⟨f1, f2, -, -⟩ := effOpts_fields o (erkCoeffs m : SolverCoeffs ℝ)
  obtain ⟨g1, g2, g3⟩ := h6 (effOpts_adaptive.mpr ⟨had, by simpa using hb2⟩)
  rw [f1, f2] at g2
  exact ⟨y, y', k, ee, e, h1, h2, h3, h4, h5, g1, lt_of_le_of_lt (le_max_left _ _) (g2 ▸ g3), g2⟩

/-- hypotheses met: an adaptive Dormand–Prince run has a sample 0 and a sample 1 -/
theorem adaptive_pair : ∃ fuel out t t', erkOdeint (F := ℝ) (n := 1) false (fun _ _ _ => 1) 0 1 (fun _ => 0)
    { adaptive := true, relTol := 1, absTol := 1, maxDt := 1 / 2, maxSteps := -1 } OutOpts.dflt 131 1
    fuel = some (.ret out) ∧ out.tVals[0]? = some t ∧ out.tVals[0 + 1]? = some t' := by
  obtain ⟨fuel, out, h⟩ := adaptive_demo
  obtain ⟨-, -, hh, tl, hl, hst⟩ := C11_odeint h (Or.inl rfl)
  cases hv : out.tVals with
  | nil => rw [hv] at hh; cases hh
  | cons a l =>
    rw [hv] at hh hl
    cases l with
    | cons b l => exact ⟨fuel, out, a, b, h, by rw [hv]; rfl, by rw [hv]; rfl⟩
    | nil =>
      exfalso
      simp only [List.head?_cons, Option.some.injEq] at hh
      simp only [List.getLast?_singleton, Option.some.injEq] at hl
      obtain ⟨mo, s, -, -, -, hout⟩ := erkGuts_ret (erkOdeint_ret h).2
      rcases hout with ⟨-, e⟩ | ⟨-, h0, -⟩
      · rcases hst with ⟨-, h1⟩ | ⟨h1, -⟩
        · exact zero_ne_one (hh.symm.trans (hl.trans h1))
        · obtain ⟨recs, -, -, -, -, h3⟩ := erk_out_facts (erkOdeint_ret h).2
          rcases h3 with h3 | h3
          · rw [h3.1] at h1; norm_num at h1
          · have := h3.2.2; rw [e] at this; simp at this
      · rw [(effOpts_fields _ _).2.2.2] at h0; norm_num at h0

example : ∃ fuel out t t' ee e, erkOdeint (F := ℝ) (n := 1) false (fun _ _ _ => 1) 0 1 (fun _ => 0)
    { adaptive := true, relTol := 1, absTol := 1, maxDt := 1 / 2, maxSteps := -1 } OutOpts.dflt 131 1
    fuel = some (.ret out) ∧ out.tVals[0]? = some t ∧ out.tVals[0 + 1]? = some t' ∧ out.errEst[0 + 1]? = some ee ∧
    out.err[0 + 1]? = some e := by
  obtain ⟨fuel, out, t, t', h, h1, h2⟩ := adaptive_pair
  obtain ⟨-, -, -, ee, e, -, -, -, h3, h4, -⟩ := C13_within_tolerance h (Or.inl rfl) rfl
    (by simp [erkCoeffs, dormandPrince54]) h1 h2
  exact ⟨fuel, out, t, t', ee, e, h, h1, h2, h3, h4⟩

/-- **C15.**  Every call of the user's function is made at a time in `[t0, t1]`, rejected attempts included. -/
theorem C15_calls_in_interval (h : erkOdeint nd f t0 t1 y0 o oo m dt fuel = some (.ret out))
    (hpos : nd = false ∨ (0 < dt ∧ t0 < t1)) : ∀ p ∈ out.calls, t0 ≤ p.1 ∧ p.1 ≤ t1 := by
  obtain ⟨hm, h'⟩ := erkOdeint_ret h
  obtain ⟨-, -, -, hcn, -⟩ := shipped_facts hm
  have h01 := (valid_of_ret h' hpos).2
  obtain ⟨recs, s, -, -, -, -, hJ, hcalls, -⟩ :=
    erk_chain (J := fun s => ∀ p ∈ s.sol.calls, t0 ≤ p.1 ∧ p.1 ≤ t1) (Rel := fun _ _ _ => True)
      h' hpos
      (fun d _ _ => by
        unfold erkInit
        by_cases hf : (erkCoeffs m : SolverCoeffs ℝ).fsal = true <;> simp [hf, evalFun, h01.le])
      (fun mo a b hT hC hb => calls_next hcn hT hC hb)
      (fun _ _ _ _ _ _ => trivial)
  rw [hcalls]
  exact hJ

/-- hypotheses of the run theorems are met by an adaptive Dormand–Prince run -/
example : ∃ fuel out, erkOdeint (F := ℝ) (n := 1) false (fun _ _ _ => 1) 0 1 (fun _ => 0)
    { adaptive := true, relTol := 1, absTol := 1, maxDt := 1 / 2, maxSteps := -1 } OutOpts.dflt 131 1
    fuel = some (.ret out) ∧ ∀ p ∈ out.calls, (0 : ℝ) ≤ p.1 ∧ p.1 ≤ 1 := by
  obtain ⟨fuel, out, h⟩ := adaptive_demo
  exact ⟨fuel, out, h, C15_calls_in_interval h (Or.inl rfl)⟩

/-- **C15 (unfinished runs).**  The same in every reachable loop state, so also for runs that have not returned
(or never do). -/
theorem C15_calls_reachable (hm : m ∈ erkImplemented) (h01 : t0 < t1) (hdt : 0 < dt) {mo : ℕ}
    {s : ErkState ℝ n} (hr : Reach (erkBody nd f t1 o oo (erkCoeffs m) mo)
      (erkInit f t0 y0 dt (erkCoeffs m)) s) : ∀ p ∈ s.sol.calls, t0 ≤ p.1 ∧ p.1 ≤ t1 := by
  obtain ⟨-, -, -, hcn, -⟩ := shipped_facts hm
  refine (hr.inv (Inv := fun s => TimeInv t0 t1 s ∧ ∀ p ∈ s.sol.calls, t0 ≤ p.1 ∧ p.1 ≤ t1)
    ⟨timeInv_init h01.le hdt, ?_⟩ (fun a b ha hb =>
      ⟨timeInv_next ha.1 hb, calls_next hcn ha.1 ha.2 hb⟩)).2
  unfold erkInit
  by_cases hf : (erkCoeffs m : SolverCoeffs ℝ).fsal = true <;> simp [hf, evalFun, h01.le]

/-- a loop state after the initialisation of Dormand–Prince, which calls `f` once -/
example : ∀ p ∈ (erkInit (fun _ y => y) (0 : ℝ) (fun _ : Fin 2 => 1) (1 / 2) (erkCoeffs 131)).sol.calls,
    (0 : ℝ) ≤ p.1 ∧ p.1 ≤ 1 :=
  C15_calls_reachable (nd := false) (t1 := 1) (o := ErkOpts.dflt) (oo := OutOpts.dflt) (mo := 4) (by decide) one_pos
    (by norm_num) .refl

/-- **C18, what holds.**  With `max_dt > 0` every accepted step except possibly the first is at most `max_dt`;
the first one too if the initial `dt` is.  Missing from the claim: the first step, see `C18_refuted`. -/
theorem C18_max_dt_partial (h : erkGuts nd f t0 t1 y0 o dt sc oo fuel = some (.ret out))
    (hpos : nd = false ∨ (0 < dt ∧ t0 < t1)) (had : o.adaptive = true) (hmx : 0 < o.maxDt)
    {i : ℕ} {t t' : ℝ}
    (ht : out.tVals[i]? = some t) (ht' : out.tVals[i + 1]? = some t')
    (hi : 0 < i ∨ dt ≤ o.maxDt) : t' - t ≤ o.maxDt := by
  obtain ⟨recs, s, hc, hch, hh, -⟩ :=
    erk_chain (J := fun s => s.dt ≤ o.maxDt ∨ (s.t = t0 ∧ ¬ dt ≤ o.maxDt))
      (Rel := fun t _ b => b.t - t ≤ o.maxDt ∨ (t = t0 ∧ ¬ dt ≤ o.maxDt)) h hpos
      (fun d _ hd => by
        by_cases hle : dt ≤ o.maxDt
        · left; unfold erkInit
          by_cases hf : sc.fsal = true <;> simp only [hf, if_true] <;> exact hd.trans hle
        · right; refine ⟨?_, hle⟩; unfold erkInit
          by_cases hf : sc.fsal = true <;> simp [hf])
      (fun mo a b hT hJ hb => by
        have hcase := bodyCase nd f t1 o oo sc mo a
        rw [hb] at hcase
        obtain ⟨-, e2, -⟩ := attempt_adaptive (f := f) (t1 := t1) (sc := sc) (mo := mo) had a
        cases hcase with
        | accepted hl hm hb2 at' hA hE hr =>
          left; rw [← hA] at e2
          change at'.newDt ≤ _
          rw [e2]; exact newDt_le_maxDt o mo hmx
        | rejected hl hm hb2 at' hA hE had hr =>
          left; rw [← hA] at e2
          change at'.newDt ≤ _
          rw [e2]; exact newDt_le_maxDt o mo hmx)
      (fun mo s hJ hT hlt hr => by
        rcases hJ with hJ | hJ
        · left
          have := (clip_facts hT hlt).2.2
          rw [← attempt_dt (f := f) (o := o) (sc := sc) (mo := mo)] at this
          simp only [newSample]; linarith
        · exact Or.inr hJ)
  have hinc := (C11_times h hpos).1
  have hhead := (C11_times h hpos).2.2.1
  obtain ⟨b, y, -, hrel, rfl, -⟩ := chain_at
    (Rel := fun t _ b => b.t - t ≤ o.maxDt ∨ (t = t0 ∧ ¬ dt ≤ o.maxDt)) hc hch ht ht'
  rcases hrel with hrel | ⟨rfl, hno⟩
  · exact hrel
  · rcases hi with hi | hi
    · exfalso
      obtain ⟨hi1, hti⟩ := List.getElem?_eq_some_iff.mp ht
      have h0 : 0 < out.tVals.length := by omega
      have := List.pairwise_iff_getElem.mp hinc 0 i h0 hi1 hi
      rw [List.head?_eq_getElem?, List.getElem?_eq_getElem h0, Option.some.injEq] at hhead
      rw [hhead, hti] at this
      exact lt_irrefl _ this
    · exact absurd hi hno

/-- the first step of a run with `dt = max_dt` -/
example : ∃ fuel out, erkOdeint (F := ℝ) (n := 1) false (fun _ _ _ => 1) 0 1 (fun _ => 0)
    { adaptive := true, relTol := 1, absTol := 1, maxDt := 1 / 2, maxSteps := -1 } OutOpts.dflt 131 (1 / 2)
    fuel = some (.ret out) ∧ ∀ (i : ℕ) (t t' : ℝ), out.tVals[i]? = some t → out.tVals[i + 1]? = some t' →
      t' - t ≤ 1 / 2 := by
  obtain ⟨fuel, out, h⟩ := adaptive_run_exists (n := 1) (nd := false) (f := fun _ _ _ => (1 : ℝ)) (t0 := 0) (t1 := 1)
    (y0 := fun _ => 0) (o := { adaptive := true, relTol := 1, absTol := 1, maxDt := 1 / 2, maxSteps := -1 })
    (oo := OutOpts.dflt) (dt := 1 / 2) (M := 1) (m := 131) (by decide) (fun h => by revert h; decide) rfl
    (by simp [erkCoeffs, dormandPrince54]) one_pos zero_le_one (by simp) (by norm_num) one_pos
  refine ⟨fuel, out, h, fun i t t' h1 h2 => ?_⟩
  have ho := effOpts_fields { adaptive := true, relTol := (1 : ℝ), absTol := 1, maxDt := 1 / 2, maxSteps := -1 }
    (erkCoeffs 131)
  have had := effOpts_adaptive (o := { adaptive := true, relTol := (1 : ℝ), absTol := 1, maxDt := 1 / 2, maxSteps := -1 })
    (sc := erkCoeffs 131)
  have := C18_max_dt_partial (erkOdeint_ret h).2 (Or.inl rfl)
    (had.2 ⟨rfl, by simp [erkCoeffs, dormandPrince54]⟩) (by rw [ho.2.2.1]; norm_num) h1 h2
    (Or.inr (by rw [ho.2.2.1]))
  rwa [ho.2.2.1] at this

/-- **C21 (step size).**  A rejected attempt with step `h` is retried with a step of at most `0.9 h`; `h` is the
remaining interval or the current step size, whichever is smaller. -/
theorem C21_retry_smaller {mo : ℕ} {s s' : ErkState ℝ n} (hdt : 0 < s.dt)
    (hb : erkBody nd f t1 o oo sc mo s = .next s') (hr : s'.sol.rejectErr ≠ s.sol.rejectErr) :
    0 < s'.dt ∧ s'.dt ≤ 9 / 10 * min s.dt (t1 - s.t) := by
  have hcase := bodyCase nd f t1 o oo sc mo s
  rw [hb] at hcase
  obtain ⟨L, e, -⟩ := attempt_sol f o sc mo s (clipDt s.t t1 s.dt) s.sol.bump
  cases hcase with
  | accepted h hm hb2 a hA hE hr' =>
    exfalso
    rw [← attemptAt, ← hA] at e
    have hrej : a.reject = false := by
      rcases hr' with hr' | hr'
      · rw [hA]; simp [attemptAt, attempt, hr']
      · exact hr'
    apply hr
    cases hw : oo.writeToFile <;> simp [accept, ErkOutput.line, hw, e, ErkOutput.bump, hrej]
  | rejected h hm hb2 a hA hE had hr' =>
    have hlt : s.t < t1 := by simpa using h
    obtain ⟨e1, e2, e3, -⟩ := attempt_adaptive (f := f) (t1 := t1) (sc := sc) (mo := mo) had s
    have hd := attempt_dt (f := f) (t1 := t1) (o := o) (sc := sc) (mo := mo) s
    rw [← hA] at e1 e2 e3 hd
    have hT : TimeInv s.t t1 s := ⟨le_refl _, hlt.le, hdt⟩
    have hpos := (clip_facts hT hlt).1
    rw [← hd] at hpos
    change 0 < a.newDt ∧ a.newDt ≤ _
    rw [e2]
    refine ⟨newDt_pos o mo hpos (by rw [e1]; exact errNorm_pos _ _), ?_⟩
    rw [← clipDt_real, ← hd]
    exact newDt_le_of_reject o mo hpos (by rw [e3] at hr'; simpa using hr')

/-- **C24.**  A linear invariant of the right-hand side is an invariant of the returned samples. -/
theorem C24_linear_invariant (h : erkOdeint nd f t0 t1 y0 o oo m dt fuel = some (.ret out))
    (hpos : nd = false ∨ (0 < dt ∧ t0 < t1)) {w : Fin n → ℝ}
    (hw : ∀ t y, ∑ i, w i * f t y i = 0) :
    ∀ y ∈ out.yVals, ∑ i, w i * y i = ∑ i, w i * y0 i := by
  have key : ∀ (i : ℕ) (y : Vec ℝ n), out.yVals[i]? = some y → ∑ j, w j * y j = ∑ j, w j * y0 j := by
    intro i
    have hlen := (C10_odeint h).1
    induction i with
    | zero =>
      intro y hy
      have := (C10_odeint h).2.2.2.2.2
      rw [List.head?_eq_getElem?, hy, Option.some.injEq] at this
      rw [this]
    | succ i ih =>
      intro y hy
      obtain ⟨hi, -⟩ := List.getElem?_eq_some_iff.mp hy
      rw [hlen] at hi
      obtain ⟨z, z', k, h1, h2, -, h4⟩ := C12_odeint h hpos
        (List.getElem?_eq_getElem (by omega : i < out.tVals.length))
        (List.getElem?_eq_getElem hi)
      rw [h2, Option.some.injEq] at hy
      rw [← hy, rkStep_linear h4 hw]
      exact ih z h1
  intro y hy
  obtain ⟨i, hi, rfl⟩ := List.mem_iff_getElem.mp hy
  exact key i _ (List.getElem?_eq_getElem hi)

/-- RK4 conserves `y₀ + y₁ = 4` -/
example : ∃ fuel out, erkOdeint (F := ℝ) (n := 2) false (fun _ y => ![y 1 - y 0, y 0 - y 1]) 0 1 ![1, 3]
    { adaptive := false, relTol := 1, absTol := 1, maxDt := 0, maxSteps := -1 } OutOpts.dflt 110 (1 / 2) fuel
      = some (.ret out) ∧ ∀ y ∈ out.yVals, y 0 + y 1 = 4 := by
  obtain ⟨fuel, out, h, -⟩ := system_demo (m := 110) (by decide)
  refine ⟨fuel, out, h, fun y hy => ?_⟩
  have := C24_linear_invariant h (Or.inl rfl) (w := fun _ => 1) (fun t y => by simp [Fin.sum_univ_two]) y hy
  simp only [Fin.sum_univ_two, one_mul, Matrix.cons_val_zero, Matrix.cons_val_one] at this
  rw [this]; norm_num

/-- harmonic oscillator-like exchange `y₀' = y₁ - y₀`, `y₁' = y₀ - y₁` conserves `y₀ + y₁` -/
example : ∀ (t : ℝ) (y : Vec ℝ 2), ∑ i, (fun _ => (1 : ℝ)) i *
    (fun (_ : ℝ) (y : Vec ℝ 2) => ![y 1 - y 0, y 0 - y 1]) t y i = 0 := by
  intro t y; simp [Fin.sum_univ_two]

/-- **C25 (erk).**  With assertions enabled an empty interval or a step size `≤ 0` stops at the assertion. -/
theorem C25_erk_refused (hbad : t1 ≤ t0 ∨ dt ≤ 0) :
    erkGuts false f t0 t1 y0 o dt sc oo fuel = some .assertFail := by
  unfold erkGuts
  have : ltb (lit 0) (clipDt t0 t1 dt) = false := by
    rw [clipDt_real]
    simp only [lit_real, Rat.cast_zero, ltb_real_false]
    rcases hbad with h | h
    · exact (min_le_right _ _).trans (by linarith)
    · exact (min_le_left _ _).trans h
  rw [if_pos (by rw [this]; rfl)]

example : erkGuts false (fun _ y => y) 1 1 (fun _ : Fin 2 => 0) ErkOpts.dflt 1 (erkCoeffs 131 : SolverCoeffs ℝ) OutOpts.dflt 5 =
    some .assertFail := C25_erk_refused (Or.inl le_rfl)

/-- **C25 (odeint).**  The same for `odeint`, whatever the method code. -/
theorem C25_odeint_refused (hbad : t1 ≤ t0 ∨ dt ≤ 0) :
    erkOdeint false f t0 t1 y0 o oo m dt fuel = some .assertFail := by
  unfold erkOdeint
  simp only
  split_ifs
  · rfl
  · exact C25_erk_refused hbad
  · exact C25_erk_refused hbad

example : erkOdeint false (fun _ y => y) 0 1 (fun _ : Fin 2 => (0 : ℝ)) ErkOpts.dflt OutOpts.dflt 131 (-1) 5 =
    some .assertFail := C25_odeint_refused (Or.inr (by norm_num))

end Verif
