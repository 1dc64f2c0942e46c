import Verif.Prop.ErkGrowth
import Verif.Prop.ErkOrder
import Verif.Prop.IrkComplete
import Verif.Prop.IrkEstimate

/-!
# C84: the default calls

`erk::odeint(func, t0, t1, y0)` and `irk::odeint(func, t0, t1, y0)` are "supposed to provide a sane default solver, a la
ode45 / ode15s in Matlab" (erk.hpp 498-502, irk.hpp 902-906).
-/

set_option linter.unusedSectionVars false

namespace Verif
open Spec TestEq

section explicit
variable {n : ℕ} {nd : Bool} {f : ℝ → Vec ℝ n → Vec ℝ n} {t0 t1 : ℝ} {y0 : Vec ℝ n} {fuel : ℕ} {out : ErkOutput ℝ n}

/-- an embedded explicit pair of orders `p` and `q`, and the estimate it gives -/
structure PairStep (p q : ℕ) (f : ℝ → Vec ℝ n → Vec ℝ n) (t h : ℝ) (y y' e : Vec ℝ n) : Prop where
  step : ∃ (s : ℕ) (A : Fin s → Fin s → ℝ) (b b2 c : Fin s → ℝ) (k : Fin s → Vec ℝ n), HasOrder A b p ∧ HasOrder A b2 q ∧
    (∀ i j, i ≤ j → A i j = 0) ∧ (∀ i, ∑ j, A i j = c i) ∧ IsRKStep A b c f t h y y' k ∧ e = h • ∑ j, (b2 j - b j) • k j

/-- the settings of the explicit default call -/
theorem erkDefault_settings : erkOdeintDefault nd f t0 t1 y0 fuel = erkOdeint nd f t0 t1 y0
    { adaptive := true, relTol := 1 / 10 ^ 4, absTol := 1 / 10 ^ 3, maxDt := 0, maxSteps := -1 } OutOpts.dflt 131 (1 / 10 ^ 6)
    fuel := by
  have h : (ErkOpts.dflt : ErkOpts ℝ) =
      { adaptive := true, relTol := 1 / 10 ^ 4, absTol := 1 / 10 ^ 3, maxDt := 0, maxSteps := -1 } := by
    simp only [ErkOpts.dflt, lit_real]; norm_num
  unfold erkOdeintDefault
  rw [h, lit_real]
  norm_num

/-- **C84 (explicit, steps).**  Every sample of a returned default call arises from its predecessor by a step of an embedded
explicit pair of orders five and four, and the weighted norm of the difference of the two with `abs_tol = 1e-3` and
`rel_tol = 1e-4` is less than one. -/
theorem C84_erk_steps (h : erkOdeintDefault nd f t0 t1 y0 fuel = some (.ret out)) (h01 : nd = false ∨ t0 < t1) {i : ℕ} {t t' : ℝ}
    (ht : out.tVals[i]? = some t) (ht' : out.tVals[i + 1]? = some t') :
    t < t' ∧ ∃ y y' e : Vec ℝ n, out.yVals[i]? = some y ∧ out.yVals[i + 1]? = some y' ∧ out.errEst[i + 1]? = some e ∧
      PairStep 5 4 f t (t' - t) y y' e ∧ wrms (1 / 10 ^ 3) (1 / 10 ^ 4) y y' e < 1 := by
  rw [erkDefault_settings] at h
  have hpos : nd = false ∨ ((0 : ℝ) < 1 / 10 ^ 6 ∧ t0 < t1) := h01.imp id fun h => ⟨by norm_num, h⟩
  have hm : (131 : ℤ) ∈ erkImplemented := by decide
  have hb2 : (erkCoeffs 131 : SolverCoeffs ℝ).b2 ≠ [] := by simp [erkCoeffs, dormandPrince54]
  obtain ⟨hpw, -⟩ := C11_odeint h hpos
  refine ⟨?_, ?_⟩
  · obtain ⟨h1, rfl⟩ := List.getElem?_eq_some_iff.mp ht
    obtain ⟨h2, rfl⟩ := List.getElem?_eq_some_iff.mp ht'
    exact List.pairwise_iff_getElem.mp hpw i (i + 1) h1 h2 (by omega)
  · obtain ⟨y, y', k, ee, e, q1, q2, q3, q4, -, q6, q7, -⟩ := C13_within_tolerance h hpos rfl hb2 ht ht'
    obtain ⟨z, z', k', w1, w2, w3, w4⟩ := C12_odeint h hpos ht ht'
    rw [q1] at w1; rw [q2] at w2; rw [q3] at w3
    cases w1; cases w2
    have hk : k = k' := by
      simpa using w3
    subst hk
    obtain ⟨p, p2, o1, o2, o3, o4⟩ := C23_order_conditions hm
    obtain ⟨hex, -⟩ := shipped_facts hm
    have e1 : (p : ℤ) = 5 := by
      have : (erkCoeffs 131 : SolverCoeffs ℝ).order = some 5 := by simp [erkCoeffs, dormandPrince54]
      rw [this] at o1; exact (Option.some.inj o1).symm
    have e2 : (p2 : ℤ) = 4 := by
      have : (erkCoeffs 131 : SolverCoeffs ℝ).order2 = some 4 := by simp [erkCoeffs, dormandPrince54]
      rw [this] at o2; exact (Option.some.inj o2).symm
    obtain rfl : p = 5 := by omega
    obtain rfl : p2 = 4 := by omega
    exact ⟨y, y', ee, q1, q2, q4, ⟨_, _, _, _, _, k, o3, o4 hb2, fun i j hij => hex i j i.isLt j.isLt hij,
      shipped_row_sums hm, w4, q6⟩, q7⟩

/-- **C84 (explicit, completion).**  For a right-hand side of at most linear growth the default call returns SUCCESS and the samples
lead from `(t0, y0)` to `t1`. -/
theorem C84_erk_completes {α β : ℝ} (hf : ∀ t y, t0 ≤ t → t ≤ t1 → ‖f t y‖ ≤ α + β * ‖y‖) (h01 : t0 < t1) :
    ∃ fuel out, erkOdeintDefault nd f t0 t1 y0 fuel = some (.ret out) ∧ out.status = 0 ∧ out.tVals.head? = some t0 ∧
      out.yVals.head? = some y0 ∧ out.tVals.getLast? = some t1 ∧ out.yVals.length = out.tVals.length := by
  obtain ⟨fuel, out, h, hst⟩ := C73_adaptive_terminates (nd := nd) (y0 := y0) (m := 131) (oo := OutOpts.dflt)
    (o := { adaptive := true, relTol := 1 / 10 ^ 4, absTol := 1 / 10 ^ 3, maxDt := 0, maxSteps := -1 }) (dt := 1 / 10 ^ 6)
    (by decide) (fun h => absurd h (by decide)) rfl (by simp [erkCoeffs, dormandPrince54]) (by norm_num) (by norm_num) hf (by norm_num) h01
  have h0 := hst (by decide)
  obtain ⟨-, -, q1, tl, q2, q3⟩ := C11_odeint h (Or.inr ⟨by norm_num, h01⟩)
  obtain ⟨q4, -, -, -, -, q5⟩ := C10_odeint h
  refine ⟨fuel, out, by rw [erkDefault_settings]; exact h, h0, q1, q5, ?_, q4⟩
  rcases q3 with ⟨-, rfl⟩ | ⟨q3, -⟩
  · exact q2
  · rw [h0] at q3; cases q3

end explicit

section implicit
variable {n : ℕ} {nd : Bool} {fn : OdeFun ℝ n} {t0 t1 : ℝ} {y0 : Vec ℝ n} {fuel : ℕ}
  {out : IrkOutput ℝ ((irkCoeffs 211 : SolverCoeffs ℝ).ns * n) n}

/-- the Newton options of the implicit default call -/
noncomputable def defaultNewton : NewtonOpts ℝ :=
  { tol := 1 / 10 ^ 5, dxDelta := 1 / 10 ^ 4, maxit := 5000, timeInternals := false, maxStep := -1, refreshJac := 25,
    precondition := false, limitStep := false }

/-- the options of the implicit default call -/
noncomputable def defaultIrk : IrkOpts ℝ :=
  { adaptive := true, relTol := 1 / 10 ^ 4, absTol := 1 / 10 ^ 3, maxDt := 0, maxSteps := -1,
    newtonOpts := some defaultNewton }

/-- the settings of the implicit default call -/
theorem irkDefault_settings {la : LinAlg ℝ} : irkOdeintDefault nd la fn t0 t1 y0 fuel =
    irkOdeint nd la fn t0 t1 y0 defaultIrk OutOpts.dflt 211 (1 / 10 ^ 6) fuel := by
  have h : ({ (IrkOpts.dflt : IrkOpts ℝ) with newtonOpts := some { (NewtonOpts.dflt : NewtonOpts ℝ) with
      refreshJac := 25, tol := lit (1/10) * cmin (IrkOpts.dflt : IrkOpts ℝ).absTol (IrkOpts.dflt : IrkOpts ℝ).relTol } } :
        IrkOpts ℝ) = defaultIrk := by
    simp only [IrkOpts.dflt, NewtonOpts.dflt, lit_real, cmin_real, defaultIrk, defaultNewton]; norm_num
  unfold irkOdeintDefault
  simp only
  rw [h, lit_real]
  norm_num

/-- **C84 (implicit, steps).**  Every sample of a returned default call arises from its predecessor by a step of a method of
order five whose stage equations are solved with the tolerances `1e-5` for the residual and `1e-4` for the increment, and the
weighted norm of the recorded estimate with `abs_tol = 1e-3` and `rel_tol = 1e-4` is at most one. -/
theorem C84_irk_steps (h : irkOdeintDefault false laReal fn t0 t1 y0 fuel = some (.ret out)) {i : ℕ} {t t' : ℝ}
    (ht : out.tVals[i]? = some t) (ht' : out.tVals[i + 1]? = some t') :
    t < t' ∧ ∃ (a b : SampleI ℝ n) (no : NewtonOpts ℝ) (sc : SolverCoeffs ℝ), a.t = t ∧ b.t = t' ∧
      out.yVals[i]? = some a.y ∧ out.yVals[i + 1]? = some b.y ∧ out.errEst[i + 1]? = some b.errEst ∧
      no.tol = 1 / 10 ^ 5 ∧ no.dxDelta = 1 / 10 ^ 4 ∧
      HasOrder (fun i j : Fin sc.ns => sc.a i j) (fun i => sc.bw i) 5 ∧ (∀ i : Fin sc.ns, ∑ j : Fin sc.ns, sc.a i j = sc.cn i) ∧
      ResidualStep fn no sc a b ∧ wrms (1 / 10 ^ 3) (1 / 10 ^ 4) a.y b.y b.errEst ≤ 1 := by
  rw [irkDefault_settings, odeint_guts (by decide)] at h
  obtain ⟨hpw, -⟩ := C38_times h (Or.inl rfl)
  refine ⟨?_, ?_⟩
  · obtain ⟨h1, rfl⟩ := List.getElem?_eq_some_iff.mp ht
    obtain ⟨h2, rfl⟩ := List.getElem?_eq_some_iff.mp ht'
    exact List.pairwise_iff_getElem.mp hpw i (i + 1) h1 h2 (by omega)
  obtain ⟨no, hno, acc, hist, -, ⟨rec, hrec, q1, q2, q3, q4⟩, -, -, hlen, hstep⟩ := C83_run_partial laReal_exact laReal_sound h
  have hi : (OutOpts.dflt).interval.toNat = 1 := by decide
  rw [if_pos (by decide), hi, everyNth_one] at hrec
  subst hrec
  obtain ⟨hle, hnorm⟩ := C40_tolerance h
  have hnorm := hnorm rfl hi i
  rw [q1, List.getElem?_map, Option.map_eq_some_iff] at ht ht'
  obtain ⟨a, ha, rfl⟩ := ht
  obtain ⟨b, hb, rfl⟩ := ht'
  obtain ⟨pre, post, hpre, rfl⟩ := nth_accepted hist i (by
    have := (List.getElem?_eq_some_iff.mp hb).1
    omega)
  obtain ⟨a', b', ha2, hb2, d, w, Y, hY, -⟩ := hstep pre post hpre
  rw [ha] at ha2
  rw [hb] at hb2
  cases ha2; cases hb2
  have y1 : out.yVals[pre.count .accepted]? = some a.y := by rw [q2, List.getElem?_map, ha]; rfl
  have y2 : out.yVals[pre.count .accepted + 1]? = some b.y := by rw [q2, List.getElem?_map, hb]; rfl
  have y3 : out.errEst[pre.count .accepted + 1]? = some b.errEst := by rw [q3, List.getElem?_map, hb]; rfl
  have y4 : out.err[pre.count .accepted + 1]? = some b.err := by rw [q4, List.getElem?_map, hb]; rfl
  have hbe := hnorm a.y b.y b.errEst b.err y1 y2 y3 y4
  have hb1 : b.err ≤ 1 := hle b.err (by
    rw [← List.drop_one, List.mem_iff_getElem?]
    exact ⟨pre.count .accepted, by rw [List.getElem?_drop, Nat.add_comm]; exact y4⟩)
  simp only [defaultIrk, Option.some.injEq] at hno
  obtain ⟨p, -, o1, o2⟩ := C49_order_conditions (m := 211) (by decide)
  have e1 : (p : ℤ) = 5 := by
    have : (irkCoeffs 211 : SolverCoeffs ℝ).order = some 5 := by simp [irkCoeffs, radauIIA53]
    rw [this] at o1; exact (Option.some.inj o1).symm
  obtain rfl : p = 5 := by omega
  refine ⟨a, b, no, _, rfl, rfl, y1, y2, y3, by rw [← hno]; rfl, by rw [← hno]; rfl, o2, C49_row_sums (by decide),
    ⟨d, Y, hY⟩, ?_⟩
  rw [hbe] at hb1
  exact (le_max_left _ _).trans hb1

/-- **C84 (implicit, completion).**  For a linear problem `y' = J y + g(t)` whose matrix has no eigenvalue with positive real part,
however stiff, the default call returns SUCCESS and the samples lead from `(t0, y0)` to `t1`. -/
theorem C84_irk_completes {J : Matrix (Fin n) (Fin n) ℝ} {g : ℝ → Vec ℝ n} (hf : ∀ t y, fn.fn t y = J.mulVec y + g t)
    (hJ : ∀ t y i j, fn.jac t y i j = J i j) (hg : TimeBounded g) (hD : Dissipative J) (hn : 0 < n) (h01 : t0 < t1) :
    ∃ fuel out, irkOdeintDefault false laReal fn t0 t1 y0 fuel = some (.ret out) ∧ out.status = 0 ∧
      out.tVals.head? = some t0 ∧ out.yVals.head? = some y0 ∧ out.tVals.getLast? = some t1 := by
  obtain ⟨fuel, out, h1, h2, h3, h4, h5⟩ := C67_stiff_success (m := 211) (by decide) hf hJ hg hD hn h01 (dt := 1 / 10 ^ 6)
    (y0 := y0) (o := defaultIrk) (no := defaultNewton) (oo := OutOpts.dflt) (by norm_num) rfl (by decide) rfl (by decide)
    (by norm_num [defaultNewton]) (by decide) (by norm_num [defaultIrk]) (by norm_num [defaultIrk]) (by decide)
    (fun h => absurd h (by decide))
  exact ⟨fuel, out, by rw [irkDefault_settings]; exact h1, h2, h3, h4, h5 rfl (by decide)⟩

/-- with `NDEBUG` the first pass throws -/
theorem irkGuts_release {sc : SolverCoeffs ℝ} (hsc : Usable sc) {o : IrkOpts ℝ} {no : NewtonOpts ℝ} (hno : o.newtonOpts = some no)
    (hmax : 1 < no.maxit) (h01 : t0 < t1) (dt : ℝ) (oo : OutOpts) :
    irkGuts true laReal fn t0 t1 y0 o dt sc oo (fuel + 1) = some .throws := by
  obtain ⟨mo, hmo⟩ := hsc.order
  unfold irkGuts
  simp only [hno, Bool.not_true, Bool.false_and, Bool.false_eq_true, if_false, hmo, hsc.rows, hsc.cols, ne_eq, not_true,
    or_self, laReal_exact.inv _ hsc.inv, hsc.b2]
  unfold runLoop irkBody
  have hlt : ltb (irkInit (sc.ns * n) t0 y0 (clipDt t0 t1 dt) no.maxit).t t1 = true := by rw [ltb_real]; exact h01
  have hms : ¬ (0 ≤ o.maxSteps ∧ o.maxSteps < (irkInit (sc.ns * n) t0 y0 (clipDt t0 t1 dt) no.maxit).step) := by
    simp only [irkInit]; omega
  rw [if_pos hlt]
  simp only
  rw [if_neg hms, C36_ndebug_throws (by exact hmax)]

/-- **C84 (implicit, release builds).**  In a build with `NDEBUG` the default call throws on every interval with `t0 < t1`, whatever the
problem (`arma::lu` is called inside an `assert`, irk.hpp 432). -/
theorem C84_irk_release_throws (h01 : t0 < t1) : irkOdeintDefault true laReal fn t0 t1 y0 (fuel + 1) = some .throws := by
  rw [irkDefault_settings]
  have hU := usable_shipped (m := 211) (by decide)
  have hns : (irkCoeffs 211 : SolverCoeffs ℝ).ns = 3 := by simp [irkCoeffs, radauIIA53, SolverCoeffs.ns]
  have ho : ((if (defaultIrk.adaptive && (irkCoeffs 211 : SolverCoeffs ℝ).b2.length == 0) = true then
      { defaultIrk with adaptive := false } else defaultIrk) : IrkOpts ℝ) = defaultIrk := by
    rw [if_neg]; rw [hU.b2, hns]; simp
  unfold irkOdeint
  simp only [ho, Bool.not_true, Bool.false_and, Bool.false_eq_true, if_false]
  exact irkGuts_release hU (no := defaultNewton) rfl (by decide) h01 _ _

end implicit

/-- the explicit default call on the pendulum `(x, v)' = (v, -sin x)` -/
example : ∃ fuel out, erkOdeintDefault false (fun _ (y : Vec ℝ 2) => ![y 1, - Real.sin (y 0)]) 0 10 ![1, 0] fuel = some (.ret out) ∧
    out.status = 0 ∧ out.tVals.getLast? = some 10 := by
  obtain ⟨fuel, out, h1, h2, -, -, h3, -⟩ := C84_erk_completes (nd := false) (t0 := 0) (t1 := 10) (y0 := ![1, 0])
    (f := fun _ (y : Vec ℝ 2) => ![y 1, - Real.sin (y 0)]) (α := 1) (β := 1)
    (fun t y _ _ => by
      rw [pi_norm_le_iff_of_nonneg (by positivity)]
      intro i
      have hy := norm_nonneg y
      fin_cases i
      · have := norm_le_pi_norm y 1
        simp at this ⊢
        linarith
      · have := Real.abs_sin_le_one (y 0)
        simp
        linarith) (by norm_num)
  exact ⟨fuel, out, h1, h2, h3⟩

/-- its second step -/
example {out : ErkOutput ℝ 2} {fuel : ℕ}
    (h : erkOdeintDefault false (fun _ (y : Vec ℝ 2) => ![y 1, - Real.sin (y 0)]) 0 10 ![1, 0] fuel = some (.ret out)) {t t' : ℝ}
    (ht : out.tVals[1]? = some t) (ht' : out.tVals[2]? = some t') : t < t' :=
  (C84_erk_steps h (Or.inl rfl) ht ht').1

/-- the implicit default call on the harmonic oscillator, in both kinds of build -/
example : (∃ fuel out, irkOdeintDefault false laReal (harmonic 1000) 0 1 ![0, 1] fuel = some (.ret out) ∧ out.status = 0 ∧
    ∃ t a b, out.tVals[0]? = some 0 ∧ out.tVals[1]? = some t ∧ out.yVals[0]? = some a ∧ out.yVals[1]? = some b) ∧
    irkOdeintDefault true laReal (harmonic 1000) 0 1 ![0, 1] 1 = some .throws := by
  refine ⟨?_, C84_irk_release_throws one_pos⟩
  obtain ⟨fuel, out, h1, h2, h3, h4, h5⟩ := C84_irk_completes (fn := harmonic 1000) (J := !![0, 1000; -1000, 0]) (g := fun _ => 0)
    (t0 := 0) (t1 := 1) (y0 := ![0, 1])
    (fun t y => by funext i; fin_cases i <;> simp [harmonic, dotProduct, Fin.sum_univ_two])
    (fun t y i j => by fin_cases i <;> fin_cases j <;> simp [harmonic])
    (fun T => ⟨0, by simp⟩) (harmonic_dissipative 1000) (by norm_num) one_pos
  obtain ⟨b, l, hl⟩ : ∃ b l, out.tVals = 0 :: b :: l := by
    match hq : out.tVals with
    | [] => rw [hq] at h3; cases h3
    | [a] => rw [hq] at h3 h5; simp at h3 h5; norm_num [h3] at h5
    | a :: b :: l => rw [hq] at h3; cases h3; exact ⟨b, l, rfl⟩
  have t0 : out.tVals[0]? = some 0 := by rw [hl]; rfl
  have t1 : out.tVals[0 + 1]? = some b := by rw [hl]; rfl
  obtain ⟨-, a, b', -, -, -, -, q1, q2, -⟩ := C84_irk_steps h1 t0 t1
  exact ⟨fuel, out, h1, h2, b, a.y, b'.y, t0, t1, q1, q2⟩

end Verif
