import Verif.ErkAdaptTerm
import Verif.Prop.ErkCoeffs

/-!
# Runs of the explicit integrator that return
-/

namespace Verif
open Spec

section
variable {n : ℕ} {nd : Bool} {f : ℝ → Vec ℝ n → Vec ℝ n} {t0 t1 : ℝ} {y0 : Vec ℝ n}
  {o : ErkOpts ℝ} {dt : ℝ} {sc : SolverCoeffs ℝ} {oo : OutOpts} {fuel : ℕ} {out : ErkOutput ℝ n}
  {m : ℤ}

theorem shipped_order (hm : m ∈ erkImplemented) :
    ∃ mo, mo ≤ 4 ∧ minOrder (erkCoeffs m : SolverCoeffs ℝ) = some mo := by
  simp only [erkImplemented, List.mem_cons, List.not_mem_nil, or_false] at hm
  rcases hm with rfl | rfl | rfl | rfl | rfl | rfl <;>
    simp [erkCoeffs, minOrder, explicitEuler, rungeKutta4, bogackiShampine32, cashKarp54,
      dormandPrince54, fehlberg54]

theorem odeint_eq_guts (hm : m ∈ erkImplemented) :
    erkOdeint nd f t0 t1 y0 o oo m dt fuel =
      erkGuts nd f t0 t1 y0 (effOpts o (erkCoeffs m)) dt (erkCoeffs m) oo fuel := by
  have hv := (C08_erk (F := ℝ) (by simp) m).mpr hm
  unfold erkOdeint
  simp only [hv, Bool.not_true, Bool.and_false, effOpts]
  rfl

theorem guts_eq_loop {mo : ℕ} (hmo : minOrder sc = some mo) (hdt : 0 < dt) (h01 : t0 < t1) :
    erkGuts nd f t0 t1 y0 o dt sc oo fuel =
      runLoop (erkBody nd f t1 o oo sc mo) fuel (erkInit f t0 y0 (clipDt t0 t1 dt) sc) := by
  have : ltb (lit 0) (clipDt t0 t1 dt) = true := by
    rw [clipDt_real]; simp [hdt, h01]
  unfold erkGuts
  simp only
  rw [if_neg (by rw [this]; simp), hmo]

theorem erkInit_fields (d : ℝ) : (erkInit f t0 y0 d sc).t = t0 ∧ (erkInit f t0 y0 d sc).dt = d ∧
    (erkInit f t0 y0 d sc).step = 0 ∧ (erkInit f t0 y0 d sc).sol.status = 0 ∧
    (erkInit f t0 y0 d sc).sol.tVals = [t0] := by
  unfold erkInit
  by_cases hf : sc.fsal = true <;> simp [hf, evalFun]

/-- (C19)  With fixed steps (`adaptive` off, or a method without embedded formula), `dt > 0`, `t0 < t1` and no
restricting `max_steps`, `odeint` returns with SUCCESS and the times are `t0 + k dt` for `k < N` followed by
exactly `t1`, where `N = ⌈(t1 - t0)/dt⌉`. -/
theorem fixed_run_exists (hm : m ∈ erkImplemented) (hs : StreamOK oo)
    (had : o.adaptive = false ∨ (erkCoeffs m : SolverCoeffs ℝ).b2 = [])
    (hdt : 0 < dt) (h01 : t0 < t1)
    (hms : o.maxSteps < 0 ∨ (⌈(t1 - t0) / dt⌉₊ : ℤ) ≤ o.maxSteps + 1) :
    ∃ fuel out, erkOdeint nd f t0 t1 y0 o oo m dt fuel = some (.ret out) ∧ out.status = 0 ∧
      out.tVals = (List.range ⌈(t1 - t0) / dt⌉₊).map (fun k : ℕ => t0 + k * dt) ++ [t1] := by
  obtain ⟨mo, -, hmo⟩ := shipped_order hm
  have hpos : 0 < (t1 - t0) / dt := div_pos (by linarith) hdt
  obtain ⟨N, hN⟩ : ∃ N, ⌈(t1 - t0) / dt⌉₊ = N + 1 :=
    ⟨⌈(t1 - t0) / dt⌉₊ - 1, by have := Nat.ceil_pos.mpr hpos; omega⟩
  have hadE : (effOpts o (erkCoeffs m : SolverCoeffs ℝ)).adaptive = false := by
    have := effOpts_adaptive (o := o) (sc := (erkCoeffs m : SolverCoeffs ℝ))
    cases hx : (effOpts o (erkCoeffs m : SolverCoeffs ℝ)).adaptive with
    | false => rfl
    | true =>
      obtain ⟨h1, h2⟩ := this.mp hx
      rcases had with h | h
      · rw [h1] at h; cases h
      · rw [h] at h2; exact absurd rfl h2
  obtain ⟨i1, i2, i3, i4, i5⟩ :=
    erkInit_fields (f := f) (t0 := t0) (y0 := y0) (sc := erkCoeffs m) (clipDt t0 t1 dt)
  have hms' := (effOpts_fields o (erkCoeffs m : SolverCoeffs ℝ)).2.2.2
  by_cases hbig : t1 - t0 ≤ dt
  · -- one step over the whole interval
    have hcl : clipDt t0 t1 dt = t1 - t0 := by rw [clipDt_real, min_eq_right hbig]
    have hN1 : N = 0 := by
      have : ⌈(t1 - t0) / dt⌉₊ ≤ 1 := by
        rw [Nat.ceil_le]; simpa using (div_le_one hdt).mpr hbig
      omega
    subst hN1
    obtain ⟨fuel, out, hr, o1, o2⟩ := fixed_run (nd := nd) (f := f) (t1 := t1)
      (sc := erkCoeffs m) (mo := mo) hs hadE 0 (erkInit f t0 y0 (clipDt t0 t1 dt) (erkCoeffs m))
      (by rw [i1]; exact h01) (by rw [i2, hcl]; linarith)
      (by rw [i1, i2, hcl, div_self (by linarith)]; simp)
      (by rw [i3, hms']; rw [hN] at hms; push_cast at hms ⊢; omega)
    refine ⟨fuel, out, ?_, by rw [o1, i4], ?_⟩
    · rw [odeint_eq_guts hm, guts_eq_loop hmo hdt h01]; exact hr
    · rw [o2, i5, hN]; simp
  · have hcl : clipDt t0 t1 dt = dt := by
      rw [clipDt_real, min_eq_left (by linarith)]
    obtain ⟨fuel, out, hr, o1, o2⟩ := fixed_run (nd := nd) (f := f) (t1 := t1)
      (sc := erkCoeffs m) (mo := mo) hs hadE N (erkInit f t0 y0 (clipDt t0 t1 dt) (erkCoeffs m))
      (by rw [i1]; exact h01) (by rw [i2, hcl]; exact hdt)
      (by rw [i1, i2, hcl, hN])
      (by rw [i3, hms']; rw [hN] at hms; push_cast at hms ⊢; omega)
    refine ⟨fuel, out, ?_, by rw [o1, i4], ?_⟩
    · rw [odeint_eq_guts hm, guts_eq_loop hmo hdt h01]; exact hr
    · rw [o2, i1, i2, i5, hcl, hN, List.range_succ_eq_map, List.map_cons, List.map_map]
      simp only [List.cons_append, List.nil_append]
      congr 1
      · simp
      · congr 1
        apply List.map_congr_left
        intro k _
        simp only [Function.comp]
        push_cast; ring

/-- An adaptive run with an embedded method, `abs_tol > 0` and `rel_tol ≥ 0` returns, if the stages are bounded by `M`
in all states that satisfy an invariant `Q` of the loop. -/
theorem adaptive_run_of (Q : ErkState ℝ n → Prop) (hm : m ∈ erkImplemented) (hs : StreamOK oo)
    (had : o.adaptive = true) (hb2 : (erkCoeffs m : SolverCoeffs ℝ).b2 ≠ [])
    (ha : 0 < o.absTol) (hr : 0 ≤ o.relTol) {M : ℝ}
    (hdt : 0 < dt) (h01 : t0 < t1)
    (hQ0 : Q (erkInit f t0 y0 (clipDt t0 t1 dt) (erkCoeffs m)))
    (hQ : ∀ mo s s', TimeInv t0 t1 s → FsalInv f (erkCoeffs m) s → Q s →
      erkBody nd f t1 (effOpts o (erkCoeffs m)) oo (erkCoeffs m) mo s = .next s' → Q s')
    (hQK : ∀ mo s, TimeInv t0 t1 s → FsalInv f (erkCoeffs m) s → Q s → s.t < t1 →
      ∀ j k, j < (erkCoeffs m : SolverCoeffs ℝ).ns →
        |(attemptAt f t1 (effOpts o (erkCoeffs m)) (erkCoeffs m) mo s).Ks j k| ≤ M) :
    ∃ fuel out, erkOdeint nd f t0 t1 y0 o oo m dt fuel = some (.ret out) := by
  obtain ⟨mo, hmo4, hmo⟩ := shipped_order hm
  obtain ⟨hex, hfs, hns, hcn, hlen⟩ := shipped_facts hm
  obtain ⟨f1, f2, f3, f4⟩ := effOpts_fields o (erkCoeffs m : SolverCoeffs ℝ)
  have hadE : (effOpts o (erkCoeffs m : SolverCoeffs ℝ)).adaptive = true :=
    effOpts_adaptive.mpr ⟨had, by simpa using hb2⟩
  have hb2len : (erkCoeffs m : SolverCoeffs ℝ).b2.length = (erkCoeffs m : SolverCoeffs ℝ).ns :=
    hlen.resolve_left (by simpa using hb2)
  set o' := effOpts o (erkCoeffs m : SolverCoeffs ℝ) with ho'
  set sc : SolverCoeffs ℝ := erkCoeffs m with hsc
  -- a non-negative bound
  set M' : ℝ := max M 0
  have hM' : 0 ≤ M' := le_max_right _ _
  have hκ := kappa_pos (o := o') (sc := sc) (by rw [f1]; exact ha) hM'
  have hmp : (machinePrecision : ℝ) ≤ (9 / 10) ^ (1 + mo) := by
    have h1 : ((9 / 10 : ℝ)) ^ 5 ≤ (9 / 10) ^ (1 + mo) :=
      pow_le_pow_of_le_one (by norm_num) (by norm_num) (by omega)
    refine le_trans ?_ h1
    simp only [machinePrecision, lit_real]; norm_num
  have hc0 : 0 < clipDt t0 t1 dt := by rw [clipDt_real]; exact lt_min hdt (by linarith)
  have hc1 : clipDt t0 t1 dt ≤ t1 - t0 := by rw [clipDt_real]; exact min_le_right _ _
  set L₀ : ℝ := min (clipDt t0 t1 dt) (9 / 10 * ((9 / 10) ^ (1 + mo) / kappa o' sc M')) with hL₀
  have hL₀pos : 0 < L₀ := lt_min hc0 (by positivity)
  set L : ℝ := if 0 < o'.maxDt then min L₀ o'.maxDt else L₀ with hLdef
  have hL : 0 < L := by
    rw [hLdef]; split_ifs with h
    · exact lt_min hL₀pos h
    · exact hL₀pos
  have hLL₀ : L ≤ L₀ := by
    rw [hLdef]; split_ifs with h
    · exact min_le_left _ _
    · exact le_refl _
  have hLmax : 0 < o'.maxDt → L ≤ o'.maxDt := by
    intro h; rw [hLdef, if_pos h]; exact min_le_right _ _
  obtain ⟨i1, i2, i3, i4, i5⟩ :=
    erkInit_fields (f := f) (t0 := t0) (y0 := y0) (sc := sc) (clipDt t0 t1 dt)
  have hinit : AdInv f sc t0 t1 L (18 / 5 * (t1 - t0)) (erkInit f t0 y0 (clipDt t0 t1 dt) sc) := by
    refine ⟨timeInv_init h01.le hc0, fsalInv_init, Or.inr ?_, ?_⟩
    · rw [i2]; exact hLL₀.trans (min_le_left _ _)
    · rw [i2]; linarith
  obtain ⟨k, r, hk⟩ := runLoop_terminates (body := erkBody nd f t1 o' oo sc mo)
    (Inv := fun s => AdInv f sc t0 t1 L (18 / 5 * (t1 - t0)) s ∧ Q s) (adMeasure t1 L (18 / 5 * (t1 - t0)))
    (fun a b hi hb =>
      have h := ad_step hex hfs hadE (by rw [f1]; exact ha) (by rw [f2]; exact hr) hM'
        hmp hL (hLL₀.trans (min_le_right _ _)) hLmax (le_refl _) hi.1
        (fun hlt j k hj => (hQK mo a hi.1.time hi.1.fsal hi.2 hlt j k hj).trans (le_max_left _ _)) hb
      ⟨⟨h.1, hQ mo a b hi.1.time hi.1.fsal hi.2 hb⟩, h.2⟩) ⟨hinit, hQ0⟩
  obtain ⟨out, rfl⟩ := loop_returns hs (fun _ => hb2len) hk
  have hG : erkGuts nd f t0 t1 y0 o' dt sc oo k = some (.ret out) := by
    rw [guts_eq_loop hmo hdt h01]; exact hk
  exact ⟨k, out, by rw [odeint_eq_guts hm]; exact hG⟩

/-- (C20)  If `|f(t,y)_k| ≤ M` for `t ∈ [t0,t1]`, `abs_tol > 0` and `rel_tol ≥ 0`, then the adaptive integrator
with an embedded method returns, from every initial value and step size, with any `max_dt` and any `max_steps`. -/
theorem adaptive_run_exists (hm : m ∈ erkImplemented) (hs : StreamOK oo)
    (had : o.adaptive = true) (hb2 : (erkCoeffs m : SolverCoeffs ℝ).b2 ≠ [])
    (ha : 0 < o.absTol) (hr : 0 ≤ o.relTol) {M : ℝ}
    (hf : ∀ t y k, t0 ≤ t → t ≤ t1 → |f t y k| ≤ M) (hdt : 0 < dt) (h01 : t0 < t1) :
    ∃ fuel out, erkOdeint nd f t0 t1 y0 o oo m dt fuel = some (.ret out) := by
  obtain ⟨-, hfs, -, hcn, -⟩ := shipped_facts hm
  exact adaptive_run_of (fun _ => True) hm hs had hb2 ha hr hdt h01 trivial (fun _ _ _ _ _ _ _ => trivial)
    (fun mo s hT hF _ hlt => stages_le_of_bounded hfs hcn hf hT hF hlt)

end

/-! ### Concrete runs -/

/-- `y' = 1` over `[0,1]`, one Euler step: the run exists and returns the times `[0, 1]`.  (Hypotheses of C10-C16,
C19, C24 are met by this run.) -/
theorem euler_one_step (ms : ℤ) (hms : ms < 0 ∨ 0 ≤ ms) (oo : OutOpts) (hs : StreamOK oo) :
    ∃ fuel out, erkOdeint (F := ℝ) (n := 1) false (fun _ _ _ => 1) 0 1 (fun _ => 0)
        { adaptive := false, relTol := 1, absTol := 1, maxDt := 0, maxSteps := ms } oo 100 1 fuel
          = some (.ret out) ∧ out.status = 0 ∧ out.tVals = [0, 1] := by
  obtain ⟨fuel, out, h1, h2, h3⟩ := fixed_run_exists (n := 1) (nd := false) (f := fun _ _ _ => 1)
    (t0 := 0) (t1 := 1) (y0 := fun _ => 0)
    (o := { adaptive := false, relTol := 1, absTol := 1, maxDt := 0, maxSteps := ms })
    (oo := oo) (dt := 1) (m := 100) (by decide) hs (Or.inl rfl) one_pos one_pos
    (by norm_num; omega)
  refine ⟨fuel, out, h1, h2, ?_⟩
  rw [h3]; norm_num

/-- `y' = 1` over `[0,1]` with Dormand–Prince, adaptive: the run exists. -/
theorem adaptive_demo : ∃ fuel out, erkOdeint (F := ℝ) (n := 1) false (fun _ _ _ => 1) 0 1 (fun _ => 0)
    { adaptive := true, relTol := 1, absTol := 1, maxDt := 1 / 2, maxSteps := -1 } OutOpts.dflt 131 1
    fuel = some (.ret out) :=
  adaptive_run_exists (M := 1) (by decide) (fun h => by revert h; decide) rfl
    (by simp [erkCoeffs, dormandPrince54]) one_pos zero_le_one (by simp) one_pos one_pos

/-- `y' = (y₁ - y₀, y₀ - y₁)` over `[0,1]` with two fixed steps, any of the methods: the run exists. -/
theorem system_demo {m : ℤ} (hm : m ∈ erkImplemented) : ∃ fuel out, erkOdeint (F := ℝ) (n := 2) false
    (fun _ y => ![y 1 - y 0, y 0 - y 1]) 0 1 ![1, 3]
    { adaptive := false, relTol := 1, absTol := 1, maxDt := 0, maxSteps := -1 } OutOpts.dflt m (1 / 2) fuel
      = some (.ret out) ∧ out.status = 0 ∧ out.tVals = [0, 1 / 2, 1] := by
  obtain ⟨fuel, out, h1, h2, h3⟩ := fixed_run_exists (n := 2) (nd := false)
    (f := fun _ y => ![y 1 - y 0, y 0 - y 1]) (t0 := 0) (t1 := 1) (y0 := ![1, 3])
    (o := { adaptive := false, relTol := 1, absTol := 1, maxDt := 0, maxSteps := -1 })
    (oo := OutOpts.dflt) (dt := 1 / 2) hm (fun h => by revert h; decide) (Or.inl rfl) (by norm_num) one_pos
    (Or.inl (by norm_num))
  refine ⟨fuel, out, h1, h2, ?_⟩
  have : ⌈((1 : ℝ) - 0) / (1 / 2)⌉₊ = 2 := by rw [Nat.ceil_eq_iff (by norm_num)]; norm_num
  rw [h3, this]
  simp [List.range_succ]

end Verif
