import Verif.ErkConverge
import Verif.Prop.ErkTerm
import Verif.Prop.ErkOrder
import Mathlib.Analysis.Calculus.ContDiff.Operations
import Mathlib.Analysis.Calculus.Deriv.Prod
import Mathlib.Analysis.Calculus.Deriv.Inv

/-!
# Property C74: the explicit integrators converge with their declared order
-/

namespace Verif
open Spec Set

/-- the problem `y' = y²`, `y(0) = 1`, whose solution `1/(1-t)` ends at `t = 1` -/
theorem blowup_solution : ∀ t ∈ Icc (0 : ℝ) (9 / 10), HasDerivWithinAt (fun (t : ℝ) (_ : Fin 1) => 1 / (1 - t))
    ((fun (_ : ℝ) (y : Vec ℝ 1) (i : Fin 1) => y i ^ 2) t (fun _ => 1 / (1 - t))) (Icc 0 (9 / 10)) t := by
  intro t ht
  rw [hasDerivWithinAt_pi]
  intro i
  have hne : (1 : ℝ) - t ≠ 0 := by have := ht.2; intro h; linarith
  have := ((hasDerivAt_id t).const_sub 1).inv hne
  simp only [one_div]
  have e : -(-1 : ℝ) / (1 - id t) ^ 2 = (1 - t)⁻¹ ^ 2 := by rw [id, neg_neg, inv_pow, one_div]
  rw [e] at this
  exact this.hasDerivWithinAt

section
variable {n : ℕ} {f : ℝ → Vec ℝ n → Vec ℝ n} {u : ℝ → Vec ℝ n} {t0 t1 : ℝ} {m : ℤ} {p : ℕ}

/-- declared orders are positive -/
theorem shipped_order_pos (hm : m ∈ erkImplemented) (hp : (erkCoeffs m : SolverCoeffs ℝ).order = some (p : ℤ)) : 1 ≤ p := by
  have h := (shipped_quad hm).1
  rw [hp] at h
  have h := Int.ofNat.inj (Option.some.inj h)
  have key : ∀ m ∈ erkImplemented, 1 ≤ (declared m).1 := by decide
  rw [h]
  exact key m hm

theorem shipped_hasOrder (hm : m ∈ erkImplemented) (hp : (erkCoeffs m : SolverCoeffs ℝ).order = some (p : ℤ)) :
    HasOrder (fun i j : Fin (erkCoeffs m : SolverCoeffs ℝ).ns => (erkCoeffs m : SolverCoeffs ℝ).a i j)
      (fun i => (erkCoeffs m : SolverCoeffs ℝ).bw i) p := by
  obtain ⟨q, -, h1, -, h2, -⟩ := C23_order_conditions hm
  rw [hp] at h1
  rw [Int.ofNat.inj (Option.some.inj h1)]
  exact h2

/-- the embedded weights satisfy the order conditions up to the smaller of the two declared orders, which is the `min_order` of the
controller -/
theorem shipped_embedded (hm : m ∈ erkImplemented) (hp : (erkCoeffs m : SolverCoeffs ℝ).order = some (p : ℤ))
    (hb2 : (erkCoeffs m : SolverCoeffs ℝ).b2 ≠ []) :
    ∃ p2 : ℕ, (erkCoeffs m : SolverCoeffs ℝ).order2 = some (p2 : ℤ) ∧
      HasOrder (fun i j : Fin (erkCoeffs m : SolverCoeffs ℝ).ns => (erkCoeffs m : SolverCoeffs ℝ).a i j)
        (fun i => (erkCoeffs m : SolverCoeffs ℝ).bw2 i) (min p p2) ∧
      minOrder (erkCoeffs m : SolverCoeffs ℝ) = some (min p p2) ∧ min p p2 ≤ 4 := by
  obtain ⟨-, p2, -, h2, -, h4⟩ := C23_order_conditions hm
  obtain ⟨mo, hmo4, hmo⟩ := shipped_order hm
  have e : mo = min p p2 := by
    have h := hmo
    simp only [minOrder, hp, h2, Option.some.injEq] at h
    have h5 : mo < 2 ^ 64 := by omega
    have key : ∀ m ∈ erkImplemented, (declared m).1 < 2 ^ 64 := by decide
    have h6 := (shipped_quad hm).1
    rw [hp] at h6
    have h7 := Int.ofNat.inj (Option.some.inj h6)
    have h8 := key m hm
    omega
  exact ⟨p2, h2, fun t ht => h4 hb2 t (ht.trans (min_le_right _ _)), e ▸ hmo, e ▸ hmo4⟩

/-- neighbours in an increasing list -/
theorem consecutive_lt {ts : List ℝ} (h : ts.Pairwise (· < ·)) {i : ℕ} {t t' : ℝ} (ht : ts[i]? = some t) (ht' : ts[i + 1]? = some t') :
    t < t' := by
  obtain ⟨h1, rfl⟩ := List.getElem?_eq_some_iff.mp ht
  obtain ⟨h2, rfl⟩ := List.getElem?_eq_some_iff.mp ht'
  exact List.pairwise_iff_getElem.mp h i (i + 1) h1 h2 (by omega)

/-- neighbouring points of the fixed grid -/
theorem grid_step_le {dt : ℝ} (hdt : 0 < dt) {i : ℕ} {t t' : ℝ}
    (ht : ((List.range ⌈(t1 - t0) / dt⌉₊).map (fun k : ℕ => t0 + k * dt) ++ [t1])[i]? = some t)
    (ht' : ((List.range ⌈(t1 - t0) / dt⌉₊).map (fun k : ℕ => t0 + k * dt) ++ [t1])[i + 1]? = some t') : t' - t ≤ dt := by
  have hN : t1 - t0 ≤ ⌈(t1 - t0) / dt⌉₊ * dt := by
    rw [← div_le_iff₀ hdt]; exact Nat.le_ceil _
  generalize ⌈(t1 - t0) / dt⌉₊ = N at *
  have hlen := (List.getElem?_eq_some_iff.mp ht').1
  simp at hlen
  rw [List.getElem?_append_left (by simpa using hlen)] at ht
  simp only [List.getElem?_map, List.getElem?_range hlen, Option.map_some, Option.some.injEq] at ht
  by_cases hi : i + 1 < N
  · rw [List.getElem?_append_left (by simpa using hi)] at ht'
    simp only [List.getElem?_map, List.getElem?_range hi, Option.map_some, Option.some.injEq] at ht'
    rw [← ht, ← ht']
    push_cast
    linarith
  · obtain rfl : N = i + 1 := by omega
    rw [List.getElem?_append_right (by simp)] at ht'
    simp at ht'
    rw [← ht, ← ht']
    push_cast at hN
    linarith

/-- **C74.**  Let `u` solve `u' = f(t,u)` on `[t0,t1]`, `f` being `p` times continuously differentiable, where `p` is the declared order
of the explicit method.  There are constants `C` and `h₀ > 0` such that every run of the integrator from `u(t0)` whose steps are at most
`h ≤ h₀` has all its samples within `C h^p` of the solution, whatever the options, the initial step and the step sequence. -/
theorem C74_convergence (hm : m ∈ erkImplemented) (hp : (erkCoeffs m : SolverCoeffs ℝ).order = some (p : ℤ))
    (hf : ContDiff ℝ p fun q : ℝ × Vec ℝ n => f q.1 q.2) (h01 : t0 ≤ t1)
    (hu : ∀ t ∈ Icc t0 t1, HasDerivWithinAt u (f t (u t)) (Icc t0 t1) t) :
    ∃ C h0 : ℝ, 0 ≤ C ∧ 0 < h0 ∧ ∀ (nd : Bool) (o : ErkOpts ℝ) (oo : OutOpts) (dt : ℝ) (fuel : ℕ) (out : ErkOutput ℝ n) (h : ℝ),
      erkOdeint nd f t0 t1 (u t0) o oo m dt fuel = some (.ret out) → (nd = false ∨ (0 < dt ∧ t0 < t1)) → 0 ≤ h → h ≤ h0 →
      (∀ (i : ℕ) (t t' : ℝ), out.tVals[i]? = some t → out.tVals[i + 1]? = some t' → t' - t ≤ h) →
      ∀ (i : ℕ) (t : ℝ) (y : Vec ℝ n), out.tVals[i]? = some t → out.yVals[i]? = some y → ‖y - u t‖ ≤ C * h ^ p := by
  obtain ⟨hex, -⟩ := shipped_facts hm
  have ho := shipped_hasOrder hm hp
  obtain ⟨C, h0, hC, hh0, key⟩ := explicit_converges (shipped_order_pos hm hp) hf h01 hu ho
    (fun i j hij => hex i j i.isLt j.isLt hij) (shipped_row_sums hm)
  refine ⟨C, h0, hC, hh0, ?_⟩
  intro nd o oo dt fuel out h hrun hpos hh hle hst
  obtain ⟨hmono, hrange, hhead, -⟩ := C11_odeint hrun hpos
  have hpar := C10_odeint hrun
  refine key h out.tVals out.yVals hh hle ?_ hhead ?_ hrange ?_
  · exact hpar.1.symm
  · exact hpar.2.2.2.2.2
  · intro i t t' ht ht'
    obtain ⟨y, y', k, h1, h2, -, h4⟩ := C12_odeint hrun hpos ht ht'
    exact ⟨consecutive_lt hmono ht ht', hst i t t' ht ht', y, y', k, h1, h2, h4⟩

/-- **C74, fixed step.**  Without step-size adaption (option off, or a method without embedded weights) and without a step limit the
integrator completes for every `0 < dt ≤ h₀`, its last sample is at `t1`, and all samples are within `C dt^p` of the solution. -/
theorem C74_fixed_step (hm : m ∈ erkImplemented) (hp : (erkCoeffs m : SolverCoeffs ℝ).order = some (p : ℤ))
    (hf : ContDiff ℝ p fun q : ℝ × Vec ℝ n => f q.1 q.2) (h01 : t0 < t1)
    (hu : ∀ t ∈ Icc t0 t1, HasDerivWithinAt u (f t (u t)) (Icc t0 t1) t) :
    ∃ C h0 : ℝ, 0 ≤ C ∧ 0 < h0 ∧ ∀ (nd : Bool) (o : ErkOpts ℝ) (oo : OutOpts) (dt : ℝ), StreamOK oo →
      (o.adaptive = false ∨ (erkCoeffs m : SolverCoeffs ℝ).b2 = []) → o.maxSteps < 0 → 0 < dt → dt ≤ h0 →
      ∃ fuel out yEnd, erkOdeint nd f t0 t1 (u t0) o oo m dt fuel = some (.ret out) ∧ out.status = 0 ∧
        out.tVals.getLast? = some t1 ∧ out.yVals.getLast? = some yEnd ∧ ‖yEnd - u t1‖ ≤ C * dt ^ p ∧
        ∀ (i : ℕ) (t : ℝ) (y : Vec ℝ n), out.tVals[i]? = some t → out.yVals[i]? = some y → ‖y - u t‖ ≤ C * dt ^ p := by
  obtain ⟨C, h0, hC, hh0, key⟩ := C74_convergence hm hp hf h01.le hu
  refine ⟨C, h0, hC, hh0, ?_⟩
  intro nd o oo dt hs had hms hdt hle
  obtain ⟨fuel, out, hrun, hst, htv⟩ := C19_fixed_grid (nd := nd) (f := f) (y0 := u t0) hm hs had hdt h01 (Or.inl hms)
  have hall := key nd o oo dt fuel out dt hrun (Or.inr ⟨hdt, h01⟩) hdt.le hle (fun i t t' ht ht' => by
    rw [htv] at ht ht'
    exact grid_step_le hdt ht ht')
  have hpar := C10_odeint hrun
  have hlt : out.tVals.getLast? = some t1 := by rw [htv]; simp
  have hly : ∃ yEnd, out.yVals.getLast? = some yEnd := by
    cases h : out.yVals.getLast? with
    | some y => exact ⟨y, rfl⟩
    | none =>
      rw [List.getLast?_eq_none_iff] at h
      rw [h] at hpar
      simp at hpar
  obtain ⟨yEnd, hy⟩ := hly
  refine ⟨fuel, out, yEnd, hrun, hst, hlt, hy, ?_, hall⟩
  rw [List.getLast?_eq_getElem?] at hlt hy
  rw [hpar.1] at hy
  exact hall _ _ _ hlt hy

/-- **C74, adaptive steps.**  With an embedded method, `max_dt ≤ h₀` and an initial step at most `max_dt`, all samples of a run are within
`C max_dt^p` of the solution, whatever the tolerances. -/
theorem C74_adaptive (hm : m ∈ erkImplemented) (hp : (erkCoeffs m : SolverCoeffs ℝ).order = some (p : ℤ))
    (hf : ContDiff ℝ p fun q : ℝ × Vec ℝ n => f q.1 q.2) (h01 : t0 ≤ t1)
    (hu : ∀ t ∈ Icc t0 t1, HasDerivWithinAt u (f t (u t)) (Icc t0 t1) t) :
    ∃ C h0 : ℝ, 0 ≤ C ∧ 0 < h0 ∧ ∀ (nd : Bool) (o : ErkOpts ℝ) (oo : OutOpts) (dt : ℝ) (fuel : ℕ) (out : ErkOutput ℝ n),
      o.adaptive = true → (erkCoeffs m : SolverCoeffs ℝ).b2 ≠ [] → 0 < o.maxDt → o.maxDt ≤ h0 → dt ≤ o.maxDt →
      erkOdeint nd f t0 t1 (u t0) o oo m dt fuel = some (.ret out) → (nd = false ∨ (0 < dt ∧ t0 < t1)) →
      ∀ (i : ℕ) (t : ℝ) (y : Vec ℝ n), out.tVals[i]? = some t → out.yVals[i]? = some y → ‖y - u t‖ ≤ C * o.maxDt ^ p := by
  obtain ⟨C, h0, hC, hh0, key⟩ := C74_convergence hm hp hf h01 hu
  refine ⟨C, h0, hC, hh0, ?_⟩
  intro nd o oo dt fuel out had hb2 hmx hle hdt hrun hpos
  obtain ⟨-, -, f3, -⟩ := effOpts_fields o (erkCoeffs m : SolverCoeffs ℝ)
  refine key nd o oo dt fuel out o.maxDt hrun hpos hmx.le hle (fun i t t' ht ht' => ?_)
  have := C18_max_dt_partial (erkOdeint_ret hrun).2 hpos
    (effOpts_adaptive.mpr ⟨had, fun h => hb2 (List.length_eq_zero_iff.mp h)⟩) (by rw [f3]; exact hmx) ht ht' (Or.inr (by rw [f3]; exact hdt))
  rwa [f3] at this

/-- **C74, adaptive steps, completion.**  If the problem has a solution on the whole interval, an embedded method with `abs_tol > 0`,
`rel_tol ≥ 0`, a small enough `max_dt`, an initial step at most `max_dt` and no step limit completes, its last sample is at `t1` and within
`C max_dt^p` of the solution.  No bound on the growth of `f` is needed. -/
theorem C74_adaptive_completes (hm : m ∈ erkImplemented) (hp : (erkCoeffs m : SolverCoeffs ℝ).order = some (p : ℤ))
    (hf : ContDiff ℝ p fun q : ℝ × Vec ℝ n => f q.1 q.2) (h01 : t0 < t1)
    (hu : ∀ t ∈ Icc t0 t1, HasDerivWithinAt u (f t (u t)) (Icc t0 t1) t) (hb2 : (erkCoeffs m : SolverCoeffs ℝ).b2 ≠ []) :
    ∃ C h0 : ℝ, 0 ≤ C ∧ 0 < h0 ∧ ∀ (nd : Bool) (o : ErkOpts ℝ) (oo : OutOpts) (dt : ℝ), StreamOK oo → o.adaptive = true →
      0 < o.absTol → 0 ≤ o.relTol → o.maxSteps < 0 → 0 < o.maxDt → o.maxDt ≤ h0 → 0 < dt → dt ≤ o.maxDt →
      ∃ fuel out yEnd, erkOdeint nd f t0 t1 (u t0) o oo m dt fuel = some (.ret out) ∧ out.status = 0 ∧
        out.tVals.getLast? = some t1 ∧ out.yVals.getLast? = some yEnd ∧ ‖yEnd - u t1‖ ≤ C * o.maxDt ^ p := by
  obtain ⟨C, h0, hC, hh0, key⟩ := C74_adaptive hm hp hf h01.le hu
  obtain ⟨p2, -, ho2, -⟩ := shipped_embedded hm hp hb2
  obtain ⟨h0', hh0', hex⟩ := adaptive_run_tube (shipped_order_pos hm hp) hf h01 hu hm (shipped_hasOrder hm hp) ho2 (min_le_left _ _) hb2
  refine ⟨C, min h0 h0', hC, lt_min hh0 hh0', ?_⟩
  intro nd o oo dt hs had ha hr hms hmx hle hdt hdle
  obtain ⟨fuel, out, hrun⟩ := hex nd o oo dt hs had ha hr hmx (hle.trans (min_le_right _ _)) hdt hdle
  have hall := key nd o oo dt fuel out had hb2 hmx (hle.trans (min_le_left _ _)) hdle hrun (Or.inr ⟨hdt, h01⟩)
  have hpar := C10_odeint hrun
  have hst : out.status = 0 := by
    have hG := (erkOdeint_ret hrun).2
    obtain ⟨-, -, -, f4⟩ := effOpts_fields o (erkCoeffs m : SolverCoeffs ℝ)
    obtain ⟨mo', s, -, -, hreach, hout⟩ := erkGuts_ret hG
    rcases hout with ⟨-, rfl⟩ | ⟨-, h0, -⟩
    · obtain ⟨recs, -, -, -, -, h3⟩ := erk_out_facts hG
      rcases h3 with h3 | h3
      · exact h3.1
      · simp at h3
    · rw [f4] at h0; omega
  obtain ⟨-, -, -, tl, htl, hend⟩ := C11_odeint hrun (Or.inr ⟨hdt, h01⟩)
  have htl' : tl = t1 := by
    rcases hend with h | h
    · exact h.2
    · rw [hst] at h; exact absurd h.1 (by decide)
  subst htl'
  obtain ⟨yEnd, hy⟩ : ∃ yEnd, out.yVals.getLast? = some yEnd := by
    cases h : out.yVals.getLast? with
    | some y => exact ⟨y, rfl⟩
    | none =>
      rw [List.getLast?_eq_none_iff] at h
      rw [h] at hpar
      simp at hpar
  refine ⟨fuel, out, yEnd, hrun, hst, htl, hy, ?_⟩
  rw [List.getLast?_eq_getElem?] at htl hy
  rw [hpar.1] at hy
  exact hall _ _ _ htl hy

end

/-- hypotheses met by a problem without global Lipschitz constant: `y' = y²`, `y(0) = 1` on `[0, 9/10]`, Dormand–Prince: order five -/
example : ∃ C h0 : ℝ, 0 ≤ C ∧ 0 < h0 ∧ ∀ (nd : Bool) (o : ErkOpts ℝ) (oo : OutOpts) (dt : ℝ), StreamOK oo →
    (o.adaptive = false ∨ (erkCoeffs 131 : SolverCoeffs ℝ).b2 = []) → o.maxSteps < 0 → 0 < dt → dt ≤ h0 →
    ∃ fuel out yEnd, erkOdeint (n := 1) nd (fun _ y i => y i ^ 2) 0 (9 / 10) (fun _ => 1) o oo 131 dt fuel = some (.ret out) ∧
      out.status = 0 ∧ out.tVals.getLast? = some (9 / 10) ∧ out.yVals.getLast? = some yEnd ∧ |yEnd 0 - 10| ≤ C * dt ^ 5 := by
  obtain ⟨C, h0, hC, hh0, key⟩ := C74_fixed_step (n := 1) (m := 131) (p := 5) (f := fun _ y i => y i ^ 2)
    (u := fun t _ => 1 / (1 - t)) (t0 := 0) (t1 := 9 / 10) (by decide) (by simp [erkCoeffs, dormandPrince54])
    (contDiff_pi.mpr fun i => ((contDiff_apply ℝ ℝ i).comp contDiff_snd).pow 2) (by norm_num)
    blowup_solution
  refine ⟨C, h0, hC, hh0, ?_⟩
  intro nd o oo dt hs had hms hdt hle
  obtain ⟨fuel, out, yEnd, h1, h2, h3, h4, h5, -⟩ := key nd o oo dt hs had hms hdt hle
  refine ⟨fuel, out, yEnd, ?_, h2, h3, h4, ?_⟩
  · simpa using h1
  · have := (norm_le_pi_norm (yEnd - fun _ => 1 / (1 - 9 / 10 : ℝ)) 0).trans h5
    rw [Real.norm_eq_abs, Pi.sub_apply] at this
    norm_num at this ⊢
    exact this

/-- the same problem with the adaptive Cash–Karp method -/
example : ∃ C h0 : ℝ, 0 ≤ C ∧ 0 < h0 ∧ ∀ (nd : Bool) (o : ErkOpts ℝ) (oo : OutOpts) (dt : ℝ), StreamOK oo → o.adaptive = true →
    0 < o.absTol → 0 ≤ o.relTol → o.maxSteps < 0 → 0 < o.maxDt → o.maxDt ≤ h0 → 0 < dt → dt ≤ o.maxDt →
    ∃ fuel out yEnd, erkOdeint (n := 1) nd (fun _ y i => y i ^ 2) 0 (9 / 10) (fun _ => 1 / (1 - 0)) o oo 130 dt fuel = some (.ret out) ∧
      out.status = 0 ∧ out.tVals.getLast? = some (9 / 10) ∧ out.yVals.getLast? = some yEnd ∧
      ‖yEnd - fun _ => 1 / (1 - 9 / 10)‖ ≤ C * o.maxDt ^ 5 :=
  C74_adaptive_completes (u := fun t _ => 1 / (1 - t)) (by decide) (by simp [erkCoeffs, cashKarp54])
    (contDiff_pi.mpr fun i => ((contDiff_apply ℝ ℝ i).comp contDiff_snd).pow 2) (by norm_num) blowup_solution
    (by simp [erkCoeffs, cashKarp54])

end Verif
