import Verif.ErkSens
import Mathlib.Analysis.Calculus.Deriv.Prod
import Mathlib.Analysis.SpecialFunctions.ExpDeriv

/-!
# C135: explicit runs depend on their data with explicit constants
-/

set_option autoImplicit false

namespace Verif
open Spec Set

/-- the constants of C135: EULER, RUNGE_KUTTA_4, BOGACKI_SHAMPINE_32, CASH_KARP_54, DORMAND_PRINCE_54, FEHLBERG_54 -/
noncomputable def sensitivity (m : ℤ) : ℝ :=
  if m = 100 then 1 else if m = 110 then 1.06 else if m = 120 then 1.06 else if m = 130 then 1.1 else if m = 131 then 3.4 else 2.15

theorem ampBound_eq (m : ℤ) : (ampBound m : ℝ) = sensitivity m := by
  unfold ampBound sensitivity
  split_ifs <;> norm_num

theorem sensitivity_pos (m : ℤ) : 0 < sensitivity m := by
  unfold sensitivity
  split_ifs <;> norm_num

/-- the step of EULER: `y' = y + h f(t, y)` -/
theorem euler_formula {n : ℕ} {f : ℝ → Vec ℝ n → Vec ℝ n} {s h : ℝ} {y y2 : Vec ℝ n} {k : Fin (erkCoeffs 100 : SolverCoeffs ℝ).ns → Vec ℝ n}
    (a3 : IsRKStep (fun i j => (erkCoeffs 100 : SolverCoeffs ℝ).a i j) (fun i => (erkCoeffs 100 : SolverCoeffs ℝ).bw i)
      (fun i => (erkCoeffs 100 : SolverCoeffs ℝ).cn i) f s h y y2 k) : y2 = y + h • f s y := by
  obtain ⟨q1, q2⟩ := a3
  have e0 : ∀ i : Fin (erkCoeffs 100 : SolverCoeffs ℝ).ns, k i = f s y := by
    intro i
    rw [q1 i]
    have hex := (shipped_facts (m := 100) (by decide)).1
    have hi0 : (i : ℕ) = 0 := by have := i.isLt; simp [erkCoeffs, explicitEuler, SolverCoeffs.ns] at this; exact this
    have e1 : (erkCoeffs 100 : SolverCoeffs ℝ).cn i = 0 := by rw [hi0]; simp [erkCoeffs, explicitEuler, SolverCoeffs.cn, lit]
    have e2 : ∀ j : Fin (erkCoeffs 100 : SolverCoeffs ℝ).ns, (erkCoeffs 100 : SolverCoeffs ℝ).a i j = 0 := fun j => hex i j i.isLt j.isLt (by rw [hi0]; omega)
    simp [e1, e2]
  rw [q2]
  simp only [e0]
  have e3 : ∑ i : Fin (erkCoeffs 100 : SolverCoeffs ℝ).ns, (erkCoeffs 100 : SolverCoeffs ℝ).bw i = 1 := by
    rw [Fin.sum_univ_eq_sum_range (fun i => (erkCoeffs 100 : SolverCoeffs ℝ).bw i)]
    simp [erkCoeffs, explicitEuler, SolverCoeffs.ns, SolverCoeffs.bw, lit]
  rw [← Finset.sum_smul, e3, one_smul]

section
variable {n : ℕ} {nd nd' : Bool} {f g : ℝ → Vec ℝ n → Vec ℝ n} {t0 t1 : ℝ} {y0 z0 : Vec ℝ n} {o o' : ErkOpts ℝ} {oo oo' : OutOpts} {m : ℤ} {dt dt' : ℝ}
  {fuel fuel' : ℕ} {out out' : ErkOutput ℝ n} {L ε : ℝ}

/-- consecutive times of a run increase -/
theorem times_step (h : erkOdeint nd f t0 t1 y0 o oo m dt fuel = some (.ret out)) (hpos : nd = false ∨ (0 < dt ∧ t0 < t1)) {i : ℕ} {t t' : ℝ}
    (ht : out.tVals[i]? = some t) (ht' : out.tVals[i + 1]? = some t') : t < t' := by
  have hp := (C11_odeint h hpos).1
  obtain ⟨hi, rfl⟩ := List.getElem?_eq_some_iff.mp ht
  obtain ⟨hi', rfl⟩ := List.getElem?_eq_some_iff.mp ht'
  exact List.pairwise_iff_getElem.mp hp i (i + 1) hi hi' (by omega)

/-- **C135, two runs.**  `f` is Lipschitz in `y` with constant `L` (maximum norm), `g` differs from `f` by at most `ε`.  Two runs of the same explicit method,
one for `f` from `y0`, one for `g` from `z0`, that agree in the first `N + 1` times and whose steps satisfy `L h ≤ 1/10`, differ at the time `t` of sample
`N` by at most `exp(κ L (t - t0)) (‖y0 - z0‖ + κ ε (t - t0))`, `κ` being the constant of the method. -/
theorem C135_stability (h : erkOdeint nd f t0 t1 y0 o oo m dt fuel = some (.ret out)) (h' : erkOdeint nd' g t0 t1 z0 o' oo' m dt' fuel' = some (.ret out'))
    (hpos : nd = false ∨ (0 < dt ∧ t0 < t1)) (hpos' : nd' = false ∨ (0 < dt' ∧ t0 < t1)) (hL : 0 ≤ L) (hε : 0 ≤ ε)
    (hf : ∀ t y z, ‖f t y - f t z‖ ≤ L * ‖y - z‖) (hg : ∀ t y, ‖f t y - g t y‖ ≤ ε) {N : ℕ} (hsame : ∀ i ≤ N, out'.tVals[i]? = out.tVals[i]?)
    (hstep : ∀ i < N, ∀ t t', out.tVals[i]? = some t → out.tVals[i + 1]? = some t' → L * (t' - t) ≤ 1 / 10) {t : ℝ} (ht : out.tVals[N]? = some t) :
    ∃ y z, out.yVals[N]? = some y ∧ out'.yVals[N]? = some z ∧
      ‖y - z‖ ≤ Real.exp (sensitivity m * L * (t - t0)) * (‖y0 - z0‖ + sensitivity m * ε * (t - t0)) := by
  have hm := (erkOdeint_ret h).1
  obtain ⟨γ, g0, g1, g2⟩ := shipped_amp hm
  rw [ampBound_eq] at g2
  have hκ := sensitivity_pos m
  induction N generalizing t with
  | zero =>
    have e1 := (C10_odeint h).2.2.2.2
    have e2 := (C10_odeint h').2.2.2.2.2
    rw [List.head?_eq_getElem?] at e1 e2
    rw [List.head?_eq_getElem?] at e1
    rw [e1.1] at ht
    cases ht
    exact ⟨y0, z0, e1.2, e2, by simp⟩
  | succ N ih =>
    obtain ⟨hi, -⟩ := List.getElem?_eq_some_iff.mp ht
    have hs : out.tVals[N]? = some out.tVals[N] := List.getElem?_eq_getElem _
    generalize out.tVals[N] = s at hs
    obtain ⟨y, z, hy, hz, hb⟩ := ih (fun i hi => hsame i (by omega)) (fun i hi => hstep i (by omega)) hs
    obtain ⟨y1, y2, k, a1, a2, -, a3⟩ := C12_odeint h hpos hs ht
    obtain ⟨z1, z2, l, b1, b2, -, b3⟩ := C12_odeint h' hpos' (by rw [hsame N (by omega)]; exact hs) (by rw [hsame (N + 1) le_rfl]; exact ht)
    rw [hy] at a1
    rw [hz] at b1
    cases a1
    cases b1
    refine ⟨y2, z2, a2, b2, ?_⟩
    have hst := (times_step h hpos hs ht).le
    have hs0 : t0 ≤ s := ((C11_odeint h hpos).2.1 s (List.mem_of_getElem? hs)).1
    have hex := (shipped_facts hm).1
    have key := rkStep_perturb (θ := 1 / 10) (γ := γ) (fun i j hij => hex i j i.isLt j.isLt hij) hL hε (by linarith) (hstep N (by omega) _ _ hs ht) hf hg g0 g1 a3 b3
    have hD : 0 ≤ (t - s) * (L * ‖y - z‖ + ε) := mul_nonneg (by linarith) (by positivity)
    have key2 := mul_le_mul_of_nonneg_right g2 hD
    have e : t - t0 = (s - t0) + (t - s) := by ring
    rw [e]
    refine gronwall_exp (x := ‖y - z‖) (by positivity) (norm_nonneg _) (by linarith) (by linarith) (by positivity) hb ?_
    linarith

/-- the steps of the grid of C19 are at most `dt` -/
theorem erk_grid_step {l : List ℝ} {j : ℕ} {s s' : ℝ} (hdt : 0 < dt) (h3 : l = (List.range ⌈(t1 - t0) / dt⌉₊).map (fun k : ℕ => t0 + k * dt) ++ [t1])
    (hs1 : l[j]? = some s) (hs2 : l[j + 1]? = some s') : s' - s ≤ dt := by
  rw [h3] at hs1 hs2
  generalize hc : ⌈(t1 - t0) / dt⌉₊ = c at hs1 hs2
  obtain ⟨q2, -⟩ := List.getElem?_eq_some_iff.mp hs2
  simp only [List.length_append, List.length_map, List.length_range, List.length_singleton] at q2
  rw [List.getElem?_append_left (by simp; omega)] at hs1
  simp only [List.getElem?_map, List.getElem?_range (show j < c by omega), Option.map_some, Option.some.injEq] at hs1
  rcases Nat.lt_or_ge (j + 1) c with hlt | hge
  · rw [List.getElem?_append_left (by simp; omega)] at hs2
    simp only [List.getElem?_map, List.getElem?_range hlt, Option.map_some, Option.some.injEq] at hs2
    rw [← hs1, ← hs2]
    push_cast
    linarith
  · have hcj : c = j + 1 := by omega
    rw [List.getElem?_append_right (by simp; omega)] at hs2
    simp only [List.length_map, List.length_range, hcj, Nat.sub_self, List.getElem?_cons_zero, Option.some.injEq] at hs2
    have := Nat.le_ceil ((t1 - t0) / dt)
    rw [hc, div_le_iff₀ hdt, hcj] at this
    push_cast at this
    rw [← hs1, ← hs2]
    linarith

/-- **C135, fixed steps.**  Both runs return with SUCCESS on the same grid, and the bound holds at all of its points. -/
theorem C135_fixed (hm : m ∈ erkImplemented) (hs : StreamOK oo) (had : o.adaptive = false ∨ (erkCoeffs m : SolverCoeffs ℝ).b2 = [])
    (hdt : 0 < dt) (h01 : t0 < t1) (hms : o.maxSteps < 0) (hL : 0 ≤ L) (hε : 0 ≤ ε) (hLdt : L * dt ≤ 1 / 10)
    (hf : ∀ t y z, ‖f t y - f t z‖ ≤ L * ‖y - z‖) (hg : ∀ t y, ‖f t y - g t y‖ ≤ ε) :
    ∃ fuel fuel' out out', erkOdeint nd f t0 t1 y0 o oo m dt fuel = some (.ret out) ∧ erkOdeint nd g t0 t1 z0 o oo m dt fuel' = some (.ret out') ∧
      out.status = 0 ∧ out'.status = 0 ∧ out'.tVals = out.tVals ∧ out.tVals.getLast? = some t1 ∧
      ∀ (i : ℕ) (t : ℝ), out.tVals[i]? = some t → ∃ y z, out.yVals[i]? = some y ∧ out'.yVals[i]? = some z ∧
        ‖y - z‖ ≤ Real.exp (sensitivity m * L * (t - t0)) * (‖y0 - z0‖ + sensitivity m * ε * (t - t0)) := by
  obtain ⟨fuel, out, h1, h2, h3⟩ := C19_fixed_grid (nd := nd) (f := f) (y0 := y0) hm hs had hdt h01 (Or.inl hms)
  obtain ⟨fuel', out', k1, k2, k3⟩ := C19_fixed_grid (nd := nd) (f := g) (y0 := z0) hm hs had hdt h01 (Or.inl hms)
  refine ⟨fuel, fuel', out, out', h1, k1, h2, k2, by rw [h3, k3], by rw [h3]; simp, ?_⟩
  intro i t ht
  refine C135_stability h1 k1 (Or.inr ⟨hdt, h01⟩) (Or.inr ⟨hdt, h01⟩) hL hε hf hg (fun i _ => by rw [h3, k3]) ?_ ht
  intro j _ s s' hs1 hs2
  refine le_trans (mul_le_mul_of_nonneg_left ?_ hL) hLdt
  exact erk_grid_step hdt h3 hs1 hs2

/-- **C135, EULER.**  `U` solves `y' = f(t,y)` on `[t0,t1]`, `U'` is Lipschitz with constant `M` and `f` is Lipschitz in `y` with constant `L` at the points of the
solution.  Everything a run of EULER with steps of length at most `h` records is within `exp(L (t - t0)) (‖y0 - U(t0)‖ + (t - t0) M h / 2)` of the solution. -/
theorem C135_euler {U : ℝ → Vec ℝ n} {M H : ℝ} (h : erkOdeint nd f t0 t1 y0 o oo 100 dt fuel = some (.ret out))
    (hpos : nd = false ∨ (0 < dt ∧ t0 < t1)) (hL : 0 ≤ L) (hM : 0 ≤ M) (hU : ∀ t ∈ Icc t0 t1, HasDerivWithinAt U (f t (U t)) (Icc t0 t1) t)
    (hU2 : ∀ t ∈ Icc t0 t1, ∀ s ∈ Icc t0 t1, s ≤ t → ‖f t (U t) - f s (U s)‖ ≤ M * (t - s))
    (hf : ∀ t ∈ Icc t0 t1, ∀ y, ‖f t y - f t (U t)‖ ≤ L * ‖y - U t‖)
    (hstep : ∀ (i : ℕ) (t t' : ℝ), out.tVals[i]? = some t → out.tVals[i + 1]? = some t' → t' - t ≤ H) {i : ℕ} {t : ℝ} (ht : out.tVals[i]? = some t) :
    ∃ y, out.yVals[i]? = some y ∧ ‖y - U t‖ ≤ Real.exp (L * (t - t0)) * (‖y0 - U t0‖ + M * H / 2 * (t - t0)) := by
  induction i generalizing t with
  | zero =>
    have e1 := (C10_odeint h).2.2.2.2
    rw [List.head?_eq_getElem?] at e1
    rw [List.head?_eq_getElem?] at e1
    rw [e1.1] at ht
    cases ht
    exact ⟨y0, e1.2, by simp⟩
  | succ N ih =>
    obtain ⟨hi, -⟩ := List.getElem?_eq_some_iff.mp ht
    have hs : out.tVals[N]? = some out.tVals[N] := List.getElem?_eq_getElem _
    generalize out.tVals[N] = s at hs
    obtain ⟨y, hy, hb⟩ := ih hs
    obtain ⟨y1, y2, k, a1, a2, -, a3⟩ := C12_odeint h hpos hs ht
    rw [hy] at a1
    cases a1
    refine ⟨y2, a2, ?_⟩
    have hst := (times_step h hpos hs ht).le
    have hs0 := (C11_odeint h hpos).2.1 s (List.mem_of_getElem? hs)
    have ht0 := (C11_odeint h hpos).2.1 t (List.mem_of_getElem? ht)
    have hH := hstep N s t hs ht
    have hyn : y2 = y + (t - s) • f s y := euler_formula a3
    have hsub : Icc s t ⊆ Icc t0 t1 := Icc_subset_Icc hs0.1 ht0.2
    have htay := taylor_one hst (fun x hx => (hU x (hsub hx)).mono hsub) (fun x hx => hU2 x (hsub hx) s ⟨hs0.1, hs0.2⟩ hx.1)
    have e : y2 - U t = ((y - U s) + (t - s) • (f s y - f s (U s))) - (U t - U s - (t - s) • f s (U s)) := by
      rw [hyn, smul_sub]; abel
    have n1 : ‖(y - U s) + (t - s) • (f s y - f s (U s))‖ ≤ ‖y - U s‖ + (t - s) * (L * ‖y - U s‖) := by
      refine (norm_add_le _ _).trans (add_le_add le_rfl ?_)
      rw [norm_smul, Real.norm_eq_abs, abs_of_nonneg (by linarith)]
      exact mul_le_mul_of_nonneg_left (hf s ⟨hs0.1, hs0.2⟩ y) (by linarith)
    have n2 := norm_sub_le ((y - U s) + (t - s) • (f s y - f s (U s))) (U t - U s - (t - s) • f s (U s))
    rw [← e] at n2
    have n3 : M * (t - s) ^ 2 / 2 ≤ (t - s) * (M * H / 2) := by
      have := mul_le_mul_of_nonneg_left hH (mul_nonneg hM (by linarith : 0 ≤ t - s))
      linarith
    have e' : t - t0 = (s - t0) + (t - s) := by ring
    rw [e']
    refine gronwall_exp (x := ‖y - U s‖) hL (norm_nonneg _) (by linarith) (by linarith [hs0.1]) ?_ hb (by linarith)
    have : 0 ≤ H := by linarith
    positivity

/-- **C135, EULER, whole runs.**  With the step `dt` the run returns with SUCCESS, ends at `t1`, and the bound holds at all samples. -/
theorem C135_euler_run {U : ℝ → Vec ℝ n} {M : ℝ} (hs : StreamOK oo) (hdt : 0 < dt) (h01 : t0 < t1) (hms : o.maxSteps < 0) (hL : 0 ≤ L) (hM : 0 ≤ M)
    (hU : ∀ t ∈ Icc t0 t1, HasDerivWithinAt U (f t (U t)) (Icc t0 t1) t)
    (hU2 : ∀ t ∈ Icc t0 t1, ∀ s ∈ Icc t0 t1, s ≤ t → ‖f t (U t) - f s (U s)‖ ≤ M * (t - s))
    (hf : ∀ t ∈ Icc t0 t1, ∀ y, ‖f t y - f t (U t)‖ ≤ L * ‖y - U t‖) :
    ∃ fuel out, erkOdeint nd f t0 t1 y0 o oo 100 dt fuel = some (.ret out) ∧ out.status = 0 ∧ out.tVals.getLast? = some t1 ∧
      ∀ (i : ℕ) (t : ℝ), out.tVals[i]? = some t →
        ∃ y, out.yVals[i]? = some y ∧ ‖y - U t‖ ≤ Real.exp (L * (t - t0)) * (‖y0 - U t0‖ + M * dt / 2 * (t - t0)) := by
  obtain ⟨fuel, out, h1, h2, h3⟩ := C19_fixed_grid (nd := nd) (f := f) (y0 := y0) (m := 100) (by decide) hs (Or.inr rfl) hdt h01 (Or.inl hms)
  refine ⟨fuel, out, h1, h2, by rw [h3]; simp, fun i t ht => ?_⟩
  exact C135_euler h1 (Or.inr ⟨hdt, h01⟩) hL hM hU hU2 hf (fun j s s' hs1 hs2 => erk_grid_step hdt h3 hs1 hs2) ht

end

/-! ### concrete cases -/

/-- two DORMAND_PRINCE_54 runs for `y' = -y` and `y' = -y + 10^-3` from 1 and from 1.01 with the step 1/10 -/
example : ∃ fuel fuel' out out', erkOdeint (F := ℝ) (n := 1) true (fun _ y => -y) 0 1 (fun _ => 1)
      { adaptive := false, relTol := 1, absTol := 1, maxDt := 0, maxSteps := -1 } OutOpts.dflt 131 (1 / 10) fuel = some (.ret out) ∧
    erkOdeint (F := ℝ) (n := 1) true (fun _ y => -y + fun _ => 1 / 1000) 0 1 (fun _ => 1.01)
      { adaptive := false, relTol := 1, absTol := 1, maxDt := 0, maxSteps := -1 } OutOpts.dflt 131 (1 / 10) fuel' = some (.ret out') ∧
    out.status = 0 ∧ out'.status = 0 ∧ out'.tVals = out.tVals ∧ out.tVals.getLast? = some 1 ∧
    ∀ (i : ℕ) (t : ℝ), out.tVals[i]? = some t → ∃ y z, out.yVals[i]? = some y ∧ out'.yVals[i]? = some z ∧
      ‖y - z‖ ≤ Real.exp (sensitivity 131 * 1 * (t - 0)) * (‖(fun _ => 1 : Vec ℝ 1) - fun _ => 1.01‖ + sensitivity 131 * (1 / 1000) * (t - 0)) :=
  C135_fixed (by decide) (fun h => by revert h; decide) (Or.inl rfl) (by norm_num) one_pos (by norm_num) zero_le_one (by norm_num) (by norm_num)
    (fun _ y z => by rw [one_mul, ← norm_neg]; exact le_of_eq (congrArg _ (by abel)))
    (fun _ y => (pi_norm_le_iff_of_nonneg (by norm_num)).mpr fun k => by simp)

/-- EULER for `y' = 2t - y` with `y(0) = 2`, whose solution is `2t - 2 + 4 exp(-t)` -/
example : ∃ fuel out, erkOdeint (F := ℝ) (n := 1) true (fun t y => fun k => 2 * t - y k) 0 1 (fun _ => 2)
      { adaptive := true, relTol := 1, absTol := 1, maxDt := 0, maxSteps := -1 } OutOpts.dflt 100 (1 / 100) fuel = some (.ret out) ∧
    out.status = 0 ∧ out.tVals.getLast? = some 1 ∧
    ∀ (i : ℕ) (t : ℝ), out.tVals[i]? = some t → ∃ y, out.yVals[i]? = some y ∧
      ‖y - fun _ => 2 * t - 2 + 4 * Real.exp (-t)‖ ≤
        Real.exp (1 * (t - 0)) * (‖(fun _ => 2 : Vec ℝ 1) - fun _ => 2 * 0 - 2 + 4 * Real.exp (-0)‖ + 4 * (1 / 100) / 2 * (t - 0)) := by
  refine C135_euler_run (U := fun t _ => 2 * t - 2 + 4 * Real.exp (-t)) (M := 4) (fun h => by revert h; decide) (by norm_num) one_pos (by norm_num) zero_le_one
    (by norm_num) ?_ ?_ ?_
  · intro t _
    refine HasDerivAt.hasDerivWithinAt (hasDerivAt_pi.2 fun k => ?_)
    have h1 := ((((hasDerivAt_id t).const_mul 2).sub_const 2).add (((Real.hasDerivAt_exp (-t)).comp t (hasDerivAt_neg t)).const_mul 4))
    refine h1.congr_deriv ?_
    ring
  · intro t ht s hs hst
    refine (pi_norm_le_iff_of_nonneg (by linarith)).mpr fun k => ?_
    have e : 2 * t - (2 * t - 2 + 4 * Real.exp (-t)) - (2 * s - (2 * s - 2 + 4 * Real.exp (-s))) = 4 * (Real.exp (-s) - Real.exp (-t)) := by ring
    have h1 : Real.exp (-s) * (1 - (t - s)) ≤ Real.exp (-t) := by
      have := Real.add_one_le_exp (-(t - s))
      have h2 : Real.exp (-t) = Real.exp (-s) * Real.exp (-(t - s)) := by rw [← Real.exp_add]; ring_nf
      rw [h2]
      exact mul_le_mul_of_nonneg_left (by linarith) (Real.exp_pos _).le
    have h3 : Real.exp (-s) ≤ 1 := Real.exp_le_one_iff.mpr (by linarith [hs.1])
    have h4 : Real.exp (-t) ≤ Real.exp (-s) := Real.exp_le_exp.mpr (by linarith)
    have h5 := mul_le_mul_of_nonneg_right h3 (by linarith : 0 ≤ t - s)
    change |2 * t - (2 * t - 2 + 4 * Real.exp (-t)) - (2 * s - (2 * s - 2 + 4 * Real.exp (-s)))| ≤ 4 * (t - s)
    rw [e, abs_of_nonneg (by linarith)]
    linarith
  · intro t _ y
    rw [one_mul, ← norm_neg]
    refine le_of_eq (congrArg _ ?_)
    funext k
    simp

end Verif
