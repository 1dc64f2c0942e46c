import Verif.ErkLinear
import Verif.Prop.ErkTerm
import Verif.Prop.ErkSens
import Verif.Prop.ErkGrowth
import Mathlib.Analysis.Normed.Module.FiniteDimension

/-!
# Property C138: explicit runs on linear systems

One step on `y' = L y` applies a polynomial of `h L`: the exponential series up to the order of the method and at most one further term.  Runs on
systems with `L^(p+1) = 0`, e.g. free fall, are therefore exact.
-/

set_option autoImplicit false

namespace Verif
open Spec Finset
open scoped Nat

section
variable {n : ℕ} {nd : Bool} {L : (Fin n → ℝ) →ₗ[ℝ] (Fin n → ℝ)} {t0 t1 : ℝ} {y0 : Vec ℝ n} {o : ErkOpts ℝ} {oo : OutOpts} {m : ℤ} {dt : ℝ} {fuel : ℕ}
  {out : ErkOutput ℝ n}

/-- **C138.**  Consecutive samples of any explicit run on `y' = L y`: with `h = t' - t` and `p = 1, 4, 3, 5, 5, 5` for EULER, RK4, BOGACKI_SHAMPINE_32,
CASH_KARP_54, DORMAND_PRINCE_54, FEHLBERG_54, `y' = Σ_{j ≤ p} h^j/j! L^j y + c h^(p+1) L^(p+1) y`, where `c = 0, 0, 0, 1/800, 1/600, 1/2080`. -/
theorem C138_step (h : erkOdeint nd (fun _ y => L y) t0 t1 y0 o oo m dt fuel = some (.ret out)) (hpos : nd = false ∨ (0 < dt ∧ t0 < t1)) {i : ℕ}
    {t t' : ℝ} (ht : out.tVals[i]? = some t) (ht' : out.tVals[i + 1]? = some t') :
    ∃ p c y y', (m, p, c) ∈ ([(100, 1, 0), (110, 4, 0), (120, 3, 0), (130, 5, 1 / 800), (131, 5, 1 / 600), (132, 5, 1 / 2080)] : List (ℤ × ℕ × ℝ)) ∧
      out.yVals[i]? = some y ∧ out.yVals[i + 1]? = some y' ∧
      y' = ∑ j ∈ range (p + 1), ((t' - t) ^ j / j !) • (L ^ j) y + ((t' - t) ^ (p + 1) * c) • (L ^ (p + 1)) y := by
  obtain ⟨y, y', k, h1, h2, -, h4⟩ := C12_odeint h hpos ht ht'
  have hm := (erkOdeint_ret h).1
  refine ⟨expDegree m, (lastCoef m : ℚ), y, y', ?_, h1, h2, shipped_linear hm h4⟩
  simp only [erkImplemented, List.mem_cons, List.not_mem_nil, or_false] at hm
  rcases hm with rfl | rfl | rfl | rfl | rfl | rfl <;> simp [expDegree, lastCoef]

/-- **C138, exactness.**  If `L^(p+1) = 0`, `p` the order of the method, all samples of the run, adaptive or not and whatever the tolerances and the steps,
lie on the solution through the initial value. -/
theorem C138_exact (h : erkOdeint nd (fun _ y => L y) t0 t1 y0 o oo m dt fuel = some (.ret out)) (hpos : nd = false ∨ (0 < dt ∧ t0 < t1)) {p : ℕ}
    (hp : (m, p) ∈ ([(100, 1), (110, 4), (120, 3), (130, 5), (131, 5), (132, 5)] : List (ℤ × ℕ))) (hL : L ^ (p + 1) = 0) :
    ∃ U : ℝ → Vec ℝ n, U t0 = y0 ∧ (∀ t, HasDerivAt U (L (U t)) t) ∧
      ∀ (i : ℕ) (t : ℝ) (y : Vec ℝ n), out.tVals[i]? = some t → out.yVals[i]? = some y → y = U t := by
  have hlen := (C10_odeint h).1
  refine ⟨fun t => ∑ j ∈ range (p + 1), ((t - t0) ^ j / j !) • (L ^ j) y0, ?_, nilpotent_solution hL t0 y0, ?_⟩
  · simp [sum_range_succ']
  · intro i
    induction i with
    | zero =>
      intro t y ht hy
      obtain ⟨-, -, -, -, e1, e2⟩ := C10_odeint h
      rw [List.head?_eq_getElem?, ht] at e1
      rw [List.head?_eq_getElem?, hy] at e2
      cases e1; cases e2
      simp [sum_range_succ']
    | succ i ih =>
      intro t' y' ht' hy'
      obtain ⟨hi, -⟩ := List.getElem?_eq_some_iff.mp ht'
      have ht : out.tVals[i]? = some (out.tVals[i]'(by omega)) := List.getElem?_eq_getElem _
      generalize out.tVals[i]'(by omega) = t at ht
      obtain ⟨q, c, y, y2, a0, a1, a2, a3⟩ := C138_step h hpos ht ht'
      have hq : q = p := by
        simp only [List.mem_cons, List.not_mem_nil, or_false, Prod.mk.injEq] at a0 hp
        omega
      subst hq
      rw [hy'] at a2
      cases a2
      rw [a3, ih t y ht a1, hL]
      simp only [LinearMap.zero_apply, smul_zero, add_zero]
      have := nilpotent_add hL (t - t0) (t' - t) y0
      rw [this]
      congr 1
      funext j
      rw [show t - t0 + (t' - t) = t' - t0 by ring]

/-- **C138, sharpness.**  If only `L^(p+2) = 0`, each step from `y` misses the solution through `y` by exactly `e h^(p+1) L^(p+1) y` with
`e = -1/2, -1/120, -1/24, -1/7200, 1/3600, -17/18720`, never zero. -/
theorem C138_sharp (h : erkOdeint nd (fun _ y => L y) t0 t1 y0 o oo m dt fuel = some (.ret out)) (hpos : nd = false ∨ (0 < dt ∧ t0 < t1)) {p : ℕ} {e : ℝ}
    (hp : (m, p, e) ∈ ([(100, 1, -1 / 2), (110, 4, -1 / 120), (120, 3, -1 / 24), (130, 5, -1 / 7200), (131, 5, 1 / 3600), (132, 5, -17 / 18720)] :
      List (ℤ × ℕ × ℝ))) (hL : L ^ (p + 2) = 0) {i : ℕ} {t t' : ℝ} (ht : out.tVals[i]? = some t) (ht' : out.tVals[i + 1]? = some t') :
    ∃ (y y' : Vec ℝ n) (U : ℝ → Vec ℝ n), out.yVals[i]? = some y ∧ out.yVals[i + 1]? = some y' ∧ U t = y ∧ (∀ s, HasDerivAt U (L (U s)) s) ∧
      y' - U t' = (e * (t' - t) ^ (p + 1)) • (L ^ (p + 1)) y ∧ ((L ^ (p + 1)) y ≠ 0 → y' ≠ U t') := by
  obtain ⟨q, c, y, y', a0, a1, a2, a3⟩ := C138_step h hpos ht ht'
  have hlt := times_step h hpos ht ht'
  have he : q = p ∧ e = c - 1 / (p + 1)! ∧ e ≠ 0 := by
    simp only [List.mem_cons, List.not_mem_nil, or_false, Prod.mk.injEq] at a0 hp
    rcases hp with ⟨rfl, rfl, rfl⟩ | ⟨rfl, rfl, rfl⟩ | ⟨rfl, rfl, rfl⟩ | ⟨rfl, rfl, rfl⟩ | ⟨rfl, rfl, rfl⟩ | ⟨rfl, rfl, rfl⟩ <;> norm_num at a0 <;>
      obtain ⟨rfl, rfl⟩ := a0 <;> norm_num [Nat.factorial]
  obtain ⟨rfl, he, he0⟩ := he
  have key : y' - ∑ j ∈ range (q + 1 + 1), ((t' - t) ^ j / (j ! : ℝ)) • (L ^ j) y = (e * (t' - t) ^ (q + 1)) • (L ^ (q + 1)) y := by
    rw [sum_range_succ, a3, he]
    module
  refine ⟨y, y', fun s => ∑ j ∈ range (q + 1 + 1), ((s - t) ^ j / j !) • (L ^ j) y, a1, a2, by simp [sum_range_succ'], nilpotent_solution hL t y, key, ?_⟩
  intro hne heq
  beta_reduce at heq
  rw [← heq, sub_self, eq_comm, smul_eq_zero] at key
  rcases key with h1 | h1
  · exact mul_ne_zero he0 (pow_ne_zero _ (by linarith)) h1
  · exact hne h1

/-- **C138, estimate.**  The error estimate recorded by an adaptive run on `y' = L y` is the polynomial
`e0 h^(q+1) L^(q+1) y + e1 h^(q+2) L^(q+2) y + e2 h^(q+3) L^(q+3) y`, `q` the order of the embedded weights, with the constants listed.  If `L^(q+1) = 0`
it vanishes, and the recorded `err` is the floor `1e-17`. -/
theorem C138_estimate (h : erkOdeint nd (fun _ y => L y) t0 t1 y0 o oo m dt fuel = some (.ret out)) (hpos : nd = false ∨ (0 < dt ∧ t0 < t1))
    (had : o.adaptive = true) {q : ℕ} {e0 e1 e2 : ℝ} (hq : (m, q, e0, e1, e2) ∈ ([(120, 2, 1 / 48, 1 / 48, 0), (130, 4, 277 / 1228800, -277 / 1638400, 0),
      (131, 4, 97 / 120000, -13 / 40000, 1 / 24000), (132, 4, 1 / 780, -1 / 2080, 0)] : List (ℤ × ℕ × ℝ × ℝ × ℝ))) {i : ℕ}
    {t t' : ℝ} (ht : out.tVals[i]? = some t) (ht' : out.tVals[i + 1]? = some t') :
    ∃ (y ee : Vec ℝ n) (e : ℝ), out.yVals[i]? = some y ∧ out.errEst[i + 1]? = some ee ∧ out.err[i + 1]? = some e ∧
      ee = ((t' - t) ^ (q + 1) * e0) • (L ^ (q + 1)) y + ((t' - t) ^ (q + 2) * e1) • (L ^ (q + 2)) y + ((t' - t) ^ (q + 3) * e2) • (L ^ (q + 3)) y ∧
      (L ^ (q + 1) = 0 → ee = 0 ∧ e = 1 / 10 ^ 17) := by
  have hm : m ∈ ([120, 130, 131, 132] : List ℤ) := by
    simp only [List.mem_cons, List.not_mem_nil, or_false, Prod.mk.injEq] at hq ⊢
    omega
  have hb2 : (erkCoeffs m : SolverCoeffs ℝ).b2 ≠ [] := by
    simp only [List.mem_cons, List.not_mem_nil, or_false] at hm
    rcases hm with rfl | rfl | rfl | rfl <;> simp [erkCoeffs, bogackiShampine32, cashKarp54, dormandPrince54, fehlberg54]
  obtain ⟨y, y', k, a1, a2, a3, a4⟩ := C12_odeint h hpos ht ht'
  obtain ⟨z, z', l, ee, e, b1, b2, b3, b4, b5, b6, -, b8⟩ := C13_within_tolerance h hpos had hb2 ht ht'
  have hkl : k = l := List.ofFn_injective (Option.some.inj (a3.symm.trans b3))
  have hyz : y = z := Option.some.inj (a1.symm.trans b1)
  subst hkl hyz
  have key : ee = ((t' - t) ^ (q + 1) * e0) • (L ^ (q + 1)) y + ((t' - t) ^ (q + 2) * e1) • (L ^ (q + 2)) y + ((t' - t) ^ (q + 3) * e2) • (L ^ (q + 3)) y := by
    rw [b6, shipped_estimate hm a4]
    simp only [List.mem_cons, List.not_mem_nil, or_false, Prod.mk.injEq] at hq
    rcases hq with ⟨rfl, rfl, rfl, rfl, rfl⟩ | ⟨rfl, rfl, rfl, rfl, rfl⟩ | ⟨rfl, rfl, rfl, rfl, rfl⟩ | ⟨rfl, rfl, rfl, rfl, rfl⟩ <;>
      simp [sum_range_succ, estCoef]
  refine ⟨y, ee, e, a1, b4, b5, key, fun hL => ?_⟩
  have hee : ee = 0 := by
    rw [key, pow_succ' L (q + 1), pow_succ' L (q + 2), pow_succ' L (q + 1), hL]
    simp
  refine ⟨hee, ?_⟩
  rw [b8, hee]
  simp [wrms]

/-- **C138, whole adaptive runs.**  For every linear map the adaptive run of a method with embedded weights returns with SUCCESS; if `L^(p+1) = 0`, its last
sample is the solution at `t1`, whatever the tolerances. -/
theorem C138_completes (hs : StreamOK oo) (had : o.adaptive = true) (ha : 0 < o.absTol) (hr : 0 ≤ o.relTol) (hms : o.maxSteps < 0) (hdt : 0 < dt)
    (h01 : t0 < t1) {p : ℕ} (hp : (m, p) ∈ ([(120, 3), (130, 5), (131, 5), (132, 5)] : List (ℤ × ℕ))) :
    ∃ fuel out, erkOdeint nd (fun _ y => L y) t0 t1 y0 o oo m dt fuel = some (.ret out) ∧ out.status = 0 ∧ out.tVals.getLast? = some t1 ∧
      (L ^ (p + 1) = 0 → ∃ U : ℝ → Vec ℝ n, U t0 = y0 ∧ (∀ t, HasDerivAt U (L (U t)) t) ∧ out.yVals.getLast? = some (U t1)) := by
  have hm : m ∈ erkImplemented ∧ (erkCoeffs m : SolverCoeffs ℝ).b2 ≠ [] := by
    simp only [List.mem_cons, List.not_mem_nil, or_false, Prod.mk.injEq] at hp
    rcases hp with ⟨rfl, -⟩ | ⟨rfl, -⟩ | ⟨rfl, -⟩ | ⟨rfl, -⟩ <;>
      exact ⟨by decide, by simp [erkCoeffs, bogackiShampine32, cashKarp54, dormandPrince54, fehlberg54]⟩
  obtain ⟨fuel, out, h, hst⟩ := C73_adaptive_terminates (nd := nd) (y0 := y0) (f := fun _ y => L y) (α := 0)
    (β := ‖LinearMap.toContinuousLinearMap L‖) hm.1 hs had hm.2 ha hr
    (fun t y _ _ => by rw [zero_add]; exact (LinearMap.toContinuousLinearMap L).le_opNorm y) hdt h01
  have h0 := hst hms
  have hpos : nd = false ∨ (0 < dt ∧ t0 < t1) := Or.inr ⟨hdt, h01⟩
  obtain ⟨-, -, -, tl, q2, q3⟩ := C11_odeint h hpos
  have hl : out.tVals.getLast? = some t1 := by
    rcases q3 with ⟨-, rfl⟩ | ⟨q3, -⟩
    · exact q2
    · rw [h0] at q3; cases q3
  refine ⟨fuel, out, h, h0, hl, fun hL => ?_⟩
  have hp' : (m, p) ∈ ([(100, 1), (110, 4), (120, 3), (130, 5), (131, 5), (132, 5)] : List (ℤ × ℕ)) := by
    simp only [List.mem_cons] at hp ⊢
    tauto
  obtain ⟨U, u1, u2, u3⟩ := C138_exact h hpos hp' hL
  refine ⟨U, u1, u2, ?_⟩
  have hlen := (C10_odeint h).1
  rw [List.getLast?_eq_getElem?] at hl ⊢
  rw [hlen]
  obtain ⟨hi, -⟩ := List.getElem?_eq_some_iff.mp hl
  have hy : out.yVals[out.tVals.length - 1]? = some (out.yVals[out.tVals.length - 1]'(by omega)) := List.getElem?_eq_getElem _
  rw [hy, u3 _ _ _ hl hy]

end

/-- free fall: position, velocity, acceleration -/
def freeFall : (Fin 3 → ℝ) →ₗ[ℝ] (Fin 3 → ℝ) where
  toFun y := ![y 1, y 2, 0]
  map_add' x y := by funext i; fin_cases i <;> simp
  map_smul' c y := by funext i; fin_cases i <;> simp

theorem freeFall_cube : freeFall ^ 3 = 0 := by
  ext y i
  fin_cases i <;> simp [pow_succ, freeFall, Module.End.mul_apply]

/-- `C138_exact`: BOGACKI_SHAMPINE_32 with fixed steps on free fall -/
example : ∃ fuel out, erkOdeint (n := 3) true (fun _ y => freeFall y) 0 1 ![100, 0, -10] { adaptive := false, relTol := 1, absTol := 1, maxDt := 0, maxSteps := -1 }
    OutOpts.dflt 120 (3 / 10) fuel = some (.ret out) ∧ out.status = 0 ∧ ∃ U : ℝ → Vec ℝ 3, U 0 = ![100, 0, -10] ∧ (∀ t, HasDerivAt U (freeFall (U t)) t) ∧
      ∀ (i : ℕ) (t : ℝ) (y : Vec ℝ 3), out.tVals[i]? = some t → out.yVals[i]? = some y → y = U t := by
  obtain ⟨fuel, out, h1, h2, -⟩ := C19_fixed_grid (n := 3) (nd := true) (f := fun _ y => freeFall y) (t0 := 0) (t1 := 1) (y0 := ![100, 0, -10]) (m := 120)
    (dt := 3 / 10) (o := { adaptive := false, relTol := 1, absTol := 1, maxDt := 0, maxSteps := -1 }) (oo := OutOpts.dflt) (by decide)
    (fun h => by revert h; decide) (Or.inl rfl) (by norm_num) one_pos (Or.inl (by norm_num))
  exact ⟨fuel, out, h1, h2, C138_exact h1 (Or.inr ⟨by norm_num, one_pos⟩) (p := 3) (by simp) (by rw [pow_succ, freeFall_cube, zero_mul])⟩

/-- `C138_sharp`: EULER misses the fall at every step -/
example : ∃ fuel out, erkOdeint (n := 3) true (fun _ y => freeFall y) 0 1 ![100, 0, -10] { adaptive := false, relTol := 1, absTol := 1, maxDt := 0, maxSteps := -1 }
    OutOpts.dflt 100 (1 / 2) fuel = some (.ret out) ∧ ∃ (y' : Vec ℝ 3) (U : ℝ → Vec ℝ 3), out.yVals[1]? = some y' ∧ U 0 = ![100, 0, -10] ∧
      (∀ s, HasDerivAt U (freeFall (U s)) s) ∧ y' ≠ U (1 / 2) := by
  obtain ⟨fuel, out, h1, h2, h3⟩ := C19_fixed_grid (n := 3) (nd := true) (f := fun _ y => freeFall y) (t0 := 0) (t1 := 1) (y0 := ![100, 0, -10]) (m := 100)
    (dt := 1 / 2) (o := { adaptive := false, relTol := 1, absTol := 1, maxDt := 0, maxSteps := -1 }) (oo := OutOpts.dflt) (by decide)
    (fun h => by revert h; decide) (Or.inl rfl) (by norm_num) one_pos (Or.inl (by norm_num))
  have hc : ⌈((1 : ℝ) - 0) / (1 / 2)⌉₊ = 2 := by norm_num
  rw [hc] at h3
  obtain ⟨y, y', U, a1, a2, a3, a4, -, a5⟩ := C138_sharp h1 (Or.inr ⟨by norm_num, one_pos⟩) (p := 1) (e := -1 / 2) (by simp) freeFall_cube (i := 0)
    (t := 0) (t' := 1 / 2) (by rw [h3]; simp [List.range_succ]) (by rw [h3]; simp [List.range_succ])
  have e := (C10_odeint h1).2.2.2.2.2
  rw [List.head?_eq_getElem?, a1] at e
  cases e
  refine ⟨fuel, out, h1, y', U, a2, a3, a4, a5 fun h => ?_⟩
  have := congrFun h 0
  simp [pow_succ, freeFall, Module.End.mul_apply] at this

/-- `C138_completes`, `C138_estimate`: DORMAND_PRINCE_54 with the coarsest tolerances on free fall; all recorded estimates vanish -/
example : ∃ fuel out, erkOdeint (n := 3) true (fun _ y => freeFall y) 0 1 ![100, 0, -10] { adaptive := true, relTol := 1, absTol := 1, maxDt := 0, maxSteps := -1 }
    OutOpts.dflt 131 (1 / 10) fuel = some (.ret out) ∧ out.status = 0 ∧
      (∃ U : ℝ → Vec ℝ 3, U 0 = ![100, 0, -10] ∧ (∀ t, HasDerivAt U (freeFall (U t)) t) ∧ out.yVals.getLast? = some (U 1)) ∧
      ∀ i t t', out.tVals[i]? = some t → out.tVals[i + 1]? = some t' → out.errEst[i + 1]? = some 0 := by
  obtain ⟨fuel, out, h1, h2, -, h4⟩ := C138_completes (nd := true) (L := freeFall) (t0 := 0) (t1 := 1) (y0 := ![100, 0, -10]) (m := 131) (p := 5) (dt := 1 / 10)
    (o := { adaptive := true, relTol := 1, absTol := 1, maxDt := 0, maxSteps := -1 }) (oo := OutOpts.dflt)
    (fun h => by revert h; decide) rfl one_pos zero_le_one (by norm_num) (by norm_num) one_pos (by simp)
  refine ⟨fuel, out, h1, h2, h4 (by rw [show 5 + 1 = 3 + 3 from rfl, pow_add, freeFall_cube, zero_mul]), fun i t t' ht ht' => ?_⟩
  obtain ⟨y, ee, e, -, a2, -, -, a5⟩ := C138_estimate h1 (Or.inr ⟨by norm_num, one_pos⟩) rfl (q := 4) (e0 := 97 / 120000) (e1 := -13 / 40000) (e2 := 1 / 24000)
    (by simp) ht ht'
  rw [a2, (a5 (by rw [show 4 + 1 = 3 + 2 from rfl, pow_add, freeFall_cube, zero_mul])).1]

end Verif
