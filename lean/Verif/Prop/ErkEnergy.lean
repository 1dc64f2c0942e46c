import Verif.Prop.Stability
import Verif.Prop.ErkConverge

/-!
# Property C102: the energy of the harmonic oscillator in explicit runs
-/

namespace Verif
open TestEq

/-- twice the energy of the oscillator -/
def oscEnergy (y : Vec ℝ 2) : ℝ := y 0 ^ 2 + y 1 ^ 2

/-- the factor by which a step multiplies the energy, as a function of `s = (w h)²`, minus 1 -/
noncomputable def energyGain (m : ℤ) (s : ℝ) : ℝ :=
  if m = 100 then s
  else if m = 110 then s ^ 3 * (-1 / 72 + s / 576)
  else if m = 120 then s ^ 2 * (-1 / 12 + s / 36)
  else if m = 130 then s ^ 3 * (1 / 3600 + s / 4800 - s ^ 2 / 28800 + s ^ 3 / 640000)
  else if m = 131 then s ^ 3 * (-1 / 1800 + s / 1600 - s ^ 2 / 14400 + s ^ 3 / 360000)
  else s ^ 3 * (17 / 9360 - 7 * s / 12480 + 11 * s ^ 2 / 374400 + s ^ 3 / 4326400)

theorem energy_oscillator (y : Vec ℝ 2) : oscEnergy y = Complex.normSq (oscillator y) := by
  rw [Complex.normSq_apply]
  simp only [oscillator, oscEnergy, LinearMap.coe_mk, AddHom.coe_mk]
  ring

/-- the modulus of the stability function on the imaginary axis -/
theorem stab_imaginary {m : ℤ} (hm : m ∈ erkImplemented) {w h : ℝ} {R : ℂ}
    (hR : stabilityFunction ((⟨0, w⟩ : ℂ) * (h : ℂ)) (erkCoeffs m : SolverCoeffs ℝ).A (erkCoeffs m : SolverCoeffs ℝ).b = .ret R) :
    Complex.normSq R = 1 + energyGain m ((w * h) ^ 2) := by
  rw [stab_erk hm] at hR
  injection hR with hR
  have hz : (⟨0, w⟩ : ℂ) * (h : ℂ) = ⟨0, w * h⟩ := by apply Complex.ext <;> simp
  rw [hz] at hR
  rw [← hR]
  generalize w * h = x
  simp only [erkImplemented, List.mem_cons, List.not_mem_nil, or_false] at hm
  rcases hm with rfl | rfl | rfl | rfl | rfl | rfl <;>
    simp [erkStab, horner, energyGain, Complex.normSq_apply] <;> ring_nf

section runs
variable {nd : Bool} {w t0 t1 : ℝ} {y0 : Vec ℝ 2} {o : ErkOpts ℝ} {oo : OutOpts} {m : ℤ} {dt : ℝ} {fuel : ℕ} {out : ErkOutput ℝ 2}

/-- **C102.**  Every step of every run for the harmonic oscillator, with fixed or adaptive steps, multiplies the energy by the factor
`1 + energyGain m ((w h)²)`, `h` being the length of the step. -/
theorem C102_factor (h : erkOdeint nd (harmonic w).fn t0 t1 y0 o oo m dt fuel = some (.ret out))
    (hpos : nd = false ∨ (0 < dt ∧ t0 < t1)) {i : ℕ} {t t' : ℝ} (ht : out.tVals[i]? = some t) (ht' : out.tVals[i + 1]? = some t') :
    ∃ y y', out.yVals[i]? = some y ∧ out.yVals[i + 1]? = some y' ∧
      oscEnergy y' = (1 + energyGain m ((w * (t' - t)) ^ 2)) * oscEnergy y := by
  obtain ⟨y, y', R, h1, h2, h3, h4⟩ := C59_erk (oscillator_eigen w) h hpos ht ht'
  refine ⟨y, y', h1, h2, ?_⟩
  rw [energy_oscillator, energy_oscillator, h4, Complex.normSq_mul, stab_imaginary (erkOdeint_ret h).1 h3]

/-- the full statement of C102: with small enough steps no run increases the energy -/
def C102_claim : Prop := ∀ m ∈ erkImplemented, ∀ w : ℝ, ∃ σ > 0, ∀ (nd : Bool) (t0 t1 : ℝ) (y0 : Vec ℝ 2) (o : ErkOpts ℝ) (oo : OutOpts)
  (dt : ℝ) (fuel : ℕ) (out : ErkOutput ℝ 2), erkOdeint nd (harmonic w).fn t0 t1 y0 o oo m dt fuel = some (.ret out) →
  (nd = false ∨ (0 < dt ∧ t0 < t1)) → (∀ (i : ℕ) (t t' : ℝ), out.tVals[i]? = some t → out.tVals[i + 1]? = some t' → t' - t ≤ σ) →
  ∀ (i : ℕ) (y y' : Vec ℝ 2), out.yVals[i]? = some y → out.yVals[i + 1]? = some y' → oscEnergy y' ≤ oscEnergy y

/-- the gain of explicit Euler and of Cash–Karp is positive for all steps, that of Fehlberg for `(w h)² ≤ 4` -/
theorem gain_pos {s : ℝ} (hs : 0 < s) : (m = 100 ∨ m = 130 → 0 < energyGain m s) ∧ (m = 132 → s ≤ 4 → 0 < energyGain m s) := by
  constructor
  · rintro (rfl | rfl)
    · simpa [energyGain] using hs
    · simp only [energyGain, show (130 : ℤ) ≠ 100 by norm_num, show (130 : ℤ) ≠ 110 by norm_num, show (130 : ℤ) ≠ 120 by norm_num,
        if_false, if_true]
      refine mul_pos (by positivity) ?_
      nlinarith [mul_nonneg hs.le (sq_nonneg (s - 11)), sq_nonneg (s - 11), hs]
  · rintro rfl h4
    simp only [energyGain, show (132 : ℤ) ≠ 100 by norm_num, show (132 : ℤ) ≠ 110 by norm_num, show (132 : ℤ) ≠ 120 by norm_num,
      show (132 : ℤ) ≠ 130 by norm_num, show (132 : ℤ) ≠ 131 by norm_num, if_false]
    refine mul_pos (by positivity) ?_
    nlinarith [pow_pos hs 3, mul_nonneg hs.le (sub_nonneg.mpr h4), sq_nonneg (s - 4)]

/-- the gain of the classical method is at most zero exactly for `(w h)² ≤ 8`, that of Bogacki–Shampine exactly for `(w h)² ≤ 3`, that of
Dormand–Prince at least for `(w h)² ≤ 9/10` -/
theorem gain_nonpos {s : ℝ} (hs : 0 < s) : (energyGain 110 s ≤ 0 ↔ s ≤ 8) ∧ (energyGain 120 s ≤ 0 ↔ s ≤ 3) ∧
    (s ≤ 9 / 10 → energyGain 131 s ≤ 0) := by
  refine ⟨?_, ?_, fun h => ?_⟩
  · simp only [energyGain, show (110 : ℤ) ≠ 100 by norm_num, if_false, if_true]
    rw [← not_lt, mul_pos_iff_of_pos_left (by positivity), not_lt]
    constructor <;> intro h <;> linarith
  · simp only [energyGain, show (120 : ℤ) ≠ 100 by norm_num, show (120 : ℤ) ≠ 110 by norm_num, if_false, if_true]
    rw [← not_lt, mul_pos_iff_of_pos_left (by positivity), not_lt]
    constructor <;> intro h <;> linarith
  · simp only [energyGain, show (131 : ℤ) ≠ 100 by norm_num, show (131 : ℤ) ≠ 110 by norm_num, show (131 : ℤ) ≠ 120 by norm_num,
      show (131 : ℤ) ≠ 130 by norm_num, if_false, if_true]
    refine mul_nonpos_of_nonneg_of_nonpos (by positivity) ?_
    nlinarith [mul_nonneg hs.le (sub_nonneg.mpr h), mul_nonneg (mul_nonneg hs.le hs.le) (sub_nonneg.mpr h)]

/-- **C102 (growth).**  With explicit Euler and Cash–Karp every step increases the energy, however small or large it is; with Fehlberg every
step of length at most `2 / |w|`. -/
theorem C102_grows (hw : w ≠ 0) (h : erkOdeint nd (harmonic w).fn t0 t1 y0 o oo m dt fuel = some (.ret out))
    (hpos : nd = false ∨ (0 < dt ∧ t0 < t1)) {i : ℕ} {t t' : ℝ} (ht : out.tVals[i]? = some t) (ht' : out.tVals[i + 1]? = some t')
    (hm : m = 100 ∨ m = 130 ∨ (m = 132 ∧ |w| * (t' - t) ≤ 2)) {y y' : Vec ℝ 2} (hy : out.yVals[i]? = some y)
    (hy' : out.yVals[i + 1]? = some y') (hne : y ≠ 0) : oscEnergy y < oscEnergy y' := by
  obtain ⟨z, z', h1, h2, h3⟩ := C102_factor h hpos ht ht'
  rw [hy] at h1; rw [hy'] at h2
  cases h1; cases h2
  have hlt := consecutive_lt (C11_odeint h hpos).1 ht ht'
  have hs : 0 < (w * (t' - t)) ^ 2 := by
    have : w * (t' - t) ≠ 0 := mul_ne_zero hw (by linarith)
    positivity
  have hg : 0 < energyGain m ((w * (t' - t)) ^ 2) := by
    rcases hm with hm | hm | ⟨hm, hle⟩
    · exact (gain_pos hs).1 (.inl hm)
    · exact (gain_pos hs).1 (.inr hm)
    · refine (gain_pos hs).2 hm ?_
      rw [mul_pow, ← sq_abs w, ← mul_pow]
      have : 0 ≤ |w| * (t' - t) := mul_nonneg (abs_nonneg _) (by linarith)
      nlinarith
  have he : 0 < oscEnergy y := by
    rw [energy_oscillator, Complex.normSq_pos]
    intro hc
    apply hne
    have h0 := congrArg Complex.im hc
    have h1 := congrArg Complex.re hc
    ext k
    fin_cases k
    · exact h0
    · exact h1
  rw [h3]
  nlinarith

/-- **C102 (what is left).**  With the classical method, Bogacki–Shampine and Dormand–Prince no step of length at most `√8 / |w|`,
`√3 / |w|` and `√0.9 / |w|` increases the energy; the first two bounds are sharp (`gain_nonpos`). -/
theorem C102_decays_partial (h : erkOdeint nd (harmonic w).fn t0 t1 y0 o oo m dt fuel = some (.ret out))
    (hpos : nd = false ∨ (0 < dt ∧ t0 < t1)) {i : ℕ} {t t' : ℝ} (ht : out.tVals[i]? = some t) (ht' : out.tVals[i + 1]? = some t')
    {b : ℝ} (hm : (m, b) ∈ ([(110, 8), (120, 3), (131, 9 / 10)] : List (ℤ × ℝ))) (hst : (w * (t' - t)) ^ 2 ≤ b) {y y' : Vec ℝ 2}
    (hy : out.yVals[i]? = some y) (hy' : out.yVals[i + 1]? = some y') : oscEnergy y' ≤ oscEnergy y := by
  obtain ⟨z, z', h1, h2, h3⟩ := C102_factor h hpos ht ht'
  rw [hy] at h1; rw [hy'] at h2
  cases h1; cases h2
  have he : 0 ≤ oscEnergy y := by unfold oscEnergy; positivity
  have hg : energyGain m ((w * (t' - t)) ^ 2) ≤ 0 := by
    rcases (sq_nonneg (w * (t' - t))).eq_or_lt with hz | hs
    · rw [← hz]; unfold energyGain; split_ifs <;> simp
    · simp only [List.mem_cons, Prod.mk.injEq, List.not_mem_nil, or_false] at hm
      rcases hm with ⟨rfl, rfl⟩ | ⟨rfl, rfl⟩ | ⟨rfl, rfl⟩
      · exact (gain_nonpos hs).1.2 hst
      · exact (gain_nonpos hs).2.1.2 hst
      · exact (gain_nonpos hs).2.2 hst
  rw [h3]
  nlinarith

/-- a run of one step -/
theorem one_step_run {m : ℤ} (hm : m ∈ erkImplemented) (w : ℝ) {σ : ℝ} (hσ : 0 < σ) (y0 : Vec ℝ 2) :
    ∃ fuel out y', erkOdeint (F := ℝ) false (harmonic w).fn 0 σ y0 { ErkOpts.dflt with adaptive := false, maxSteps := -1 } OutOpts.dflt m σ fuel =
      some (.ret out) ∧ out.tVals = [0, σ] ∧ out.yVals = [y0, y'] := by
  obtain ⟨fuel, out, hrun, -, htv⟩ := fixed_run_exists (nd := false) (f := (harmonic w).fn) (y0 := y0) (t0 := 0) (t1 := σ) (dt := σ)
    (oo := OutOpts.dflt) (o := { ErkOpts.dflt with adaptive := false, maxSteps := -1 }) hm (fun h => by revert h; decide) (.inl rfl) hσ hσ (.inl (by norm_num))
  rw [sub_zero, div_self hσ.ne'] at htv
  have htv' : out.tVals = [0, σ] := by rw [htv]; simp
  have hpar := C10_odeint hrun
  have hlen := hpar.1
  rw [htv'] at hlen
  have hhd := hpar.2.2.2.2.2
  match hy : out.yVals, hlen with
  | [a, b], _ =>
    rw [hy] at hhd
    simp at hhd
    subst hhd
    exact ⟨fuel, out, b, hrun, htv', hy⟩

/-- **C102 is false**: with Cash–Karp no bound on the steps is small enough. -/
theorem C102_refuted : ¬ C102_claim := by
  intro h
  obtain ⟨σ, hσ, key⟩ := h 130 (by decide) 1
  obtain ⟨fuel, out, y', hrun, ht, hy⟩ := one_step_run (m := 130) (by decide) 1 hσ ![1, 0]
  have h1 := key false 0 σ ![1, 0] _ _ σ fuel out hrun (.inl rfl) (by
    intro i t t' hi hi'
    rw [ht] at hi hi'
    match i with
    | 0 => simp at hi hi'; subst hi hi'; simp
    | i + 1 => simp at hi') 0 ![1, 0] y' (by rw [hy]; rfl) (by rw [hy]; rfl)
  have h2 := C102_grows (i := 0) (t := 0) (t' := σ) one_ne_zero hrun (.inl rfl) (by rw [ht]; rfl) (by rw [ht]; rfl) (.inr (.inl rfl))
    (y := ![1, 0]) (y' := y') (by rw [hy]; rfl) (by rw [hy]; rfl) (by intro hc; have := congrFun hc 0; simp at this)
  linarith

/-- **C102 (fixed steps).**  After `i` full steps the energy is the `i`-th power of the factor times the initial energy. -/
theorem C102_fixed (h : erkOdeint nd (harmonic w).fn t0 t1 y0 o oo m dt fuel = some (.ret out)) (hpos : nd = false ∨ (0 < dt ∧ t0 < t1)) {N : ℕ}
    (ht : ∀ i ≤ N, out.tVals[i]? = some (t0 + i * dt)) :
    ∃ y, out.yVals[N]? = some y ∧ oscEnergy y = (1 + energyGain m ((w * dt) ^ 2)) ^ N * oscEnergy y0 := by
  induction N with
  | zero =>
    have hhd := (C10_odeint h).2.2.2.2.2
    refine ⟨y0, ?_, by simp⟩
    rw [← hhd, List.head?_eq_getElem?]
  | succ N ih =>
    obtain ⟨y, hy, he⟩ := ih fun i hi => ht i (by omega)
    obtain ⟨z, z', h1, h2, h3⟩ := C102_factor h hpos (ht N (by omega)) (ht (N + 1) le_rfl)
    rw [hy] at h1
    cases h1
    refine ⟨z', h2, ?_⟩
    rw [h3, he, pow_succ]
    have e : w * (t0 + ((N + 1 : ℕ) : ℝ) * dt - (t0 + N * dt)) = w * dt := by push_cast; ring
    rw [e]
    ring_nf

end runs

-- One step of each method from rest at amplitude 1, of length 1: a run, and the factor.
example {m : ℤ} (hm : m ∈ erkImplemented) : ∃ fuel out y', erkOdeint (F := ℝ) false (harmonic 1).fn 0 1 ![1, 0]
    { ErkOpts.dflt with adaptive := false, maxSteps := -1 } OutOpts.dflt m 1 fuel = some (.ret out) ∧ out.yVals = [![1, 0], y'] ∧
    oscEnergy y' = 1 + energyGain m 1 := by
  obtain ⟨fuel, out, y', hrun, ht, hy⟩ := one_step_run hm 1 one_pos ![1, 0]
  obtain ⟨z, z', h1, h2, h3⟩ := C102_factor (i := 0) (t := 0) (t' := 1) hrun (.inl rfl) (by rw [ht]; rfl) (by rw [ht]; rfl)
  rw [hy] at h1 h2
  cases h1; cases h2
  refine ⟨fuel, out, y', hrun, hy, ?_⟩
  rw [h3]
  norm_num [oscEnergy]

-- `C102_decays_partial` and `C102_grows` on the same run: one step of length 3/4 decays with Dormand–Prince and grows with Cash–Karp.
example : ∃ fuel out y', erkOdeint (F := ℝ) false (harmonic 1).fn 0 (3 / 4) ![1, 0]
    { ErkOpts.dflt with adaptive := false, maxSteps := -1 } OutOpts.dflt 131 (3 / 4) fuel = some (.ret out) ∧ out.yVals = [![1, 0], y'] ∧
    oscEnergy y' ≤ oscEnergy ![1, 0] := by
  obtain ⟨fuel, out, y', hrun, ht, hy⟩ := one_step_run (m := 131) (by decide) 1 (show (0 : ℝ) < 3 / 4 by norm_num) ![1, 0]
  exact ⟨fuel, out, y', hrun, hy, C102_decays_partial (i := 0) (b := 9 / 10) hrun (.inl rfl) (by rw [ht]; rfl) (by rw [ht]; rfl) (by simp)
    (by norm_num) (by rw [hy]; rfl) (by rw [hy]; rfl)⟩

example : ∃ fuel out y', erkOdeint (F := ℝ) false (harmonic 1).fn 0 (3 / 4) ![1, 0]
    { ErkOpts.dflt with adaptive := false, maxSteps := -1 } OutOpts.dflt 130 (3 / 4) fuel = some (.ret out) ∧ out.yVals = [![1, 0], y'] ∧
    oscEnergy ![1, 0] < oscEnergy y' := by
  obtain ⟨fuel, out, y', hrun, ht, hy⟩ := one_step_run (m := 130) (by decide) 1 (show (0 : ℝ) < 3 / 4 by norm_num) ![1, 0]
  exact ⟨fuel, out, y', hrun, hy, C102_grows (i := 0) one_ne_zero hrun (.inl rfl) (by rw [ht]; rfl) (by rw [ht]; rfl) (.inr (.inl rfl))
    (by rw [hy]; rfl) (by rw [hy]; rfl) (by intro hc; have := congrFun hc 0; simp at this)⟩

-- `C102_fixed`: three steps of explicit Euler of length 1 multiply the energy by eight.
example : ∃ fuel out y, erkOdeint (F := ℝ) false (harmonic 1).fn 0 3 ![1, 0]
    { ErkOpts.dflt with adaptive := false, maxSteps := -1 } OutOpts.dflt 100 1 fuel = some (.ret out) ∧ out.yVals[3]? = some y ∧ oscEnergy y = 8 := by
  obtain ⟨fuel, out, hrun, -, htv⟩ := fixed_run_exists (nd := false) (f := (harmonic 1).fn) (y0 := ![1, 0]) (t0 := 0) (t1 := 3) (dt := 1)
    (oo := OutOpts.dflt) (o := { ErkOpts.dflt with adaptive := false, maxSteps := -1 }) (m := 100) (by decide) (fun h => by revert h; decide)
    (.inl rfl) one_pos (by norm_num) (.inl (by norm_num))
  have hc : ⌈((3 : ℝ) - 0) / 1⌉₊ = 3 := by norm_num
  rw [hc] at htv
  obtain ⟨y, hy, he⟩ := C102_fixed (N := 3) hrun (.inl rfl) (by
    intro i hi
    rw [htv]
    interval_cases i <;> norm_num [List.range_succ])
  refine ⟨fuel, out, y, hrun, hy, ?_⟩
  rw [he]
  norm_num [energyGain, oscEnergy]

end Verif
