import Verif.Prop.ErkEnergy
import Verif.Prop.IrkConverge

/-!
# Property C131: the energy of the harmonic oscillator in implicit runs
-/

namespace Verif
open TestEq

/-- the power of `(w h)²` and the denominator in the leading term of the loss -/
def lossLead (m : ℤ) : ℕ × ℚ :=
  if m = 200 then (1, 1) else if m = 210 then (2, 36) else if m = 211 then (3, 3600)
  else if m = 230 then (3, 576) else if m = 231 then (4, 129600) else (5, 45158400)

/-- the part of the energy that a step of length `h` takes away, as a function of `s = (w h)²` -/
noncomputable def energyLoss (m : ℤ) (s : ℝ) : ℝ :=
  if m = 200 then s / (1 + s)
  else if m = 210 then s ^ 2 / (36 + 4 * s + s ^ 2)
  else if m = 211 then s ^ 3 / (3600 + 216 * s + 9 * s ^ 2 + s ^ 3)
  else if m = 230 then s ^ 3 / (576 + 36 * s + s ^ 3)
  else if m = 231 then s ^ 4 / (129600 + 5760 * s + 144 * s ^ 2 + s ^ 4)
  else s ^ 5 / (45158400 + 1512000 * s + 28800 * s ^ 2 + 400 * s ^ 3 + s ^ 5)

/-- **C131 (size).**  The loss is positive for every step, smaller than 1, and at most its leading term. -/
theorem C131_loss {m : ℤ} (hm : m ∈ [200, 210, 211, 230, 231, 232]) {s : ℝ} (hs : 0 ≤ s) :
    energyLoss m s < 1 ∧ (0 < s → 0 < energyLoss m s) ∧ energyLoss m s ≤ s ^ (lossLead m).1 / (lossLead m).2 ∧ 0 ≤ energyLoss m s := by
  simp only [List.mem_cons, List.not_mem_nil, or_false] at hm
  have h2 := pow_nonneg hs 2
  have h3 := pow_nonneg hs 3
  have h4 := pow_nonneg hs 4
  have h5 := pow_nonneg hs 5
  rcases hm with rfl | rfl | rfl | rfl | rfl | rfl <;> norm_num [energyLoss, lossLead] <;>
    refine ⟨(div_lt_one (by positivity)).2 (by linarith), fun h => by positivity, ?_, by positivity⟩
  · exact div_le_self hs (by linarith)
  all_goals exact div_le_div_of_nonneg_left (by positivity) (by norm_num) (by linarith)

/-- the modulus of the stability function on the imaginary axis -/
theorem stab_imaginary_irk {m : ℤ} (hm : m ∈ [200, 210, 211, 230, 231, 232]) (w h : ℝ) :
    ∃ R, stabilityFunction ((⟨0, w⟩ : ℂ) * (h : ℂ)) (irkCoeffs m : SolverCoeffs ℝ).A (irkCoeffs m : SolverCoeffs ℝ).b = .ret R ∧
      Complex.normSq R = 1 - energyLoss m ((w * h) ^ 2) := by
  have hm' : m ∈ stiffMethods := hm
  have hz : (⟨0, w⟩ : ℂ) * (h : ℂ) = ⟨0, w * h⟩ := by apply Complex.ext <;> simp
  rw [hz]
  generalize w * h = x
  obtain ⟨-, h2⟩ := stiff_bounds hm' (z := ⟨0, x⟩) le_rfl
  have hd : stabDen m ⟨0, x⟩ ≠ 0 := by
    intro h
    rw [h] at h2
    norm_num at h2
  refine ⟨_, stab_shipped hm' hd, ?_⟩
  rw [Complex.normSq_div, div_eq_iff (by linarith)]
  simp only [List.mem_cons, List.not_mem_nil, or_false] at hm
  rcases hm with rfl | rfl | rfl | rfl | rfl | rfl
  · have e : energyLoss 200 (x ^ 2) = x ^ 2 / (1 + x ^ 2) := by norm_num [energyLoss]
    have p : 1 + x ^ 2 ≠ 0 := by positivity
    have : Complex.normSq (stabDen 200 ⟨0, x⟩) = 1 + x ^ 2 := by simp [stabDen, den200, Complex.normSq_apply]; ring
    rw [e, this]
    field_simp
    simp [stabNum, num200, Complex.normSq_apply]
  · have e : energyLoss 210 (x ^ 2) = (x ^ 2) ^ 2 / (36 + 4 * x ^ 2 + (x ^ 2) ^ 2) := by norm_num [energyLoss]
    have p : 36 + 4 * x ^ 2 + (x ^ 2) ^ 2 ≠ 0 := by positivity
    have : Complex.normSq (stabDen 210 ⟨0, x⟩) = (36 + 4 * x ^ 2 + (x ^ 2) ^ 2) / 36 := by
      simp [stabDen, den210, Complex.normSq_apply]; ring
    have hn : Complex.normSq (stabNum 210 ⟨0, x⟩) = (36 + 4 * x ^ 2) / 36 := by
      simp [stabNum, num210, Complex.normSq_apply]; ring
    rw [e, this, hn]
    field_simp
    ring
  · have e : energyLoss 211 (x ^ 2) = (x ^ 2) ^ 3 / (3600 + 216 * x ^ 2 + 9 * (x ^ 2) ^ 2 + (x ^ 2) ^ 3) := by norm_num [energyLoss]
    have p : 3600 + 216 * x ^ 2 + 9 * (x ^ 2) ^ 2 + (x ^ 2) ^ 3 ≠ 0 := by positivity
    have : Complex.normSq (stabDen 211 ⟨0, x⟩) = (3600 + 216 * x ^ 2 + 9 * (x ^ 2) ^ 2 + (x ^ 2) ^ 3) / 3600 := by
      simp [stabDen, den211, Complex.normSq_apply]; ring
    have hn : Complex.normSq (stabNum 211 ⟨0, x⟩) = (3600 + 216 * x ^ 2 + 9 * (x ^ 2) ^ 2) / 3600 := by
      simp [stabNum, num211, Complex.normSq_apply]; ring
    rw [e, this, hn]
    field_simp
    ring
  · have e : energyLoss 230 (x ^ 2) = (x ^ 2) ^ 3 / (576 + 36 * x ^ 2 + (x ^ 2) ^ 3) := by norm_num [energyLoss]
    have p : 576 + 36 * x ^ 2 + (x ^ 2) ^ 3 ≠ 0 := by positivity
    have : Complex.normSq (stabDen 230 ⟨0, x⟩) = (576 + 36 * x ^ 2 + (x ^ 2) ^ 3) / 576 := by
      simp [stabDen, den230, Complex.normSq_apply]; ring
    have hn : Complex.normSq (stabNum 230 ⟨0, x⟩) = (576 + 36 * x ^ 2) / 576 := by
      simp [stabNum, num230, Complex.normSq_apply]; ring
    rw [e, this, hn]
    field_simp
    ring
  · have e : energyLoss 231 (x ^ 2) = (x ^ 2) ^ 4 / (129600 + 5760 * x ^ 2 + 144 * (x ^ 2) ^ 2 + (x ^ 2) ^ 4) := by norm_num [energyLoss]
    have p : 129600 + 5760 * x ^ 2 + 144 * (x ^ 2) ^ 2 + (x ^ 2) ^ 4 ≠ 0 := by positivity
    have : Complex.normSq (stabDen 231 ⟨0, x⟩) = (129600 + 5760 * x ^ 2 + 144 * (x ^ 2) ^ 2 + (x ^ 2) ^ 4) / 129600 := by
      simp [stabDen, den231, Complex.normSq_apply]; ring
    have hn : Complex.normSq (stabNum 231 ⟨0, x⟩) = (129600 + 5760 * x ^ 2 + 144 * (x ^ 2) ^ 2) / 129600 := by
      simp [stabNum, num231, Complex.normSq_apply]; ring
    rw [e, this, hn]
    field_simp
    ring
  · have e : energyLoss 232 (x ^ 2) = (x ^ 2) ^ 5 / (45158400 + 1512000 * x ^ 2 + 28800 * (x ^ 2) ^ 2 + 400 * (x ^ 2) ^ 3 + (x ^ 2) ^ 5) := by
      norm_num [energyLoss]
    have p : 45158400 + 1512000 * x ^ 2 + 28800 * (x ^ 2) ^ 2 + 400 * (x ^ 2) ^ 3 + (x ^ 2) ^ 5 ≠ 0 := by positivity
    have : Complex.normSq (stabDen 232 ⟨0, x⟩) =
        (45158400 + 1512000 * x ^ 2 + 28800 * (x ^ 2) ^ 2 + 400 * (x ^ 2) ^ 3 + (x ^ 2) ^ 5) / 45158400 := by
      simp [stabDen, den232, Complex.normSq_apply]; ring
    have hn : Complex.normSq (stabNum 232 ⟨0, x⟩) = (45158400 + 1512000 * x ^ 2 + 28800 * (x ^ 2) ^ 2 + 400 * (x ^ 2) ^ 3) / 45158400 := by
      simp [stabNum, num232, Complex.normSq_apply]; ring
    rw [e, this, hn]
    field_simp
    ring

section runs
variable {nd : Bool} {la : LinAlg ℝ} {w t0 t1 : ℝ} {y0 : Vec ℝ 2} {o : IrkOpts ℝ} {oo : OutOpts} {m : ℤ} {dt : ℝ} {fuel : ℕ}
  {out : IrkOutput ℝ ((irkCoeffs m : SolverCoeffs ℝ).ns * 2) 2}

theorem oscEnergy_pos {y : Vec ℝ 2} (hne : y ≠ 0) : 0 < oscEnergy y := by
  rw [energy_oscillator, Complex.normSq_pos]
  intro hc
  apply hne
  have h0 := congrArg Complex.im hc
  have h1 := congrArg Complex.re hc
  ext k
  fin_cases k
  · exact h0
  · exact h1

theorem oscEnergy_nonneg (y : Vec ℝ 2) : 0 ≤ oscEnergy y := by unfold oscEnergy; positivity

/-- the accepted samples -/
theorem energy_chain (hm : m ∈ [200, 210, 211, 230, 231, 232]) (hla : la.Exact) (hs : la.Sound)
    (h : irkOdeint nd la (harmonic w) t0 t1 y0 o oo m dt fuel = some (.ret out)) :
    ∃ acc : List (SampleI ℝ 2), acc.head? = some ⟨t0, y0, 0, 0⟩ ∧
      out.yVals = (if oo.storeInVectors then everyNth oo.interval.toNat acc else acc.take 1).map (·.y) ∧
      out.tVals = (if oo.storeInVectors then everyNth oo.interval.toNat acc else acc.take 1).map (·.t) ∧
      out.file = (if oo.writeToFile then ((everyNth oo.interval.toNat acc).tail).map (fun b => (b.t, b.y)) else []) ∧
      acc.IsChain fun a b => a.t < b.t ∧ oscEnergy b.y = (1 - energyLoss m ((w * (b.t - a.t)) ^ 2)) * oscEnergy a.y := by
  obtain ⟨o', -, -, hg⟩ := irkOdeint_ret h
  obtain ⟨acc, h1, h2, h3, h4, h5⟩ := C59_irk hla hs (harmonic_affine w) (oscillator_eigen w) hg
  refine ⟨acc, h1, h2, h3, h4, h5.imp ?_⟩
  rintro a b ⟨hlt, hR⟩
  obtain ⟨R, e, hn⟩ := stab_imaginary_irk hm w (b.t - a.t)
  refine ⟨hlt, ?_⟩
  rw [energy_oscillator, energy_oscillator, hR R e, Complex.normSq_mul, hn]

/-- **C131.**  Every accepted step of every implicit run for the harmonic oscillator multiplies the energy by exactly
`1 - energyLoss m ((w h)²)`, `h` being the length of the step. -/
theorem C131_factor (hm : m ∈ [200, 210, 211, 230, 231, 232]) (hla : la.Exact) (hs : la.Sound)
    (h : irkOdeint nd la (harmonic w) t0 t1 y0 o oo m dt fuel = some (.ret out)) (hst : oo.storeInVectors = true)
    (hint : oo.interval.toNat = 1) {i : ℕ} {t t' : ℝ} (ht : out.tVals[i]? = some t) (ht' : out.tVals[i + 1]? = some t') :
    ∃ y y', out.yVals[i]? = some y ∧ out.yVals[i + 1]? = some y' ∧ t < t' ∧
      oscEnergy y' = (1 - energyLoss m ((w * (t' - t)) ^ 2)) * oscEnergy y := by
  obtain ⟨acc, -, h2, h3, -, h5⟩ := energy_chain hm hla hs h
  rw [if_pos hst, hint, everyNth_one] at h2 h3
  rw [h3, List.getElem?_map, Option.map_eq_some_iff] at ht ht'
  obtain ⟨a, ha, rfl⟩ := ht
  obtain ⟨b, hb, rfl⟩ := ht'
  refine ⟨a.y, b.y, by rw [h2, List.getElem?_map, ha]; rfl, by rw [h2, List.getElem?_map, hb]; rfl, ?_⟩
  obtain ⟨hi, rfl⟩ := List.getElem?_eq_some_iff.mp ha
  obtain ⟨hi', rfl⟩ := List.getElem?_eq_some_iff.mp hb
  exact List.isChain_iff_getElem.mp h5 i hi'

/-- **C131 (decay).**  No energy is conserved: whatever the options, the interval of the output and the step sizes, the recorded energies
are positive and strictly decreasing. -/
theorem C131_decreases (hm : m ∈ [200, 210, 211, 230, 231, 232]) (hla : la.Exact) (hs : la.Sound) (hw : w ≠ 0) (hy : y0 ≠ 0)
    (h : irkOdeint nd la (harmonic w) t0 t1 y0 o oo m dt fuel = some (.ret out)) :
    out.yVals.Pairwise (fun a b => oscEnergy b < oscEnergy a) ∧ (∀ y ∈ out.yVals, 0 < oscEnergy y) ∧
      ∀ l ∈ out.file, 0 < oscEnergy l.2 ∧ oscEnergy l.2 ≤ oscEnergy y0 := by
  obtain ⟨acc, h1, h2, h3, h4, h5⟩ := energy_chain hm hla hs h
  have hl : ∀ a b : SampleI ℝ 2, a.t < b.t → 0 < energyLoss m ((w * (b.t - a.t)) ^ 2) ∧ energyLoss m ((w * (b.t - a.t)) ^ 2) < 1 := by
    intro a b hab
    have hne : w * (b.t - a.t) ≠ 0 := mul_ne_zero hw (by linarith)
    have := C131_loss hm (sq_nonneg (w * (b.t - a.t)))
    exact ⟨this.2.1 (by positivity), this.1⟩
  have key : acc.IsChain (fun a b => 0 < oscEnergy a.y → 0 < oscEnergy b.y ∧ oscEnergy b.y < oscEnergy a.y) := by
    refine h5.imp ?_
    rintro a b ⟨hlt, e⟩ ha
    obtain ⟨l1, l2⟩ := hl a b hlt
    rw [e]
    constructor
    · exact mul_pos (by linarith) ha
    · nlinarith
  have hall : ∀ b ∈ acc, 0 < oscEnergy b.y ∧ oscEnergy b.y ≤ oscEnergy y0 := by
    cases acc with
    | nil => cases h1
    | cons x xs =>
      simp only [List.head?_cons, Option.some.injEq] at h1
      have hx : 0 < oscEnergy x.y ∧ oscEnergy x.y ≤ oscEnergy y0 := by
        rw [h1]; exact ⟨oscEnergy_pos hy, le_rfl⟩
      clear h1 h2 h3 h4 h5
      induction xs generalizing x with
      | nil => intro b hb; rw [List.mem_singleton] at hb; rw [hb]; exact hx
      | cons z zs ih =>
        rw [List.isChain_cons_cons] at key
        obtain ⟨k1, k2⟩ := key.1 hx.1
        intro b hb
        rcases List.mem_cons.1 hb with rfl | hb
        · exact hx
        · exact ih z key.2 ⟨k1, k2.le.trans hx.2⟩ b hb
  have hch : acc.IsChain (fun a b => oscEnergy b.y < oscEnergy a.y) := by
    rw [List.isChain_iff_getElem] at key ⊢
    intro i hi
    exact (key i hi (hall _ (List.getElem_mem _)).1).2
  have : IsTrans (SampleI ℝ 2) (fun a b => oscEnergy b.y < oscEnergy a.y) := ⟨fun _ _ _ h1 h2 => h2.trans h1⟩
  have hpw := List.isChain_iff_pairwise.mp hch
  have hsub : (if oo.storeInVectors then everyNth oo.interval.toNat acc else acc.take 1).Sublist acc := by
    split_ifs
    · exact everyNth_sublist _ _
    · exact List.take_sublist _ _
  refine ⟨?_, ?_, ?_⟩
  · rw [h2, List.pairwise_map]
    exact hpw.sublist hsub
  · intro y hy'
    rw [h2, List.mem_map] at hy'
    obtain ⟨b, hb, rfl⟩ := hy'
    exact (hall b (hsub.subset hb)).1
  · intro l hl'
    rw [h4] at hl'
    split_ifs at hl'
    · rw [List.mem_map] at hl'
      obtain ⟨b, hb, rfl⟩ := hl'
      exact hall b ((everyNth_sublist _ _).subset (List.mem_of_mem_tail hb))
    · cases hl'

/-- **C131 (how much is lost).**  If no step is longer than `σ`, the part of the energy lost up to time `t` is at most
`|w| (t - t0) (|w| σ)^(2 l - 1) / K`, `l` and `K` from `lossLead`. -/
theorem C131_total (hm : m ∈ [200, 210, 211, 230, 231, 232]) (hla : la.Exact) (hs : la.Sound)
    (h : irkOdeint nd la (harmonic w) t0 t1 y0 o oo m dt fuel = some (.ret out)) (hst : oo.storeInVectors = true)
    (hint : oo.interval.toNat = 1) {σ : ℝ}
    (hσ : ∀ (i : ℕ) (t t' : ℝ), out.tVals[i]? = some t → out.tVals[i + 1]? = some t' → t' - t ≤ σ) {i : ℕ} {t : ℝ} {y : Vec ℝ 2}
    (ht : out.tVals[i]? = some t) (hy : out.yVals[i]? = some y) :
    (1 - |w| * (t - t0) * (|w| * σ) ^ (2 * (lossLead m).1 - 1) / (lossLead m).2) * oscEnergy y0 ≤ oscEnergy y ∧
      oscEnergy y ≤ oscEnergy y0 := by
  have hlead : 1 ≤ (lossLead m).1 ∧ (0 : ℝ) < ((lossLead m).2 : ℝ) := by
    unfold lossLead
    split_ifs <;> norm_num
  have h00 : out.tVals[0]? = some t0 ∧ out.yVals[0]? = some y0 := by
    obtain ⟨acc, h1, h2, h3, -, -⟩ := energy_chain hm hla hs h
    rw [if_pos hst, hint, everyNth_one] at h2 h3
    rw [h2, h3, List.getElem?_map, List.getElem?_map, ← List.head?_eq_getElem?, h1]
    exact ⟨rfl, rfl⟩
  induction i generalizing t y with
  | zero =>
    rw [h00.1] at ht; rw [h00.2] at hy
    cases ht; cases hy
    simp
  | succ i ih =>
    obtain ⟨a, ha⟩ : ∃ a, out.tVals[i]? = some a := by
      obtain ⟨hi, -⟩ := List.getElem?_eq_some_iff.mp ht
      exact ⟨_, List.getElem?_eq_getElem (by omega)⟩
    obtain ⟨z, z', e1, e2, hlt, e3⟩ := C131_factor hm hla hs h hst hint ha ht
    rw [hy] at e2; cases e2
    obtain ⟨i1, i2⟩ := ih ha e1
    obtain ⟨-, -, b1, b2⟩ := C131_loss hm (sq_nonneg (w * (t - a)))
    have hE0 := oscEnergy_nonneg y0
    have hEz := oscEnergy_nonneg z
    have hstep := hσ i a t ha ht
    have hpow : ((w * (t - a)) ^ 2) ^ (lossLead m).1 ≤ |w| * (t - a) * (|w| * σ) ^ (2 * (lossLead m).1 - 1) := by
      have hn : 0 ≤ |w| * (t - a) := mul_nonneg (abs_nonneg _) (by linarith)
      have e : (w * (t - a)) ^ 2 = (|w| * (t - a)) ^ 2 := by rw [mul_pow, mul_pow, sq_abs]
      rw [e, ← pow_mul]
      obtain ⟨k, hk⟩ : ∃ k, 2 * (lossLead m).1 = k + 1 := ⟨2 * (lossLead m).1 - 1, by omega⟩
      rw [hk, Nat.add_sub_cancel, pow_succ']
      exact mul_le_mul_of_nonneg_left (pow_le_pow_left₀ hn (mul_le_mul_of_nonneg_left hstep (abs_nonneg _)) _) hn
    have hloss : energyLoss m ((w * (t - a)) ^ 2) ≤ |w| * (t - a) * (|w| * σ) ^ (2 * (lossLead m).1 - 1) / (lossLead m).2 :=
      b1.trans (div_le_div_of_nonneg_right hpow hlead.2.le)
    have hP : (1 - |w| * (t - t0) * (|w| * σ) ^ (2 * (lossLead m).1 - 1) / (lossLead m).2) * oscEnergy y0 =
        (1 - |w| * (a - t0) * (|w| * σ) ^ (2 * (lossLead m).1 - 1) / (lossLead m).2) * oscEnergy y0 -
          |w| * (t - a) * (|w| * σ) ^ (2 * (lossLead m).1 - 1) / (lossLead m).2 * oscEnergy y0 := by ring
    have q1 : energyLoss m ((w * (t - a)) ^ 2) * oscEnergy z ≤ energyLoss m ((w * (t - a)) ^ 2) * oscEnergy y0 :=
      mul_le_mul_of_nonneg_left i2 b2
    have q2 := mul_le_mul_of_nonneg_right hloss hE0
    have q3 := mul_nonneg b2 hEz
    rw [hP, e3]
    constructor <;> linarith

/-- **C131 (step limit).**  With `max_dt` set and an initial step not longer than that the bound holds with `σ = max_dt`. -/
theorem C131_max_dt (hm : m ∈ [200, 210, 211, 230, 231, 232]) (hla : la.Exact) (hs : la.Sound)
    (h : irkOdeint nd la (harmonic w) t0 t1 y0 o oo m dt fuel = some (.ret out)) (hpos : nd = false ∨ (0 < dt ∧ t0 < t1))
    (hmx : 0 < o.maxDt) (hdt : dt ≤ o.maxDt) (hst : oo.storeInVectors = true)
    (hint : oo.interval.toNat = 1) {i : ℕ} {t : ℝ} {y : Vec ℝ 2} (ht : out.tVals[i]? = some t) (hy : out.yVals[i]? = some y) :
    (1 - |w| * (t - t0) * (|w| * o.maxDt) ^ (2 * (lossLead m).1 - 1) / (lossLead m).2) * oscEnergy y0 ≤ oscEnergy y ∧
      oscEnergy y ≤ oscEnergy y0 := by
  obtain ⟨o', -, e, hg⟩ := irkOdeint_ret h
  refine C131_total hm hla hs h hst hint (fun i t t' h1 h2 => ?_) ht hy
  have := C18_irk_max_dt_partial hg hpos (by rw [e]; exact hmx) (by rw [e]; exact hdt) hst hint h1 h2
  rwa [e] at this

/-! ### the hypotheses are satisfiable -/

/-- complete runs, `w = 1` up to `t = 1000` with LOBATTO_IIIC_85 and `max_dt = 1/2`: at least 0.9999 of the energy is left, and
not all of it -/
example : ∃ fuel out yEnd, irkOdeint false laReal (harmonic 1) 0 1000 (fun _ => 1) { demoOpts (-1) with maxDt := 1 / 2 } OutOpts.dflt 232
    (1 / 4) fuel = some (.ret out) ∧ out.tVals.getLast? = some 1000 ∧ out.yVals.getLast? = some yEnd ∧
    9999 / 10000 * oscEnergy (fun _ => 1) ≤ oscEnergy yEnd ∧ oscEnergy yEnd < oscEnergy (fun _ => 1) := by
  obtain ⟨fuel, out, h1, -, hhead, h2, h3, -⟩ := C67_harmonic (m := 232) (no := NewtonOpts.dflt) (t0 := 0) (t1 := 1000) (dt := 1 / 4)
    (o := { demoOpts (-1) with maxDt := 1 / 2 }) (y0 := fun _ => 1) (by decide) 1 (by norm_num) (by norm_num) rfl (by norm_num [demoOpts]) rfl
    (by decide) (by norm_num [NewtonOpts.dflt]) (by norm_num [NewtonOpts.dflt]) (by norm_num [demoOpts]) (by norm_num [demoOpts])
  obtain ⟨acc, -, e2, e3, -, -⟩ := energy_chain (by decide) laReal_exact laReal_sound h1
  have hlen : out.tVals.length = out.yVals.length := by rw [e2, e3, List.length_map, List.length_map]
  rw [List.getLast?_eq_getElem?] at h2
  obtain ⟨hi, -⟩ := List.getElem?_eq_some_iff.mp h2
  have hpos : 1 ≤ out.tVals.length - 1 := by
    by_contra hc
    have h0 : out.tVals.length - 1 = 0 := by omega
    rw [h0, ← List.head?_eq_getElem?, hhead] at h2
    norm_num at h2
  have hy : out.yVals[out.tVals.length - 1]? = some (out.yVals[out.tVals.length - 1]'(by omega)) := List.getElem?_eq_getElem _
  have key := C131_max_dt (m := 232) (by decide) laReal_exact laReal_sound h1 (.inl rfl) (by norm_num) (by norm_num) rfl (by decide) h2 hy
  have hne : (fun _ => 1 : Vec ℝ 2) ≠ 0 := fun hc => by simpa using congrFun hc 0
  have hdec := (C131_decreases (by decide) laReal_exact laReal_sound one_ne_zero hne h1).1
  refine ⟨fuel, out, _, h1, by rw [List.getLast?_eq_getElem?]; exact h2, by rw [List.getLast?_eq_getElem?, ← hlen]; exact hy, ?_, ?_⟩
  · refine le_trans ?_ key.1
    refine mul_le_mul_of_nonneg_right ?_ (oscEnergy_nonneg _)
    norm_num [lossLead]
  · rw [List.head?_eq_getElem?] at h3
    obtain ⟨h0, h00⟩ := List.getElem?_eq_some_iff.mp h3
    have := List.pairwise_iff_getElem.mp hdec 0 (out.tVals.length - 1) h0 (by omega) (by omega)
    rwa [h00] at this

/-- implicit Euler halves the energy when `w h = 1`, LOBATTO_IIIC_85 takes away less than three hundred millionths -/
example : energyLoss 200 1 = 1 / 2 ∧ energyLoss 232 1 < 3 / 100000000 := by
  constructor <;> norm_num [energyLoss]

end runs
end Verif
