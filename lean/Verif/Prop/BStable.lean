import Verif.BStableRun
import Mathlib.Analysis.SpecialFunctions.Trigonometric.Bounds

/-!
# Property C94: on contractive differential equations the implicit methods bring solutions together
-/

set_option autoImplicit false

namespace Verif
open Spec
open scoped RealInnerProductSpace

/-- B-stability: for every contractive equation, every step size and every pair of starting points, two steps of the method are no
further apart than their starting points. -/
def BStable {s : ℕ} (A : Fin s → Fin s → ℝ) (b c : Fin s → ℝ) : Prop :=
  ∀ (n : ℕ) (f : ℝ → Vec ℝ n → Vec ℝ n) (t h : ℝ) (y z y' z' : Vec ℝ n) (k l : Fin s → Vec ℝ n), Contractive f → 0 ≤ h →
    IsRKStep A b c f t h y y' k → IsRKStep A b c f t h z z' l → eucl (y' - z') ≤ eucl (y - z)

/-- the shipped method is B-stable -/
def ShippedBStable (m : ℤ) : Prop :=
  BStable (fun i j : Fin (irkCoeffs m : SolverCoeffs ℝ).ns => (irkCoeffs m : SolverCoeffs ℝ).a i j)
    (fun i => (irkCoeffs m : SolverCoeffs ℝ).bw i) fun i => (irkCoeffs m : SolverCoeffs ℝ).cn i

/-- the claim as one would like it: every implemented implicit method is B-stable -/
def C94_claim : Prop := ∀ m ∈ irkImplemented, ShippedBStable m

/-! ### the Lobatto IIIA methods are not B-stable -/

/-- first stage explicit, the others at least `1/20` later, first weight at least `1/50` -/
def explicitFirst {d : ℕ} (sq : SolverCoeffs (QS d)) : Bool :=
  ((List.range sq.ns).all fun j => ent sq.A 0 j == 0) && (sq.c.getD 0 0 == 0) && posQ (sq.b.getD 0 0 - lit (1 / 50)) &&
    decide (0 < sq.ns) && (List.range sq.ns).all fun j => j == 0 || posQ (sq.c.getD j 0 - lit (1 / 20))

theorem explicitFirst_shipped : ∀ m ∈ ([220, 222] : List ℤ), explicitFirst (irkCoeffs m : SolverCoeffs (QS (rootOf m))) = true := by
  decide +kernel

/-- the method on `y' = -150 max(0, 1-20t) y` with step 1: the first stage sees decay, the others see nothing -/
theorem not_bstable {s : ℕ} (hs : 0 < s) {A : Fin s → Fin s → ℝ} {b c : Fin s → ℝ} (hA : ∀ j, A ⟨0, hs⟩ j = 0) (hc : c ⟨0, hs⟩ = 0)
    (hb : 1 / 50 ≤ b ⟨0, hs⟩) (hcj : ∀ j : Fin s, j ≠ ⟨0, hs⟩ → 1 / 20 ≤ c j) : ¬ BStable A b c := by
  intro H
  obtain ⟨f, hf⟩ : ∃ f : ℝ → Vec ℝ 1 → Vec ℝ 1, f = fun t y k => -150 * max 0 (1 - 20 * t) * y k := ⟨_, rfl⟩
  have hcon : Contractive f := by
    intro t y z
    rw [hf]
    simp only [Fin.sum_univ_one]
    have h1 : 0 ≤ max 0 (1 - 20 * t) := le_max_left _ _
    have h2 := mul_nonneg h1 (sq_nonneg (y 0 - z 0))
    nlinarith
  have hlater : ∀ (j : Fin s) (y : Vec ℝ 1), j ≠ ⟨0, hs⟩ → f (0 + c j * 1) y = 0 := by
    intro j y hj
    rw [hf]
    funext k
    have : max 0 (1 - 20 * (0 + c j * 1)) = 0 := max_eq_left (by linarith [hcj j hj])
    simp only [this]
    simp
  obtain ⟨k, hk⟩ : ∃ k : Fin s → Vec ℝ 1, k = fun j _ => if j = ⟨0, hs⟩ then -150 else 0 := ⟨_, rfl⟩
  have hy : IsRKStep A b c f 0 1 (fun _ => 1) ((fun _ => 1) + (1 : ℝ) • ∑ i, b i • k i) k := by
    refine ⟨fun i => ?_, rfl⟩
    by_cases hi : i = ⟨0, hs⟩
    · subst hi
      simp only [hA, zero_smul, Finset.sum_const_zero, smul_zero, add_zero, hc]
      rw [hk, hf]
      funext q
      simp
    · rw [hlater i _ hi, hk]
      funext q
      simp [hi]
  have hz : IsRKStep A b c f 0 1 (0 : Vec ℝ 1) 0 0 := by
    refine ⟨fun i => ?_, by simp⟩
    rw [hf]
    funext q
    simp
  have h := H 1 f 0 1 _ _ _ _ _ _ hcon zero_le_one hy hz
  have e : ∑ i, b i • k i = fun _ => b ⟨0, hs⟩ * -150 := by
    funext q
    rw [hk, Finset.sum_apply]
    simp
  rw [e] at h
  simp only [eucl, Fin.sum_univ_one, sub_zero, one_smul, Pi.add_apply] at h
  rw [Real.sqrt_sq_eq_abs, Real.sqrt_sq_eq_abs, abs_one, abs_le] at h
  linarith [h.1]

/-- **C94, negative part.**  The Lobatto IIIA methods LOBATTO_IIIA_43 and LOBATTO_IIIA_127 are not B-stable. -/
theorem C94_fails {m : ℤ} (hm : m ∈ ([220, 222] : List ℤ)) : ¬ ShippedBStable m := by
  have hi : m ∈ irkImplemented := by
    have : ∀ m ∈ ([220, 222] : List ℤ), m ∈ irkImplemented := by decide
    exact this m hm
  have I := img_shipped hi
  have h := explicitFirst_shipped m hm
  simp only [explicitFirst, Bool.and_eq_true, List.all_eq_true, List.mem_range, beq_iff_eq, decide_eq_true_eq, Bool.or_eq_true] at h
  obtain ⟨⟨⟨⟨h1, h2⟩, h3⟩, h4⟩, h5⟩ := h
  have hs : 0 < (irkCoeffs m : SolverCoeffs ℝ).ns := by rw [I.ns]; exact h4
  have q1 : ((1 / 50 : ℚ) : ℝ) = 1 / 50 := by norm_num
  have q2 : ((1 / 20 : ℚ) : ℝ) = 1 / 20 := by norm_num
  refine not_bstable hs (fun j => ?_) ?_ ?_ (fun j hj => ?_)
  · rw [I.a, h1 j (by rw [← I.ns]; exact j.2), map_zero]
  · rw [I.cn, h2, map_zero]
  · have := pos_ev h3
    rw [map_sub, QS.ev_lit, lit_real, q1] at this
    rw [I.bw]
    linarith
  · have := pos_ev ((h5 j (by rw [← I.ns]; exact j.2)).resolve_left fun h => hj (Fin.ext h))
    rw [map_sub, QS.ev_lit, lit_real, q2] at this
    rw [I.cn]
    linarith

theorem C94_refuted : ¬ C94_claim := fun h => C94_fails (m := 220) (by decide) (h 220 (by decide))

/-! ### the others -/

section step
variable {n : ℕ} {V : Type} [NormedAddCommGroup V] [InnerProductSpace ℝ V]

/-- the methods whose tableau in the code is algebraically stable without rounding -/
theorem alg_exact {m : ℤ} (hm : m ∈ ([200, 210, 211, 230, 231, 232, 240] : List ℤ)) :
    m ∈ irkImplemented ∧ ∃ w, algOK (irkCoeffs m : SolverCoeffs (QS (rootOf m))) 0 w = true := by
  constructor
  · have : ∀ m ∈ ([200, 210, 211, 230, 231, 232, 240] : List ℤ), m ∈ irkImplemented := by decide
    exact this m hm
  · by_cases h : m = 240
    · subst h; exact ⟨0, alg_shipped_gauss⟩
    · refine ⟨_, alg_shipped m ?_⟩
      have : ∀ m ∈ ([200, 210, 211, 230, 231, 232, 240] : List ℤ), m ≠ 240 → m ∈ ([200, 210, 211, 230, 231, 232] : List ℤ) := by decide
      exact this m hm h

/-- **C94, in any inner product.**  IMPLICIT_EULER, RADAU_IIA_32, RADAU_IIA_53, the Lobatto IIIC methods and GAUSS_LEGENDRE_42: if the
equation is contractive as seen through a linear map `L` into an inner product space, then two steps of any size `h ≥ 0` are, seen through
`L`, no further apart than their starting points. -/
theorem C94_inner {m : ℤ} (hm : m ∈ ([200, 210, 211, 230, 231, 232, 240] : List ℤ)) (L : Vec ℝ n →ₗ[ℝ] V) {f : ℝ → Vec ℝ n → Vec ℝ n}
    (hf : ∀ t y z, ⟪L (f t y - f t z), L (y - z)⟫ ≤ 0) {t h : ℝ} (hh : 0 ≤ h) {y z y' z' : Vec ℝ n}
    {k l : Fin (irkCoeffs m : SolverCoeffs ℝ).ns → Vec ℝ n}
    (hy : IsRKStep (fun i j => (irkCoeffs m : SolverCoeffs ℝ).a i j) (fun i => (irkCoeffs m : SolverCoeffs ℝ).bw i)
      (fun i => (irkCoeffs m : SolverCoeffs ℝ).cn i) f t h y y' k)
    (hz : IsRKStep (fun i j => (irkCoeffs m : SolverCoeffs ℝ).a i j) (fun i => (irkCoeffs m : SolverCoeffs ℝ).bw i)
      (fun i => (irkCoeffs m : SolverCoeffs ℝ).cn i) f t h z z' l) : ‖L (y' - z')‖ ≤ ‖L (y - z)‖ := by
  obtain ⟨hi, w, ha⟩ := alg_exact hm
  have I := img_shipped hi
  obtain ⟨h1, h2⟩ := rk_diff L hy hz hf
  rw [h1]
  refine step_contract (I.weights_nonneg ha) (fun u => ?_) hh h2
  have := I.alg ha u
  simpa using this

/-- **C94.**  IMPLICIT_EULER, RADAU_IIA_32, RADAU_IIA_53, LOBATTO_IIIC_43, LOBATTO_IIIC_64, LOBATTO_IIIC_85 and GAUSS_LEGENDRE_42 are
B-stable with the coefficients in the code.  Missing from the full claim: LOBATTO_IIIA_43 and LOBATTO_IIIA_127, for which it is false
(`C94_fails`), and RADAU_IIA_95, RADAU_IIA_137 and GAUSS_LEGENDRE_147, whose coefficients are rounded decimals (`C94_rounded`). -/
theorem C94_bstable_partial {m : ℤ} (hm : m ∈ ([200, 210, 211, 230, 231, 232, 240] : List ℤ)) : ShippedBStable m := by
  intro n f t h y z y' z' k l hf hh hy hz
  rw [← norm_toE, ← norm_toE]
  exact C94_inner hm toE (Contractive.mono hf) hh hy hz

/-- **C94, rounded tableaux.**  For RADAU_IIA_95, RADAU_IIA_137 and GAUSS_LEGENDRE_147 the squared distance grows by at most `7·3·10⁻¹⁷`
(`7·10⁻³⁹`, `7·10⁻¹⁸`) times `h²` times the sum of the squared differences of the stage derivatives. -/
theorem C94_rounded {m : ℤ} (hm : m ∈ ([212, 213, 243] : List ℤ)) (L : Vec ℝ n →ₗ[ℝ] V) {f : ℝ → Vec ℝ n → Vec ℝ n}
    (hf : ∀ t y z, ⟪L (f t y - f t z), L (y - z)⟫ ≤ 0) {t h : ℝ} (hh : 0 ≤ h) {y z y' z' : Vec ℝ n}
    {k l : Fin (irkCoeffs m : SolverCoeffs ℝ).ns → Vec ℝ n}
    (hy : IsRKStep (fun i j => (irkCoeffs m : SolverCoeffs ℝ).a i j) (fun i => (irkCoeffs m : SolverCoeffs ℝ).bw i)
      (fun i => (irkCoeffs m : SolverCoeffs ℝ).cn i) f t h y y' k)
    (hz : IsRKStep (fun i j => (irkCoeffs m : SolverCoeffs ℝ).a i j) (fun i => (irkCoeffs m : SolverCoeffs ℝ).bw i)
      (fun i => (irkCoeffs m : SolverCoeffs ℝ).cn i) f t h z z' l) :
    ‖L (y' - z')‖ ^ 2 ≤ ‖L (y - z)‖ ^ 2 +
      7 * (if m = 212 then 3 / 10 ^ 17 else if m = 213 then 1 / 10 ^ 39 else 1 / 10 ^ 18) * h ^ 2 * ∑ i, ‖L (k i - l i)‖ ^ 2 := by
  have hi : m ∈ irkImplemented := by
    have : ∀ m ∈ ([212, 213, 243] : List ℤ), m ∈ irkImplemented := by decide
    exact this m hm
  have I := img_shipped hi
  obtain ⟨w, ha⟩ : ∃ w, algOK (irkCoeffs m : SolverCoeffs (QS (rootOf m))) (algEps m) w = true := by
    by_cases h : m = 243
    · subst h; exact ⟨0, alg_shipped_gauss_decimal⟩
    · refine ⟨_, alg_shipped_decimal m ?_⟩
      have : ∀ m ∈ ([212, 213, 243] : List ℤ), m ≠ 243 → m ∈ ([212, 213] : List ℤ) := by decide
      exact this m hm h
  have hns : (irkCoeffs m : SolverCoeffs ℝ).ns ≤ 7 := by
    rw [I.ns]
    have : ∀ m ∈ ([212, 213, 243] : List ℤ), (irkCoeffs m : SolverCoeffs (QS (rootOf m))).ns ≤ 7 := by decide +kernel
    exact this m hm
  have hε : (algEps m : ℝ) = if m = 212 then 3 / 10 ^ 17 else if m = 213 then 1 / 10 ^ 39 else 1 / 10 ^ 18 := by
    unfold algEps; split_ifs <;> norm_num
  have hε0 : 0 ≤ (algEps m : ℝ) := by rw [hε]; split_ifs <;> positivity
  rw [← hε]
  obtain ⟨h1, h2⟩ := rk_diff L hy hz hf
  have e := energy (fun i j : Fin (irkCoeffs m : SolverCoeffs ℝ).ns => (irkCoeffs m : SolverCoeffs ℝ).a i j)
    (fun i => (irkCoeffs m : SolverCoeffs ℝ).bw i) (L (y - z)) fun j => h • L (k j - l j)
  have e1 : ∑ j : Fin (irkCoeffs m : SolverCoeffs ℝ).ns, (irkCoeffs m : SolverCoeffs ℝ).bw j • h • L (k j - l j) =
      h • ∑ j : Fin (irkCoeffs m : SolverCoeffs ℝ).ns, (irkCoeffs m : SolverCoeffs ℝ).bw j • L (k j - l j) := by
    rw [Finset.smul_sum]; exact Finset.sum_congr rfl fun j _ => smul_comm _ _ _
  have e2 : ∀ j : Fin (irkCoeffs m : SolverCoeffs ℝ).ns,
      ∑ i : Fin (irkCoeffs m : SolverCoeffs ℝ).ns, (irkCoeffs m : SolverCoeffs ℝ).a j i • h • L (k i - l i) =
      h • ∑ i : Fin (irkCoeffs m : SolverCoeffs ℝ).ns, (irkCoeffs m : SolverCoeffs ℝ).a j i • L (k i - l i) := fun j => by
    rw [Finset.smul_sum]; exact Finset.sum_congr rfl fun i _ => smul_comm _ _ _
  rw [e1, ← h1] at e
  simp only [e2] at e
  have h3 : ∑ j : Fin (irkCoeffs m : SolverCoeffs ℝ).ns, (irkCoeffs m : SolverCoeffs ℝ).bw j * ⟪h • L (k j - l j), L (y - z) +
      h • ∑ i : Fin (irkCoeffs m : SolverCoeffs ℝ).ns, (irkCoeffs m : SolverCoeffs ℝ).a j i • L (k i - l i)⟫ ≤ 0 :=
    Finset.sum_nonpos fun j _ => by
      rw [real_inner_smul_left]
      exact mul_nonpos_of_nonneg_of_nonpos (I.weights_nonneg ha j) (mul_nonpos_of_nonneg_of_nonpos hh (h2 j))
  have h4 := I.alg ha fun j => h • L (k j - l j)
  have e3 : ∑ i, ‖h • L (k i - l i)‖ ^ 2 = h ^ 2 * ∑ i, ‖L (k i - l i)‖ ^ 2 := by
    rw [Finset.mul_sum]
    exact Finset.sum_congr rfl fun i _ => by rw [norm_smul, mul_pow, Real.norm_eq_abs, sq_abs]
  rw [e3] at h4
  have h5 : 0 ≤ h ^ 2 * ∑ i, ‖L (k i - l i)‖ ^ 2 := mul_nonneg (sq_nonneg _) (Finset.sum_nonneg fun _ _ => sq_nonneg _)
  have h6 : ((irkCoeffs m : SolverCoeffs ℝ).ns : ℝ) * algEps m * (h ^ 2 * ∑ i, ‖L (k i - l i)‖ ^ 2) ≤
      7 * algEps m * (h ^ 2 * ∑ i, ‖L (k i - l i)‖ ^ 2) :=
    mul_le_mul_of_nonneg_right (mul_le_mul_of_nonneg_right (by exact_mod_cast hns) hε0) h5
  linarith

end step

section run
variable {n : ℕ} {fn : OdeFun ℝ n} {t0 t1 dt : ℝ} {y0 ystar : Vec ℝ n} {m : ℤ} {nd : Bool} {la : LinAlg ℝ} {o : IrkOpts ℝ}
  {no : NewtonOpts ℝ} {oo : OutOpts} {fuel : ℕ}

/-- the Radau IIA tableaux with exact coefficients are stable under defects of the stage equations -/
theorem radau_stable (hm : m ∈ ([210, 211] : List ℤ)) : ∃ (ω : Fin (irkCoeffs m : SolverCoeffs ℝ).ns → Fin (irkCoeffs m : SolverCoeffs ℝ).ns → ℝ)
    (D : Fin (irkCoeffs m : SolverCoeffs ℝ).ns → ℝ) (β : ℝ),
    StableData (fun i j : Fin (irkCoeffs m : SolverCoeffs ℝ).ns => (irkCoeffs m : SolverCoeffs ℝ).a i j)
      (fun i => (irkCoeffs m : SolverCoeffs ℝ).bw i) ω D β 0 := by
  have h1 : ∀ m ∈ ([210, 211] : List ℤ), m ∈ irkImplemented ∧ m ∈ irkUsable ∧ m ∈ ([200, 210, 211, 230, 231, 232] : List ℤ) := by decide
  obtain ⟨i1, i2, i3⟩ := h1 m hm
  have := (img_shipped i1).stable (alg_shipped m i3) (coer_shipped m hm) (isInv_shipped m i2) le_rfl (by norm_num)
  rw [Rat.cast_zero, mul_zero] at this
  exact ⟨_, _, _, this⟩

/-- **C94, runs.**  RADAU_IIA_32 and RADAU_IIA_53: there is a constant `C` that depends on the method only, such that on every contractive
equation with an equilibrium `y*` no recorded or streamed value of any run is further from `y*` than the initial value by more than
`C N δ`.  Here `N` is the number of accepted steps and `δ` what the Newton iteration may leave (`StageDefect`): zero for affine equations,
`tol` if only a small residual stops the iteration, and `tol + (t1-t0) Λ dx_delta` otherwise.  Neither the step sizes nor the stiffness of
the equation enter. -/
theorem C94_run (hm : m ∈ ([210, 211] : List ℤ)) : ∃ C : ℝ, 0 ≤ C ∧ ∀ (n : ℕ) (fn : OdeFun ℝ n) (t0 t1 dt Λ δ : ℝ) (y0 ystar : Vec ℝ n)
    (nd : Bool) (la : LinAlg ℝ) (o : IrkOpts ℝ) (no : NewtonOpts ℝ) (oo : OutOpts) (fuel : ℕ)
    (out : IrkOutput ℝ ((irkCoeffs m : SolverCoeffs ℝ).ns * n) n), la.Exact → la.Sound →
    irkOdeint nd la fn t0 t1 y0 o oo m dt fuel = some (.ret out) → (nd = false ∨ (0 < dt ∧ t0 < t1)) → o.newtonOpts = some no →
    t0 ≤ t1 → Contractive fn.fn → (∀ t, fn.fn t ystar = 0) → StageDefect fn no (t1 - t0) Λ δ →
    (∀ y ∈ out.yVals, eucl (y - ystar) ≤ eucl (y0 - ystar) + C * ((out.count.newtonSuccess - out.count.rejectErr : ℕ) * δ)) ∧
    ∀ l ∈ out.file, eucl (l.2 - ystar) ≤ eucl (y0 - ystar) + C * ((out.count.newtonSuccess - out.count.rejectErr : ℕ) * δ) := by
  obtain ⟨ω, D, β, hS⟩ := radau_stable hm
  obtain ⟨κ, C, -, hC, key⟩ := stable_step hS zero_le_one
  refine ⟨C, hC, ?_⟩
  intro n fn t0 t1 dt Λ δ y0 ystar nd la o no oo fuel out hla hs hrun hpos hno h01 hf heq hdef
  obtain ⟨o', e1, -, hg⟩ := irkOdeint_ret hrun
  obtain ⟨acc, hlen, hv, hch, hhead⟩ := run_chain (h := 0) hla hs hg hpos (e1.trans hno)
  have hδ := hdef.nonneg (sub_nonneg.mpr h01)
  have hall : ∀ b ∈ acc, eucl (b.y - ystar) ≤ eucl (y0 - ystar) + C * ((out.count.newtonSuccess - out.count.rejectErr : ℕ) * δ) := by
    cases acc with
    | nil => cases hhead
    | cons a l =>
      simp only [List.head?_cons, Option.some.injEq] at hhead
      have hg := chain_growth (g := fun b : SampleI ℝ n => eucl (b.y - ystar)) (τ := fun b => b.t) (q := 1) (ζ := C * δ) (ξ := 0) le_rfl
        (by positivity) le_rfl (fun a b hab => by
          refine ⟨hab.1.1.1.le, ?_⟩
          have := key n fn no t0 t1 (t1 - t0) Λ δ 0 a b ystar ystar (fun _ => ystar) hf hab.1 (by linarith [hab.1.1.2.1, hab.1.1.2.2]) hdef le_rfl
            (fun i => by simp [heq, eucl_zero]) (by simp [heq, eucl_zero])
          simpa using this) (fun b => eucl_nonneg _) a l hch
      intro b hb
      have hl : l.length = out.count.newtonSuccess - out.count.rejectErr := by simp only [List.length_cons] at hlen; omega
      have := (hg b hb).2
      rw [hhead, hl] at this
      simp only [one_pow, one_mul, zero_mul, add_zero, firstI] at this
      linarith
  refine ⟨fun y hy => ?_, streamed_of_all (P := fun _ y => eucl (y - ystar) ≤ _) hv hall⟩
  obtain ⟨i, hi, rfl⟩ := List.mem_iff_getElem.mp hy
  have hl : out.tVals.length = out.yVals.length := by rw [hv.cols.t, hv.cols.y, List.length_map, List.length_map]
  exact recorded_of_all (P := fun _ y => eucl (y - ystar) ≤ _) hv hall i (out.tVals[i]'(by omega)) _
    (List.getElem?_eq_getElem _) (List.getElem?_eq_getElem _)

/-- **C94, linear systems.**  On a contractive `y' = J y + g` with an equilibrium `y*` the distance to `y*` does not increase from any
recorded value to any later one, for the five methods that complete such runs. -/
theorem C94_affine (hm : m ∈ ([210, 211, 230, 231, 232] : List ℤ)) {out : IrkOutput ℝ ((irkCoeffs m : SolverCoeffs ℝ).ns * n) n}
    (hla : la.Exact) (hs : la.Sound) (hrun : irkOdeint nd la fn t0 t1 y0 o oo m dt fuel = some (.ret out))
    (hpos : nd = false ∨ (0 < dt ∧ t0 < t1)) (haff : IsAffine fn) (hf : Contractive fn.fn)
    (heq : ∀ t, fn.fn t ystar = 0) :
    (y0 :: out.yVals).Pairwise (fun a b => eucl (b - ystar) ≤ eucl (a - ystar)) ∧
      (y0 :: out.file.map (·.2)).Pairwise fun a b => eucl (b - ystar) ≤ eucl (a - ystar) := by
  obtain ⟨o', e1, -, hg⟩ := irkOdeint_ret hrun
  obtain ⟨no, hno⟩ : ∃ no, o'.newtonOpts = some no := (irkGuts_ret hg).elim fun no h => h.elim fun _ h => h.elim fun _ h => h.elim fun _ h => ⟨no, h.1⟩
  obtain ⟨acc, hlen, hv, hch, hhead⟩ := run_chain (h := 0) hla hs hg hpos hno
  have hm' : m ∈ ([200, 210, 211, 230, 231, 232, 240] : List ℤ) := by
    have : ∀ m ∈ ([210, 211, 230, 231, 232] : List ℤ), m ∈ ([200, 210, 211, 230, 231, 232, 240] : List ℤ) := by decide
    exact this m hm
  have hstep : ∀ a b, StepOf fn no (irkCoeffs m) t0 t1 a b → eucl (b.y - ystar) ≤ eucl (a.y - ystar) := by
    rintro a b ⟨⟨h1, -, -⟩, d, Y, H, hz⟩
    refine C94_bstable_partial hm' n fn.fn a.t (b.t - a.t) a.y ystar b.y ystar _ (fun _ => 0) hf (sub_nonneg.mpr h1.le) (H.2.2.1 (hz haff)) ⟨fun i => ?_, ?_⟩
    · simp [heq]
    · simp
  have hpw : acc.Pairwise fun a b => eucl (b.y - ystar) ≤ eucl (a.y - ystar) := by
    have : acc.IsChain fun a b => eucl (b.y - ystar) ≤ eucl (a.y - ystar) := hch.imp fun a b h => hstep a b h.1
    have tr : IsTrans (SampleI ℝ n) fun a b => eucl (b.y - ystar) ≤ eucl (a.y - ystar) := ⟨fun a b c h1 h2 => h2.trans h1⟩
    exact List.isChain_iff_pairwise.mp this
  have hall : ∀ b ∈ acc, eucl (b.y - ystar) ≤ eucl (y0 - ystar) := by
    cases acc with
    | nil => cases hhead
    | cons a l =>
      simp only [List.head?_cons, Option.some.injEq] at hhead
      subst hhead
      intro b hb
      rcases List.mem_cons.mp hb with rfl | hb
      · exact le_rfl
      · exact (List.pairwise_cons.mp hpw).1 b hb
  have hsub : ∀ l : List (SampleI ℝ n), l.Sublist acc → (y0 :: l.map (·.y)).Pairwise fun a b => eucl (b - ystar) ≤ eucl (a - ystar) := by
    intro l hl
    rw [List.pairwise_cons]
    refine ⟨fun y hy => ?_, List.pairwise_map.mpr (hpw.sublist hl)⟩
    obtain ⟨b, hb, rfl⟩ := List.mem_map.mp hy
    exact hall b (hl.subset hb)
  constructor
  · rw [hv.cols.y]
    refine hsub _ ?_
    unfold storedI
    split_ifs
    · exact everyNth_sublist _ _
    · exact List.take_sublist _ _
  · rw [hv.file]
    unfold writtenI
    split_ifs
    · rw [List.map_map]
      exact hsub _ ((List.tail_sublist _).trans (everyNth_sublist _ _))
    · simp

/-- the eigenvalues of a contractive linear system have no positive real part -/
theorem dissipative_of_contractive {J : Matrix (Fin n) (Fin n) ℝ} {g : ℝ → Vec ℝ n} (hJ : ∀ t y, fn.fn t y = J.mulVec y + g t)
    (hf : Contractive fn.fn) : Dissipative J := by
  intro l v hv hl
  have hx : ∀ x : Vec ℝ n, ∑ k, (∑ i, J k i * x i) * x k ≤ 0 := by
    intro x
    have := hf 0 x 0
    simpa [hJ, Matrix.mulVec, dotProduct] using this
  have h1 := hx fun k => (v k).re
  have h2 := hx fun k => (v k).im
  have e : ∑ k, (∑ i, J k i * (v i).re) * (v k).re + ∑ k, (∑ i, J k i * (v i).im) * (v k).im =
      l.re * ∑ k, ((v k).re ^ 2 + (v k).im ^ 2) := by
    rw [← Finset.sum_add_distrib, Finset.mul_sum]
    refine Finset.sum_congr rfl fun k _ => ?_
    have r1 : ∑ i, J k i * (v i).re = l.re * (v k).re - l.im * (v k).im := by
      have := congrArg Complex.re (hl k)
      simpa using this
    have r2 : ∑ i, J k i * (v i).im = l.re * (v k).im + l.im * (v k).re := by
      have := congrArg Complex.im (hl k)
      simpa using this
    rw [r1, r2]; ring
  obtain ⟨k, hk⟩ : ∃ k, v k ≠ 0 := by
    by_contra h
    exact hv (funext fun k => by by_contra hk; exact h ⟨k, hk⟩)
  have hp : 0 < ∑ k, ((v k).re ^ 2 + (v k).im ^ 2) := by
    refine Finset.sum_pos' (fun _ _ => by positivity) ⟨k, Finset.mem_univ k, ?_⟩
    by_contra h
    have a1 : (v k).re ^ 2 = 0 := by nlinarith [sq_nonneg (v k).re, sq_nonneg (v k).im]
    have a2 : (v k).im ^ 2 = 0 := by nlinarith [sq_nonneg (v k).re, sq_nonneg (v k).im]
    exact hk (Complex.ext (pow_eq_zero_iff two_ne_zero |>.mp a1) (pow_eq_zero_iff two_ne_zero |>.mp a2))
  by_contra h
  push Not at h
  have := mul_pos h hp
  linarith

/-- **C94, completed runs.**  On a contractive linear system with an equilibrium the same five methods reach `t1`, and the distance to the
equilibrium never increases on the way, whatever the initial step size, the tolerances and the stiffness. -/
theorem C94_completes (hm : m ∈ ([210, 211, 230, 231, 232] : List ℤ)) {J : Matrix (Fin n) (Fin n) ℝ} {c : Vec ℝ n}
    (hfn : ∀ t y, fn.fn t y = J.mulVec y + c) (hJ : ∀ t y i j, fn.jac t y i j = J i j) (hf : Contractive fn.fn)
    (heq : J.mulVec ystar + c = 0) (hn : 0 < n) (ht : t0 < t1) (hdt : 0 < dt) (had : o.adaptive = true) (hms : o.maxSteps < 0)
    (hno : o.newtonOpts = some no) (hmax : 2 ≤ no.maxit) (htol : no.tol ≠ 0) (hr : no.refreshJac ≠ 0)
    (hat : 0 < o.absTol) (hrt : 0 ≤ o.relTol) (hst : oo.storeInVectors = true) (hi : oo.interval.toNat = 1)
    (hw : oo.writeToFile = true → oo.streamSet = true) :
    ∃ fuel out, irkOdeint false laReal fn t0 t1 y0 o oo m dt fuel = some (.ret out) ∧ out.status = 0 ∧ out.tVals.getLast? = some t1 ∧
      out.yVals.head? = some y0 ∧ out.yVals.Pairwise fun a b => eucl (b - ystar) ≤ eucl (a - ystar) := by
  obtain ⟨fuel, out, h1, h2, -, h4, h5⟩ := C67_stiff_success (y0 := y0) (oo := oo) (g := fun _ => c) hm hfn hJ
    (fun R => ⟨‖c‖, fun t _ k => by
      have := norm_le_pi_norm c k
      rwa [Real.norm_eq_abs] at this⟩) (dissipative_of_contractive (g := fun _ => c) hfn hf) hn ht hdt had hms hno hmax htol hr hat hrt
    (by rw [hi]; decide) hw
  exact ⟨fuel, out, h1, h2, h5 hst hi, h4, (List.pairwise_cons.mp (C94_affine hm laReal_exact laReal_sound h1 (Or.inl rfl)
    ⟨J, fun _ => c, hfn, hJ⟩ hf (fun t => by rw [hfn]; exact heq)).1).2⟩

end run

/-! ### the hypotheses are satisfiable -/

theorem eucl_one (y : Vec ℝ 1) : eucl y = |y 0| := by
  rw [eucl, Fin.sum_univ_one, Real.sqrt_sq_eq_abs]

/-- a step of IMPLICIT_EULER -/
theorem implicitEuler_step {n : ℕ} {f : ℝ → Vec ℝ n → Vec ℝ n} {t h : ℝ} {y y' k : Vec ℝ n} (hk : k = f (t + h) y') (hy : y' = y + h • k) :
    IsRKStep (fun i j : Fin (irkCoeffs 200 : SolverCoeffs ℝ).ns => (irkCoeffs 200 : SolverCoeffs ℝ).a i j)
      (fun i => (irkCoeffs 200 : SolverCoeffs ℝ).bw i) (fun i => (irkCoeffs 200 : SolverCoeffs ℝ).cn i) f t h y y' fun _ => k := by
  have hsum : ∀ g : Fin (irkCoeffs 200 : SolverCoeffs ℝ).ns → Vec ℝ n, ∑ i, g i = g ⟨0, Nat.zero_lt_one⟩ := fun g =>
    Fin.sum_univ_one (f := g)
  have hi : ∀ i : Fin (irkCoeffs 200 : SolverCoeffs ℝ).ns, i = ⟨0, Nat.zero_lt_one⟩ := fun i => Subsingleton.elim (α := Fin 1) _ _
  have ha : (irkCoeffs 200 : SolverCoeffs ℝ).a 0 0 = 1 := by simp [irkCoeffs, implicitEuler, SolverCoeffs.a]
  have hb : (irkCoeffs 200 : SolverCoeffs ℝ).bw 0 = 1 := by simp [irkCoeffs, implicitEuler, SolverCoeffs.bw]
  have hc : (irkCoeffs 200 : SolverCoeffs ℝ).cn 0 = 1 := by simp [irkCoeffs, implicitEuler, SolverCoeffs.cn]
  refine ⟨fun i => ?_, ?_⟩
  · rw [hsum, hi i]
    simp only [ha, hc, one_smul, one_mul]
    rw [← hy]; exact hk
  · rw [hsum]
    simp only [hb, one_smul]
    exact hy

/-- `C94_bstable_partial`: two steps of IMPLICIT_EULER on `y' = -y³`, from 2 to 1 and from 10 to 2 -/
example : eucl ((fun _ => 2 : Vec ℝ 1) - fun _ => 1) ≤ eucl ((fun _ => 10 : Vec ℝ 1) - fun _ => 2) :=
  C94_bstable_partial (m := 200) (by decide) 1 (fun _ y k => -y k ^ 3) 0 1 (fun _ => 10) (fun _ => 2) (fun _ => 2) (fun _ => 1)
    (fun _ _ => -8) (fun _ _ => -1)
    (by
      intro t y z
      rw [Fin.sum_univ_one]
      have h1 : 0 ≤ y 0 ^ 2 + y 0 * z 0 + z 0 ^ 2 := by nlinarith [sq_nonneg (y 0 + z 0), sq_nonneg (y 0), sq_nonneg (z 0)]
      have h2 := mul_nonneg h1 (sq_nonneg (y 0 - z 0))
      nlinarith) zero_le_one
    (implicitEuler_step (by funext k; norm_num) (by funext k; norm_num))
    (implicitEuler_step (by funext k; norm_num) (by funext k; norm_num))

/-- a stiff contractive linear system with the equilibrium (1, 1) -/
def stiffDemo : OdeFun ℝ 2 :=
  { fn := fun _ y => (!![-1000000, 1; 0, -1] : Matrix (Fin 2) (Fin 2) ℝ).mulVec y + ![999999, 1]
    jac := fun _ _ i j => (!![-1000000, 1; 0, -1] : Matrix (Fin 2) (Fin 2) ℝ) i j }

theorem stiffDemo_contractive : Contractive stiffDemo.fn := by
  intro t y z
  simp only [stiffDemo, Fin.sum_univ_two, Pi.add_apply, Matrix.mulVec, dotProduct, Matrix.of_apply, Matrix.cons_val_zero,
    Matrix.cons_val_one]
  nlinarith [sq_nonneg (y 0 - z 0), sq_nonneg (y 1 - z 1), sq_nonneg (y 0 - z 0 - (y 1 - z 1))]

/-- `C94_completes`, `C94_affine`: RADAU_IIA_53 on the stiff system, from (0, 5) to `t = 10` -/
example : ∃ fuel out, irkOdeint false laReal stiffDemo 0 10 ![0, 5] (demoOpts (-1)) OutOpts.dflt 211 1 fuel = some (.ret out) ∧
    out.status = 0 ∧ out.tVals.getLast? = some 10 ∧ out.yVals.head? = some ![0, 5] ∧
    out.yVals.Pairwise fun a b => eucl (b - ![1, 1]) ≤ eucl (a - ![1, 1]) :=
  C94_completes (no := NewtonOpts.dflt) (c := ![999999, 1]) (by decide) (fun _ _ => rfl) (fun _ _ _ _ => rfl) stiffDemo_contractive
    (by
      funext k
      fin_cases k <;> norm_num [Matrix.mulVec, dotProduct, Fin.sum_univ_two])
    (by norm_num) (by norm_num) (by norm_num) rfl (by norm_num [demoOpts]) rfl (by norm_num [NewtonOpts.dflt])
    (by norm_num [NewtonOpts.dflt]) (by norm_num [NewtonOpts.dflt]) (by norm_num [demoOpts]) (by norm_num [demoOpts]) rfl rfl
    (fun h => absurd h (by decide))

/-- `C94_run`: a run of it exists -/
example : ∃ (C : ℝ) (fuel : ℕ) (out : IrkOutput ℝ ((irkCoeffs 211 : SolverCoeffs ℝ).ns * 2) 2),
    irkOdeint false laReal stiffDemo 0 10 ![0, 5] (demoOpts (-1)) OutOpts.dflt 211 1 fuel = some (.ret out) ∧
    ∀ y ∈ out.yVals, eucl (y - ![1, 1]) ≤ eucl (![0, 5] - ![1, 1]) + C * ((out.count.newtonSuccess - out.count.rejectErr : ℕ) * 0) := by
  obtain ⟨C, -, key⟩ := C94_run (m := 211) (by decide)
  obtain ⟨fuel, out, h1, -⟩ := C94_completes (no := NewtonOpts.dflt) (c := ![999999, 1]) (m := 211) (fn := stiffDemo) (t0 := 0) (t1 := 10)
    (dt := 1) (y0 := ![0, 5]) (ystar := ![1, 1]) (o := demoOpts (-1)) (oo := OutOpts.dflt) (by decide) (fun _ _ => rfl)
    (fun _ _ _ _ => rfl) stiffDemo_contractive
    (by
      funext k
      fin_cases k <;> norm_num [Matrix.mulVec, dotProduct, Fin.sum_univ_two])
    (by norm_num) (by norm_num) (by norm_num) rfl (by norm_num [demoOpts]) rfl (by norm_num [NewtonOpts.dflt])
    (by norm_num [NewtonOpts.dflt]) (by norm_num [NewtonOpts.dflt]) (by norm_num [demoOpts]) (by norm_num [demoOpts]) rfl rfl
    (fun h => absurd h (by decide))
  exact ⟨C, fuel, out, h1, (key 2 stiffDemo 0 10 1 0 0 _ ![1, 1] false laReal _ NewtonOpts.dflt _ fuel out laReal_exact laReal_sound h1
    (Or.inl rfl) rfl (by norm_num) stiffDemo_contractive
    (fun t => by
      funext k
      fin_cases k <;> norm_num [stiffDemo, Matrix.mulVec, dotProduct, Fin.sum_univ_two])
    (Or.inl ⟨⟨_, fun _ => ![999999, 1], fun _ _ => rfl, fun _ _ _ _ => rfl⟩, rfl⟩)).1⟩

/-- `C94_run`, nonlinear equations: `y' = sin y - 1000 y` is contractive, has the equilibrium 0 and the Lipschitz constant 1001 -/
example : let fn : OdeFun ℝ 1 := { fn := fun _ y k => Real.sin (y k) - 1000 * y k, jac := fun _ y _ _ => Real.cos (y 0) - 1000 }
    Contractive fn.fn ∧ (∀ t, fn.fn t 0 = 0) ∧
      StageDefect fn NewtonOpts.dflt 1 1001 (|(NewtonOpts.dflt : NewtonOpts ℝ).tol| + 1 * 1001 * |(NewtonOpts.dflt : NewtonOpts ℝ).dxDelta|) := by
  have hsin : ∀ x y : ℝ, |Real.sin x - Real.sin y| ≤ |x - y| := Real.abs_sin_sub_sin_le
  refine ⟨fun t y z => ?_, fun t => ?_, Or.inr (Or.inr ⟨by norm_num, fun t y z => ?_, fun t y v => ?_, rfl⟩)⟩
  · rw [Fin.sum_univ_one]
    have h := hsin (y 0) (z 0)
    have h1 : (Real.sin (y 0) - Real.sin (z 0)) * (y 0 - z 0) ≤ |y 0 - z 0| * |y 0 - z 0| :=
      (le_abs_self _).trans ((abs_mul _ _).le.trans (mul_le_mul_of_nonneg_right h (abs_nonneg _)))
    rw [abs_mul_abs_self] at h1
    nlinarith [sq_nonneg (y 0 - z 0)]
  · funext k; simp
  · rw [eucl_one, eucl_one]
    have h := hsin (y 0) (z 0)
    have e : Real.sin (y 0) - 1000 * y 0 - (Real.sin (z 0) - 1000 * z 0) = (Real.sin (y 0) - Real.sin (z 0)) - 1000 * (y 0 - z 0) := by ring
    dsimp only
    rw [e]
    refine (abs_sub _ _).trans ?_
    rw [abs_mul, abs_of_pos (by norm_num : (0 : ℝ) < 1000)]
    linarith
  · rw [eucl_one, eucl_one]
    have e : (Matrix.of fun _ _ : Fin 1 => Real.cos (y 0) - 1000).mulVec v 0 = (Real.cos (y 0) - 1000) * v 0 := by
      simp [Matrix.mulVec, dotProduct]
    change |(Matrix.of fun _ _ : Fin 1 => Real.cos (y 0) - 1000).mulVec v 0| ≤ _
    rw [e, abs_mul]
    refine mul_le_mul_of_nonneg_right (abs_le.mpr ⟨?_, ?_⟩) (abs_nonneg _)
    · linarith [Real.neg_one_le_cos (y 0)]
    · linarith [Real.cos_le_one (y 0)]

end Verif
