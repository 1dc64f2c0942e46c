import Mathlib.LinearAlgebra.Matrix.Block
import Verif.StabilityRat
import Verif.StabilityErk
import Verif.Prop.IrkAffine
import Verif.Prop.IrkMethods
import Verif.Prop.ErkReal
import Verif.Prop.TestEq

/-!
# Properties C59, C60: the stability function

C59: the stability function is the amplification factor.  The equation `y' = λ y` is taken in the form in which it
occurs in a real system: a linear functional `φ` with complex values such that `φ (f (t, y)) = λ φ y` (`φ` is a left
eigenvector; `n = 1` and `φ y = y 0` gives the scalar equation, the harmonic oscillator has `λ = ± i ω`).
-/

set_option linter.unusedSectionVars false

namespace Verif
open Spec TestEq

variable {n : ℕ}

/-- `stability_function` returns exactly if the sizes agree and `I - zA` is invertible. -/
theorem C59_returns (z : ℂ) (A : List (List ℝ)) (b : List ℝ) :
    (∃ R, stabilityFunction z A b = .ret R) ↔
      A.length = b.length ∧ (A.headD []).length = b.length ∧ IsUnit (stabMat b.length z A) := by
  unfold stabilityFunction
  simp only
  rw [Matrix.isUnit_iff_isUnit_det, isUnit_iff_ne_zero]
  by_cases h : A.length ≠ b.length ∨ (A.headD []).length ≠ b.length
  · rw [if_pos h]
    constructor
    · rintro ⟨R, hR⟩; cases hR
    · rintro ⟨h1, h2, -⟩; rcases h with h | h
      · exact absurd h1 h
      · exact absurd h2 h
  · rw [if_neg h]
    push Not at h
    by_cases hd : (stabMat b.length z A).det = 0
    · rw [if_pos hd]
      constructor
      · rintro ⟨R, hR⟩; cases hR
      · rintro ⟨-, -, h3⟩; exact absurd hd h3
    · rw [if_neg hd]
      exact ⟨fun _ => ⟨h.1, h.2, hd⟩, fun _ => ⟨_, rfl⟩⟩

/-- **C59 (otherwise).**  In all other cases `stability_function` throws; there is no undefined behaviour. -/
theorem C59_throws (z : ℂ) (A : List (List ℝ)) (b : List ℝ) :
    stabilityFunction z A b = .throws ↔
      ¬ (A.length = b.length ∧ (A.headD []).length = b.length ∧ IsUnit (stabMat b.length z A)) := by
  rw [← C59_returns z A b]
  unfold stabilityFunction
  simp only
  split_ifs <;> simp

/-- `C59_throws`: the pole of the implicit Euler method -/
example : stabilityFunction 1 [[1]] [1] = .throws := by
  rw [C59_throws]
  rintro ⟨-, -, h⟩
  have e : stabMat 1 1 [[(1 : ℝ)]] = 0 := by
    ext i j
    have hi : i = 0 := Subsingleton.elim _ _
    have hj : j = 0 := Subsingleton.elim _ _
    subst hi hj
    simp [stabMat, cxEntry]
  rw [show ([1] : List ℝ).length = 1 from rfl, e] at h
  exact not_isUnit_zero h

/-- **C59.**  If `φ (f (t, y)) = λ φ y` for all `t` and `y`, one Runge–Kutta step of size `h` multiplies `φ y` by
`stability_function(λ h, A, b)`, for every tableau for which that function returns. -/
theorem C59_step (sc : SolverCoeffs ℝ) {f : ℝ → Vec ℝ n → Vec ℝ n} {φ : Vec ℝ n →ₗ[ℝ] ℂ} {l : ℂ}
    (hφ : ∀ t y, φ (f t y) = l * φ y) {t h : ℝ} {y y' : Vec ℝ n} {k : Fin sc.ns → Vec ℝ n}
    (hs : IsRKStep (fun i j => sc.a i j) (fun i => sc.bw i) (fun i => sc.cn i) f t h y y' k) {R : ℂ}
    (hR : stabilityFunction (l * h) sc.A sc.b = .ret R) : φ y' = R * φ y := by
  obtain ⟨h1, h2⟩ := hs
  have hret := (C59_returns (l * h) sc.A sc.b).1 ⟨R, hR⟩
  unfold stabilityFunction at hR
  simp only at hR
  rw [if_neg (by rw [hret.1, hret.2.1]; simp), if_neg (((Matrix.isUnit_iff_isUnit_det _).1 hret.2.2).ne_zero)] at hR
  simp only [Outcome.ret.injEq, mul_one] at hR
  have hM := hret.2.2
  change IsUnit (stabMat sc.ns (l * h) sc.A) at hM
  change 1 + l * h * ∑ i : Fin sc.ns, _ * ∑ j, (stabMat sc.ns (l * h) sc.A)⁻¹ i j = R at hR
  set M := stabMat sc.ns (l * h) sc.A with hMdef
  -- the stage arguments
  set u : Fin sc.ns → ℂ := fun i => φ (y + h • ∑ j : Fin sc.ns, sc.a i j • k j) with hu
  have hk : ∀ i, φ (k i) = l * u i := fun i => by rw [h1 i, hφ]
  have ha : ∀ i j : Fin sc.ns, cxEntry sc.A i j = (sc.a i j : ℂ) := fun i j => by
    simp [cxEntry, SolverCoeffs.a]
  have hu' : ∀ i, u i = φ y + h * ∑ j : Fin sc.ns, (sc.a i j : ℂ) * (l * u j) := by
    intro i
    change φ (y + h • ∑ j : Fin sc.ns, sc.a i j • k j) = _
    simp only [map_add, map_smul, map_sum, hk, Complex.real_smul]
  have hMu : M.mulVec u = fun _ => φ y := by
    funext i
    have e := hu' i
    have e2 : M.mulVec u i = u i - l * h * ∑ j : Fin sc.ns, (sc.a i j : ℂ) * u j := by
      simp only [Matrix.mulVec, dotProduct, hMdef, stabMat, sub_mul, Finset.sum_sub_distrib, ite_mul, one_mul, zero_mul,
        Finset.sum_ite_eq, Finset.mem_univ, if_true, ha, Finset.mul_sum, mul_assoc]
    rw [e2]
    rw [show ∑ j : Fin sc.ns, (sc.a i j : ℂ) * (l * u j) = l * ∑ j : Fin sc.ns, (sc.a i j : ℂ) * u j by
      rw [Finset.mul_sum]; exact Finset.sum_congr rfl fun j _ => by ring] at e
    linear_combination e
  have hui : ∀ i, u i = (∑ j, M⁻¹ i j) * φ y := by
    intro i
    have := congrArg (M⁻¹.mulVec) hMu
    rw [Matrix.mulVec_mulVec, Matrix.nonsing_inv_mul _ ((Matrix.isUnit_iff_isUnit_det _).1 hM), Matrix.one_mulVec] at this
    rw [this]
    simp [Matrix.mulVec, dotProduct, Finset.sum_mul]
  have hb : ∀ i : Fin sc.ns, ((sc.b.getD i 0 : ℝ) : ℂ) = (sc.bw i : ℂ) := fun i => by simp [SolverCoeffs.bw]
  rw [h2]
  simp only [map_add, map_smul, map_sum, hk, Complex.real_smul, hui]
  rw [← hR]
  simp only [hb]
  rw [add_mul, one_mul]
  congr 1
  rw [Finset.mul_sum, Finset.mul_sum, Finset.sum_mul]
  exact Finset.sum_congr rfl fun i _ => by ring

/-- the tableau of an explicit method: `stability_function` returns for every `z` -/
theorem stab_explicit {sc : SolverCoeffs ℝ} (he : Explicit sc) (h1 : sc.nRows = sc.ns) (h2 : sc.nCols = sc.ns) (z : ℂ) :
    ∃ R, stabilityFunction z sc.A sc.b = .ret R := by
  refine (C59_returns z sc.A sc.b).2 ⟨h1, h2, ?_⟩
  change IsUnit (stabMat sc.ns z sc.A)
  rw [Matrix.isUnit_iff_isUnit_det]
  have hz : ∀ i j : Fin sc.ns, i ≤ j → cxEntry sc.A i j = 0 := by
    intro i j hij
    have := he i j i.2 j.2 hij
    simp only [SolverCoeffs.a, lit_real, Rat.cast_zero] at this
    rw [cxEntry, this]; simp
  have hlow : (stabMat sc.ns z sc.A).det = 1 := by
    rw [Matrix.det_of_isLowerTriangular]
    · refine Finset.prod_eq_one fun i _ => ?_
      simp [stabMat, hz i i le_rfl]
    · intro i j hij
      have hij' : i < j := hij
      simp [stabMat, hij'.ne, hz i j hij'.le]
  rw [hlow]; exact isUnit_one

/-- **C59 (explicit runs).**  Consecutive samples of every explicit run: `φ y' = R φ y`, `R` the value of
`stability_function` at `λ (t' - t)`, which exists. -/
theorem C59_erk {f : ℝ → Vec ℝ n → Vec ℝ n} {φ : Vec ℝ n →ₗ[ℝ] ℂ} {l : ℂ} (hφ : ∀ t y, φ (f t y) = l * φ y) {nd : Bool}
    {t0 t1 : ℝ} {y0 : Vec ℝ n} {o : ErkOpts ℝ} {oo : OutOpts} {m : ℤ} {dt : ℝ} {fuel : ℕ} {out : ErkOutput ℝ n}
    (h : erkOdeint nd f t0 t1 y0 o oo m dt fuel = some (.ret out)) (hpos : nd = false ∨ (0 < dt ∧ t0 < t1)) {i : ℕ}
    {t t' : ℝ} (ht : out.tVals[i]? = some t) (ht' : out.tVals[i + 1]? = some t') :
    ∃ y y' R, out.yVals[i]? = some y ∧ out.yVals[i + 1]? = some y' ∧
      stabilityFunction (l * ((t' - t : ℝ) : ℂ)) (erkCoeffs m : SolverCoeffs ℝ).A (erkCoeffs m : SolverCoeffs ℝ).b =
        .ret R ∧ φ y' = R * φ y := by
  obtain ⟨y, y', k, h1, h2, -, h4⟩ := C12_odeint h hpos ht ht'
  have hm := (erkOdeint_ret h).1
  have hsh : (erkCoeffs m : SolverCoeffs ℝ).nRows = (erkCoeffs m : SolverCoeffs ℝ).ns ∧
      (erkCoeffs m : SolverCoeffs ℝ).nCols = (erkCoeffs m : SolverCoeffs ℝ).ns := by
    simp only [erkImplemented, List.mem_cons, List.not_mem_nil, or_false] at hm
    rcases hm with rfl | rfl | rfl | rfl | rfl | rfl <;> exact ⟨rfl, rfl⟩
  obtain ⟨R, hR⟩ := stab_explicit (shipped_facts hm).1 hsh.1 hsh.2 (l * ((t' - t : ℝ) : ℂ))
  exact ⟨y, y', R, h1, h2, hR, C59_step _ hφ h4 hR⟩

/-- **C59 (implicit runs).**  For a linear right-hand side every accepted step of a returned implicit run multiplies
`φ y` by the value of `stability_function`, if that returns. -/
theorem C59_irk {la : LinAlg ℝ} (hla : la.Exact) (hs : la.Sound) {fn : OdeFun ℝ n} (ha : IsAffine fn)
    {φ : Vec ℝ n →ₗ[ℝ] ℂ} {l : ℂ} (hφ : ∀ t y, φ (fn.fn t y) = l * φ y) {nd : Bool} {t0 t1 : ℝ} {y0 : Vec ℝ n}
    {o : IrkOpts ℝ} {dt : ℝ} {sc : SolverCoeffs ℝ} {oo : OutOpts} {fuel : ℕ} {out : IrkOutput ℝ (sc.ns * n) n}
    (h : irkGuts nd la fn t0 t1 y0 o dt sc oo fuel = some (.ret out)) :
    ∃ acc : List (SampleI ℝ n), acc.head? = some ⟨t0, y0, 0, 0⟩ ∧
      out.yVals = (if oo.storeInVectors then everyNth oo.interval.toNat acc else acc.take 1).map (·.y) ∧
      out.tVals = (if oo.storeInVectors then everyNth oo.interval.toNat acc else acc.take 1).map (·.t) ∧
      out.file = (if oo.writeToFile then ((everyNth oo.interval.toNat acc).tail).map (fun b => (b.t, b.y)) else []) ∧
      acc.IsChain fun a b => a.t < b.t ∧
        ∀ R, stabilityFunction (l * ((b.t - a.t : ℝ) : ℂ)) sc.A sc.b = .ret R → φ b.y = R * φ a.y := by
  obtain ⟨acc, h1, h2, h3, h4, h5⟩ := C37_affine hla hs ha h
  refine ⟨acc, h1, h2, h3, h4, h5.imp ?_⟩
  rintro a b ⟨hlt, k, hk⟩
  exact ⟨hlt, fun R hR => C59_step sc hφ hk hR⟩

/-- the amplitude of the harmonic oscillator as a complex number -/
noncomputable def oscillator : Vec ℝ 2 →ₗ[ℝ] ℂ where
  toFun y := ⟨y 1, y 0⟩
  map_add' _ _ := by apply Complex.ext <;> simp
  map_smul' _ _ := by apply Complex.ext <;> simp

theorem oscillator_eigen (w t : ℝ) (y : Vec ℝ 2) :
    oscillator ((harmonic w).fn t y) = (⟨0, w⟩ : ℂ) * oscillator y := by
  apply Complex.ext <;> simp [oscillator, harmonic]

theorem harmonic_affine (w : ℝ) : IsAffine (harmonic w) := by
  refine ⟨!![0, w; -w, 0], fun _ => 0, fun t y => ?_, fun t y i j => ?_⟩
  · funext i
    fin_cases i <;> simp [harmonic, dotProduct, Fin.sum_univ_two]
  · fin_cases i <;> fin_cases j <;> simp [harmonic]

/-- the hypotheses of `C59_step`: the oscillator has a complex eigenfunctional, and one step of explicit Euler -/
example (w h : ℝ) (y : Vec ℝ 2) :
    oscillator (fun i => y i + h * (harmonic w).fn 0 y i) = (1 + (⟨0, w⟩ : ℂ) * h) * oscillator y := by
  have hs : IsRKStep (fun i j => (explicitEuler : SolverCoeffs ℝ).a i j) (fun i => (explicitEuler : SolverCoeffs ℝ).bw i)
      (fun i => (explicitEuler : SolverCoeffs ℝ).cn i) (harmonic w).fn 0 h y (fun i => y i + h * (harmonic w).fn 0 y i)
      (fun _ : Fin (explicitEuler : SolverCoeffs ℝ).ns => (harmonic w).fn 0 y) := by
    constructor
    · intro i
      have : (i : ℕ) = 0 := Nat.lt_one_iff.1 i.2
      simp [this, explicitEuler, SolverCoeffs.a, SolverCoeffs.cn, SolverCoeffs.ns, lit_real]
    · have key : ∀ N (b : Fin N → ℝ), N = 1 → (∀ i, b i = 1) →
          (fun i => y i + h * (harmonic w).fn 0 y i) = y + h • ∑ i, b i • (harmonic w).fn 0 y := by
        rintro N b rfl hb
        funext k
        simp [hb]
      refine key _ _ rfl fun i => ?_
      have : (i : ℕ) = 0 := Nat.lt_one_iff.1 i.2
      simp [this, explicitEuler, SolverCoeffs.bw, lit_real]
  refine C59_step explicitEuler (oscillator_eigen w) hs ?_
  have := stab_erk (m := 100) (by decide) ((⟨0, w⟩ : ℂ) * (h : ℂ))
  simp only [erkStab, if_true, List.map, horner] at this
  refine Eq.trans this ?_
  simp

/-! ### C60 -/

/-- **C60 (A-stability).**  For IMPLICIT_EULER, RADAU_IIA_32, RADAU_IIA_53, LOBATTO_IIIC_43, LOBATTO_IIIC_64 and
LOBATTO_IIIC_85 the stability function returns at every point of the closed left half plane a value of modulus at
most 1. -/
theorem C60_A_stable {m : ℤ} (hm : m ∈ [200, 210, 211, 230, 231, 232]) {z : ℂ} (hz : z.re ≤ 0) :
    ∃ R, stabilityFunction z (irkCoeffs m : SolverCoeffs ℝ).A (irkCoeffs m : SolverCoeffs ℝ).b = .ret R ∧ ‖R‖ ≤ 1 := by
  have hm' : m ∈ stiffMethods := hm
  obtain ⟨h1, h2⟩ := stiff_bounds hm' hz
  have hd : stabDen m z ≠ 0 := by
    intro h
    rw [h] at h2
    norm_num at h2
  refine ⟨_, stab_shipped hm' hd, ?_⟩
  rw [norm_div, div_le_one (norm_pos_iff.2 hd)]
  rw [Complex.normSq_eq_norm_sq, Complex.normSq_eq_norm_sq] at h1
  exact le_of_sq_le_sq h1 (norm_nonneg _)

/-- not vacuous: with implicit Euler the value at `-1 + i` -/
example : stabilityFunction (-1 + Complex.I) (irkCoeffs 200 : SolverCoeffs ℝ).A (irkCoeffs 200 : SolverCoeffs ℝ).b =
    .ret (1 / (2 - Complex.I)) := by
  have hd : stabDen 200 (-1 + Complex.I) = 2 - Complex.I := by simp [stabDen, den200]; ring
  rw [stab_shipped (by decide) (by
    rw [hd]; intro h; have := congrArg Complex.im h; simp at this), hd]
  simp [stabNum, num200]

/-- **C60 (L-stability).**  For the same methods the value tends to 0 as `|z|` grows, in every direction. -/
theorem C60_L_stable {m : ℤ} (hm : m ∈ [200, 210, 211, 230, 231, 232]) {ε : ℝ} (hε : 0 < ε) :
    ∃ r : ℝ, ∀ z : ℂ, r ≤ ‖z‖ →
      ∃ R, stabilityFunction z (irkCoeffs m : SolverCoeffs ℝ).A (irkCoeffs m : SolverCoeffs ℝ).b = .ret R ∧ ‖R‖ < ε := by
  have hm' : m ∈ stiffMethods := hm
  obtain ⟨r, hr⟩ := stiff_limit hm' hε
  exact ⟨r, fun z hz => ⟨_, stab_shipped hm' (hr z hz).1, (hr z hz).2⟩⟩

/-- **C60 (runs).**  With these methods no returned implicit run amplifies a decaying or neutral mode, whatever the step
sizes, tolerances and length of the interval: `|φ y|` never increases along the recorded samples, and neither in the
lines written to the stream. -/
theorem C60_run {m : ℤ} (hm : m ∈ [200, 210, 211, 230, 231, 232]) {la : LinAlg ℝ} (hla : la.Exact) (hs : la.Sound)
    {fn : OdeFun ℝ n} (ha : IsAffine fn) {φ : Vec ℝ n →ₗ[ℝ] ℂ} {l : ℂ} (hl : l.re ≤ 0)
    (hφ : ∀ t y, φ (fn.fn t y) = l * φ y) {nd : Bool} {t0 t1 : ℝ} {y0 : Vec ℝ n} {o : IrkOpts ℝ} {dt : ℝ} {oo : OutOpts}
    {fuel : ℕ} {out : IrkOutput ℝ ((irkCoeffs m : SolverCoeffs ℝ).ns * n) n}
    (h : irkGuts nd la fn t0 t1 y0 o dt (irkCoeffs m) oo fuel = some (.ret out)) :
    out.yVals.head? = some y0 ∧ out.yVals.Pairwise (fun a b => ‖φ b‖ ≤ ‖φ a‖) ∧
      (y0 :: out.file.map (·.2)).Pairwise (fun a b => ‖φ b‖ ≤ ‖φ a‖) := by
  obtain ⟨acc, h1, h2, h3, h4, h5⟩ := C59_irk hla hs ha hφ h
  have hch : acc.IsChain fun a b => ‖φ b.y‖ ≤ ‖φ a.y‖ := by
    refine h5.imp ?_
    rintro a b ⟨hlt, hR⟩
    have hz : (l * ((b.t - a.t : ℝ) : ℂ)).re ≤ 0 := by
      rw [Complex.re_mul_ofReal]
      exact mul_nonpos_of_nonpos_of_nonneg hl (by linarith)
    obtain ⟨R, e, hle⟩ := C60_A_stable hm hz
    rw [hR R e, norm_mul]
    exact mul_le_of_le_one_left (norm_nonneg _) hle
  have : IsTrans (SampleI ℝ n) (fun a b => ‖φ b.y‖ ≤ ‖φ a.y‖) := ⟨fun _ _ _ h1 h2 => h2.trans h1⟩
  have hpw := List.isChain_iff_pairwise.mp hch
  refine ⟨?_, ?_, ?_⟩
  · rw [h2]
    cases acc with
    | nil => cases h1
    | cons x xs =>
      simp only [List.head?_cons, Option.some.injEq] at h1
      subst h1
      split_ifs
      · obtain ⟨l', hl'⟩ := everyNth_ne (k := oo.interval.toNat) (x := (⟨t0, y0, 0, 0⟩ : SampleI ℝ n)) (l := xs)
        rw [hl']; rfl
      · rfl
  · rw [h2, List.pairwise_map]
    split_ifs
    · exact hpw.sublist (everyNth_sublist _ _)
    · exact hpw.sublist (List.take_sublist _ _)
  · rw [h4]
    split_ifs
    · cases acc with
      | nil => cases h1
      | cons x xs =>
        simp only [List.head?_cons, Option.some.injEq] at h1
        subst h1
        obtain ⟨l', hl'⟩ := everyNth_ne (k := oo.interval.toNat) (x := (⟨t0, y0, 0, 0⟩ : SampleI ℝ n)) (l := xs)
        have hsub := hpw.sublist (everyNth_sublist oo.interval.toNat _)
        rw [hl'] at hsub ⊢
        have := (List.pairwise_map (f := fun s : SampleI ℝ n => s.y) (R := fun a b => ‖φ b‖ ≤ ‖φ a‖)).2 hsub
        simpa [List.map_map, Function.comp_def] using this
    · simp

/-- **C60 (harmonic oscillator).**  The shipped test equation `harmonic`: with these methods the computed energy
`y0² + y1²` never grows. -/
theorem C60_harmonic {m : ℤ} (hm : m ∈ [200, 210, 211, 230, 231, 232]) {la : LinAlg ℝ} (hla : la.Exact) (hs : la.Sound)
    (w : ℝ) {nd : Bool} {t0 t1 : ℝ} {y0 : Vec ℝ 2} {o : IrkOpts ℝ} {dt : ℝ} {oo : OutOpts}
    {fuel : ℕ} {out : IrkOutput ℝ ((irkCoeffs m : SolverCoeffs ℝ).ns * 2) 2}
    (h : irkGuts nd la (harmonic w) t0 t1 y0 o dt (irkCoeffs m) oo fuel = some (.ret out)) :
    out.yVals.Pairwise fun a b => b 0 ^ 2 + b 1 ^ 2 ≤ a 0 ^ 2 + a 1 ^ 2 := by
  refine (C60_run hm hla hs (harmonic_affine w) (l := ⟨0, w⟩) le_rfl (oscillator_eigen w) h).2.1.imp ?_
  intro a b hab
  have e : ∀ y : Vec ℝ 2, y 0 ^ 2 + y 1 ^ 2 = ‖oscillator y‖ ^ 2 := fun y => by
    rw [← Complex.normSq_eq_norm_sq, Complex.normSq_apply]
    simp [oscillator]; ring
  rw [e, e]
  gcongr

end Verif
