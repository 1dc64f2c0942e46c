import Verif.StabilityGrid
import Verif.Prop.StabilityProgram
import Verif.Prop.ExampleRun

/-!
# Properties C65, C66, C88: which files the stability-region program writes, and the embedded region
-/

set_option linter.unusedSectionVars false

namespace Verif

/-! ### helper lemmas -/

theorem irk_or_empty : ∀ p ∈ irkMethods, p.2 ∈ irkImplemented ∨
    (p.2 = 221 ∨ p.2 = 233 ∨ p.2 = 241 ∨ p.2 = 242) := by decide

theorem coeffs_empty {m : ℤ} (h : m = 221 ∨ m = 233 ∨ m = 241 ∨ m = 242) : (irkCoeffs m : SolverCoeffs ℝ).A = [] ∧
    (irkCoeffs m : SolverCoeffs ℝ).b = [] ∧ (irkCoeffs m : SolverCoeffs ℝ).b2 = [] := by
  rcases h with rfl | rfl | rfl | rfl <;> exact ⟨rfl, rfl, rfl⟩

theorem b2_length {m : ℤ} (hm : m ∈ irkImplemented) (h200 : m ≠ 200) :
    (irkCoeffs m : SolverCoeffs ℝ).b2.length = (irkCoeffs m : SolverCoeffs ℝ).b.length := by
  simp only [irkImplemented, List.mem_cons, List.not_mem_nil, or_false] at hm
  rcases hm with rfl | rfl | rfl | rfl | rfl | rfl | rfl | rfl | rfl | rfl | rfl | rfl <;> first | exact absurd rfl h200 | rfl

theorem limit_empty {sc : SolverCoeffs ℝ} (hA : sc.A = []) (hb : sc.b = []) (hb2 : sc.b2 = []) :
    ∃ lines, limitLines sc = .ret lines ∧ lines.length = 35 :=
  limit_ret (by rw [hb, hb2]) fun x _ => ⟨1, by rw [hA, hb, stab_empty]⟩

theorem irkNamed_mem {name : String} (h : irkNamed name ≠ 0) : (name, irkNamed name) ∈ irkMethods := irk_code_ne name h
theorem erkNamed_mem {name : String} (h : erkNamed name ≠ 0) : (name, erkNamed name) ∈ erkMethods := erk_code_ne name h

theorem euler_only : ∀ p ∈ irkMethods, p.2 = 200 → p.1 = "IMPLICIT_EULER" := by decide
theorem erk_cases : ∀ p ∈ erkMethods, p.1 = "EXPLICIT_EULER" ∨ p.1 = "RUNGE_KUTTA_4" ∨ p.2 ∈ ([120, 130, 131, 132] : List ℤ) := by
  decide

/-! ### C66 -/

/-- **C66 (exact extent).**  Whatever the name, `stability_limit` fails exactly for the three methods without embedded weights.
For every other method that the library lists it writes one line per point, and for any other string nothing. -/
theorem C66_exact (name : String) :
    ((∃ lines, stabilityLimit name = .ret lines) ↔ name ∉ ["IMPLICIT_EULER", "EXPLICIT_EULER", "RUNGE_KUTTA_4"]) ∧
    ∀ lines, stabilityLimit name = .ret lines →
      lines.length = if name ∈ methodNames then 35 else 0 := by
  have hk : name ∈ methodNames ↔ irkNamed name ≠ 0 ∨ erkNamed name ≠ 0 := known_iff name
  have hno := C66_no_embedded name
  by_cases hbad : name ∈ ["IMPLICIT_EULER", "EXPLICIT_EULER", "RUNGE_KUTTA_4"]
  · exact ⟨⟨fun h => absurd h (hno hbad), fun h => absurd hbad h⟩, fun lines h => absurd ⟨lines, h⟩ (hno hbad)⟩
  have main : ∃ lines, stabilityLimit name = .ret lines ∧ lines.length = if name ∈ methodNames then 35 else 0 := by
    unfold stabilityLimit
    by_cases h1 : irkNamed name ≠ 0
    · rw [if_pos h1, if_pos (hk.mpr (Or.inl h1))]
      have hmem := irkNamed_mem h1
      rcases irk_or_empty _ hmem with hi | he
      · have h200 : irkNamed name ≠ 200 := fun h => hbad (by rw [show name = "IMPLICIT_EULER" from euler_only _ hmem h]; simp)
        exact limit_ret (b2_length hi h200) fun x hx => ⟨_, stab_all hi (denOf_limit hi h200 hx)⟩
      · obtain ⟨e1, e2, e3⟩ := coeffs_empty he
        exact limit_empty e1 e2 e3
    · rw [if_neg h1]
      by_cases h2 : erkNamed name ≠ 0
      · rw [if_pos h2, if_pos (hk.mpr (Or.inr h2))]
        have hmem := erkNamed_mem h2
        have hl : erkNamed name ∈ ([120, 130, 131, 132] : List ℤ) := by
          rcases erk_cases _ hmem with h | h | h
          · exact absurd (by rw [show name = "EXPLICIT_EULER" from h]; simp) hbad
          · exact absurd (by rw [show name = "RUNGE_KUTTA_4" from h]; simp) hbad
          · exact h
        have hI : erkNamed name ∈ erkImplemented ∧
            (erkCoeffs (erkNamed name) : SolverCoeffs ℝ).b2.length = (erkCoeffs (erkNamed name) : SolverCoeffs ℝ).b.length := by
          revert hl
          generalize erkNamed name = m
          intro hl
          simp only [List.mem_cons, List.not_mem_nil, or_false] at hl
          rcases hl with rfl | rfl | rfl | rfl <;> exact ⟨by decide, rfl⟩
        exact limit_ret hI.2 fun x _ => ⟨_, stab_erk hI.1 _⟩
      · rw [if_neg h2, if_neg (fun h => (hk.mp h).elim h1 h2)]
        exact ⟨[], rfl, rfl⟩
  obtain ⟨lines, h1, h2⟩ := main
  refine ⟨⟨fun _ => hbad, fun _ => ⟨lines, h1⟩⟩, fun l hl => ?_⟩
  rw [h1] at hl
  cases hl
  exact h2

/-! ### C65 -/

theorem linspace_mem {a b x : ℝ} {k : ℕ} (h : x ∈ linspace a b k) :
    ∃ i : ℕ, i < k ∧ x = a + (i : ℝ) * ((b - a) / (k - 1 : ℕ)) := by
  simp only [linspace, List.mem_map, List.mem_range] at h
  obtain ⟨i, hi, rfl⟩ := h
  exact ⟨i, hi, rfl⟩

/-- the region is computed wherever the stability function returns -/
theorem region_ret {X Y : List ℝ} {sc : SolverCoeffs ℝ} {e : Bool} {b : List ℝ} (hb : (if e then sc.b2 else sc.b) = b)
    (h : ∀ x ∈ X, ∀ y ∈ Y, ∃ R, stabilityFunction ⟨x, y⟩ sc.A b = .ret R) :
    ∃ S, rkToStabRegion X Y sc e = .ret S := by
  classical
  have h' : ∀ x y, ∃ v, x ∈ X → y ∈ Y →
      ((if e = true then stabilityFunction ⟨x, y⟩ sc.A sc.b2 else stabilityFunction ⟨x, y⟩ sc.A sc.b).bind fun R =>
        Outcome.ret ‖R‖) = .ret v := by
    intro x y
    by_cases hx : x ∈ X ∧ y ∈ Y
    · obtain ⟨R, hR⟩ := h x hx.1 y hx.2
      refine ⟨‖R‖, fun _ _ => ?_⟩
      cases e
      · simp only [Bool.false_eq_true, if_false] at hb ⊢
        rw [hb, hR]; rfl
      · simp only [if_true] at hb ⊢
        rw [hb, hR]; rfl
    · exact ⟨0, fun a b => absurd ⟨a, b⟩ hx⟩
  choose g hg using h'
  exact ⟨_, mapM_all fun x hx => mapM_all fun y hy => hg x y hx hy⟩

/-- **C65 (which files are written).**  `stability_region` writes its file for every method that the library lists, except for
the embedded region of IMPLICIT_EULER, and throws for every other string. -/
theorem C65_written (name : String) (e : Bool) :
    (∃ lines, stabilityRegion name e = .ret lines) ↔ name ∈ methodNames ∧ ¬ (name = "IMPLICIT_EULER" ∧ e = true) := by
  have hk : name ∈ methodNames ↔ irkNamed name ≠ 0 ∨ erkNamed name ≠ 0 := known_iff name
  constructor
  · rintro ⟨lines, h⟩
    refine ⟨hk.mpr ?_, ?_⟩
    · by_contra hn
      push Not at hn
      rw [C66_unknown hn.1 hn.2] at h
      cases h
    · rintro ⟨rfl, rfl⟩
      have e1 : irkNamed "IMPLICIT_EULER" = 200 := by decide
      obtain ⟨S, hS, -⟩ := region_lines h
      unfold regionMatrix at hS
      simp only [e1] at hS
      rw [if_pos (by norm_num)] at hS
      have : rkToStabRegion (linspace (-190) 10 400) (linspace (-20) 20 80) (irkCoeffs 200 : SolverCoeffs ℝ) true = .throws := by
        unfold rkToStabRegion
        obtain ⟨x, X, hX⟩ : ∃ x X, linspace (-190) 10 400 = x :: X := by
          cases h : linspace (-190) 10 400 with
          | nil => have := linspace_length (-190) 10 400; rw [h] at this; simp at this
          | cons x X => exact ⟨x, X, rfl⟩
        obtain ⟨y, Y, hY⟩ : ∃ y Y, linspace (-20) 20 80 = y :: Y := by
          cases h : linspace (-20) 20 80 with
          | nil => have := linspace_length (-20) 20 80; rw [h] at this; simp at this
          | cons y Y => exact ⟨y, Y, rfl⟩
        rw [hX, hY]
        refine mapM_throws (mapM_throws ?_)
        rw [if_pos rfl, show (irkCoeffs 200 : SolverCoeffs ℝ).b2 = [] from rfl,
          stab_b2_empty (by rw [show (irkCoeffs 200 : SolverCoeffs ℝ).A = [[lit 1]] from rfl]; simp)]
        rfl
      rw [this] at hS
      cases hS
  · rintro ⟨h1, h2⟩
    have hsome : ∃ S, regionMatrix (linspace (-190) 10 400) (linspace (-20) 20 80) name e = .ret (some S) := by
      rcases hk.mp h1 with h | h
      · have hmem := irkNamed_mem h
        have he : erkNamed name = 0 := (irkNamed_irk _ hmem).2.1
        unfold regionMatrix
        simp only [he, ne_eq, not_true_eq_false, if_false]
        rw [if_pos h]
        have : ∃ S, rkToStabRegion (linspace (-190) 10 400) (linspace (-20) 20 80) (irkCoeffs (irkNamed name) : SolverCoeffs ℝ) e =
            .ret S := by
          rcases irk_or_empty _ hmem with hi | hem
          · refine region_ret rfl fun x hx y hy => ?_
            have hb : ∃ R, stabilityFunction ⟨x, y⟩ (irkCoeffs (irkNamed name) : SolverCoeffs ℝ).A
                (irkCoeffs (irkNamed name) : SolverCoeffs ℝ).b = .ret R := by
              obtain ⟨i, hi1, rfl⟩ := linspace_mem hx
              obtain ⟨j, hj1, rfl⟩ := linspace_mem hy
              refine ⟨_, stab_all hi ?_⟩
              convert denOf_grid hi hi1 hj1 using 3
              · push_cast; ring
              · push_cast; ring
            cases e
            · simpa using hb
            · simp only [if_true]
              exact stab_b2 (b2_length hi fun h => h2 ⟨euler_only _ hmem h, rfl⟩) hb
          · obtain ⟨e1, e2, e3⟩ := coeffs_empty hem
            exact ⟨_, region_empty _ _ _ e1 e2 e3 e⟩
        obtain ⟨S, hS⟩ := this
        rw [hS]
        exact ⟨S, rfl⟩
      · obtain ⟨lines, hl, -⟩ := C65_explicit (erkNamed_mem h) e
        obtain ⟨S, hS, -⟩ := region_lines hl
        exact ⟨S, hS⟩
    obtain ⟨S, hS⟩ := hsome
    unfold stabilityRegion
    simp only [hS, Outcome.ret_bind, Outcome.pure_eq]
    exact ⟨_, rfl⟩

/-! ### C88 -/

/-- `R` is the factor by which the embedded formula of the implicit integrator, `y + h (γ f(t, y) + ∑ b2_i k_i)` (irk.hpp 692-715),
multiplies the solution of `y' = λ y`, `z = λ h`. -/
def IsEmbFactor (sc : SolverCoeffs ℝ) (z R : ℂ) : Prop :=
  ∃ K : Fin sc.ns → ℂ, (∀ i, K i = z * (1 + ∑ j : Fin sc.ns, (sc.a i j : ℂ) * K j)) ∧
    R = 1 + (sc.gamma : ℂ) * z + ∑ i : Fin sc.ns, (sc.bw2 i : ℂ) * K i

/-- **C88, the claim**: the embedded region holds the amplification factors of the embedded formula of the integrator. -/
def C88_claim : Prop := ∀ (name : String) (m : ℤ), (name, m) ∈ irkMethods → m ∈ irkImplemented →
  ∀ lines, stabilityRegion name true = .ret lines → ∀ p ∈ lines, ∃ R, IsEmbFactor (irkCoeffs m) ⟨p.1, p.2.1⟩ R ∧ p.2.2 = ‖R‖

/-- the value of `stability_function` by the stages -/
theorem stab_stages {N : ℕ} {A : List (List ℝ)} {w : List ℝ} (hw : w.length = N) {z R : ℂ}
    (h : stabilityFunction z A w = .ret R) :
    ∃ K : Fin N → ℂ, (∀ i, K i = z * (1 + ∑ j : Fin N, cxEntry A i j * K j)) ∧
      R = 1 + ∑ i : Fin N, ((w.getD i 0 : ℝ) : ℂ) * K i ∧
      ∀ K' : Fin N → ℂ, (∀ i, K' i = z * (1 + ∑ j : Fin N, cxEntry A i j * K' j)) → K' = K := by
  subst hw
  have hret := (C59_returns z A w).1 ⟨R, h⟩
  unfold stabilityFunction at h
  simp only at h
  have hdet := (Matrix.isUnit_iff_isUnit_det _).1 hret.2.2
  rw [if_neg (by rw [hret.1, hret.2.1]; simp), if_neg hdet.ne_zero] at h
  simp only [Outcome.ret.injEq, mul_one] at h
  set M := stabMat w.length z A with hM
  have hMK : ∀ K : Fin w.length → ℂ, (∀ i, K i = z * (1 + ∑ j : Fin w.length, cxEntry A i j * K j)) ↔ M.mulVec K = fun _ => z := by
    intro K
    rw [funext_iff]
    refine forall_congr' fun i => ?_
    have e2 : M.mulVec K i = K i - z * ∑ j : Fin w.length, cxEntry A i j * K j := by
      simp only [Matrix.mulVec, dotProduct, hM, stabMat, sub_mul, Finset.sum_sub_distrib, ite_mul, one_mul, zero_mul,
        Finset.sum_ite_eq, Finset.mem_univ, if_true, Finset.mul_sum, mul_assoc]
    rw [e2, mul_add, mul_one]
    exact ⟨fun h => by linear_combination h, fun h => by linear_combination h⟩
  refine ⟨M⁻¹.mulVec fun _ => z, (hMK _).mpr ?_, ?_, fun K' hK' => ?_⟩
  · rw [Matrix.mulVec_mulVec, Matrix.mul_nonsing_inv _ hdet, Matrix.one_mulVec]
  · rw [← h]
    congr 1
    rw [Finset.mul_sum]
    refine Finset.sum_congr rfl fun i _ => ?_
    simp only [Matrix.mulVec, dotProduct]
    rw [← Finset.sum_mul]
    ring
  · have := congrArg (M⁻¹.mulVec) ((hMK _).mp hK')
    rwa [Matrix.mulVec_mulVec, Matrix.nonsing_inv_mul _ hdet, Matrix.one_mulVec] at this

/-- **C88 (what the embedded region holds).**  For every implemented implicit method the lines of the embedded region hold
`|R - γ z|` instead of `|R|`, where `R` is the factor of the embedded formula: the weight `γ` of the slope at the start of the
step is left out. -/
theorem C88_values {name : String} {m : ℤ} (hm : (name, m) ∈ irkMethods) (hi : m ∈ irkImplemented) {lines : List (ℝ × ℝ × ℝ)}
    (h : stabilityRegion name true = .ret lines) :
    ∀ p ∈ lines, ∃ R, IsEmbFactor (irkCoeffs m) ⟨p.1, p.2.1⟩ R ∧
      p.2.2 = ‖R - ((irkCoeffs m : SolverCoeffs ℝ).gamma : ℂ) * (⟨p.1, p.2.1⟩ : ℂ)‖ := by
  have hne : ¬ name = "IMPLICIT_EULER" := fun hn => ((C65_written name true).mp ⟨lines, h⟩).2 ⟨hn, rfl⟩
  have h200 : m ≠ 200 := fun h => hne (euler_only _ hm h)
  obtain ⟨S, hS, hl⟩ := region_lines h
  obtain ⟨e1, e2, e3⟩ := irkNamed_irk _ hm
  simp only at e1 e2 e3
  unfold regionMatrix at hS
  simp only [e1, e2] at hS
  rw [if_pos e3] at hS
  cases hR : rkToStabRegion (linspace (-190) 10 400) (linspace (-20) 20 80) (irkCoeffs m) true with
  | ret S' =>
    rw [hR] at hS
    have : S' = S := by
      have : (Outcome.ret (some S') : Outcome (Option (List (List ℝ)))) = .ret (some S) := by simpa using hS
      cases this; rfl
    subst this
    intro p hp
    obtain ⟨i, j, hi', hj, hv⟩ := hl p hp
    obtain ⟨row, r1, r2⟩ := (mapM_ret hR).2 i p.1 hi'
    obtain ⟨v, v1, v2⟩ := (mapM_ret r2).2 j p.2.1 hj
    have hv' : p.2.2 = v := by
      rw [hv, List.getD_eq_getElem?_getD, List.getD_eq_getElem?_getD, r1, Option.getD_some, v1, Option.getD_some]
    rw [if_pos rfl] at v2
    cases hf : stabilityFunction ⟨p.1, p.2.1⟩ (irkCoeffs m : SolverCoeffs ℝ).A (irkCoeffs m : SolverCoeffs ℝ).b2 with
    | ret R =>
      rw [hf] at v2
      simp only [Outcome.bind, Outcome.ret.injEq] at v2
      obtain ⟨K, k1, k2, -⟩ := stab_stages (N := (irkCoeffs m : SolverCoeffs ℝ).ns) (b2_length hi h200) hf
      refine ⟨R + ((irkCoeffs m : SolverCoeffs ℝ).gamma : ℂ) * (⟨p.1, p.2.1⟩ : ℂ), ⟨K, fun i => ?_, ?_⟩, ?_⟩
      · rw [k1 i]
        simp [cxEntry, SolverCoeffs.a]
      · rw [k2]
        simp only [SolverCoeffs.bw2, lit_real, Rat.cast_zero]
        ring
      · rw [add_sub_cancel_right, hv', v2]
    | assertFail => rw [hf] at v2; cases v2
    | throws => rw [hf] at v2; cases v2
    | ub => rw [hf] at v2; cases v2
  | assertFail => rw [hR] at hS; cases hS
  | throws => rw [hR] at hS; cases hS
  | ub => rw [hR] at hS; cases hS

/-- **C88 (methods with `γ = 0`).**  The claim holds for LOBATTO_IIIA_43, LOBATTO_IIIC_43, LOBATTO_IIIC_64 and GAUSS_LEGENDRE_42,
where the formula has no such term.  Missing: the methods with `γ ≠ 0`, see `C88_values` and `C88_refuted`. -/
theorem C88_gamma_zero_partial {name : String} {m : ℤ} (hm : (name, m) ∈ irkMethods) (hi : m ∈ ([220, 230, 231, 240] : List ℤ))
    {lines : List (ℝ × ℝ × ℝ)} (h : stabilityRegion name true = .ret lines) :
    ∀ p ∈ lines, ∃ R, IsEmbFactor (irkCoeffs m) ⟨p.1, p.2.1⟩ R ∧ p.2.2 = ‖R‖ := by
  have hg : m ∈ irkImplemented ∧ (irkCoeffs m : SolverCoeffs ℝ).gamma = 0 := by
    simp only [List.mem_cons, List.not_mem_nil, or_false] at hi
    rcases hi with rfl | rfl | rfl | rfl <;> exact ⟨by decide, by show lit (0 : ℚ) = (0 : ℝ); simp⟩
  intro p hp
  obtain ⟨R, h1, h2⟩ := C88_values hm hg.1 h p hp
  refine ⟨R, h1, ?_⟩
  rw [h2, hg.2]
  simp

/-- **C88 is refuted**: RADAU_IIA_32 at `z = -190 - 20 i` -/
theorem C88_refuted : ¬ C88_claim := by
  intro hc
  obtain ⟨lines, h⟩ := (C65_written "RADAU_IIA_32" true).mpr ⟨by decide, by simp⟩
  obtain ⟨v, hv⟩ := (C65_grid h).2 0 0 (by norm_num) (by norm_num)
  norm_num at hv
  have hmem : ((-190 : ℝ), (-20 : ℝ), v) ∈ lines := List.mem_of_getElem? hv
  obtain ⟨R, ⟨K, hK, hR⟩, e⟩ := hc "RADAU_IIA_32" 210 (by decide) (by decide) lines h _ hmem
  obtain ⟨R', ⟨K', hK', hR'⟩, e'⟩ := C88_values (m := 210) (by decide) (by decide) h _ hmem
  -- the stages
  have sol : ∀ K : Fin (irkCoeffs 210 : SolverCoeffs ℝ).ns → ℂ,
      (∀ i, K i = (⟨-190, -20⟩ : ℂ) * (1 + ∑ j : Fin (irkCoeffs 210 : SolverCoeffs ℝ).ns,
        ((irkCoeffs 210 : SolverCoeffs ℝ).a i j : ℂ) * K j)) →
      (1 + ∑ i : Fin (irkCoeffs 210 : SolverCoeffs ℝ).ns, ((irkCoeffs 210 : SolverCoeffs ℝ).bw2 i : ℂ) * K i) =
        ⟨6462587 / 20422817, 105980 / 61268451⟩ := by
    intro K hK
    change Fin 2 → ℂ at K
    have h0 : K 0 = (⟨-190, -20⟩ : ℂ) * (1 + ∑ j : Fin 2, ((irkCoeffs 210 : SolverCoeffs ℝ).a 0 j : ℂ) * K j) := hK (0 : Fin 2)
    have h1 : K 1 = (⟨-190, -20⟩ : ℂ) * (1 + ∑ j : Fin 2, ((irkCoeffs 210 : SolverCoeffs ℝ).a 1 j : ℂ) * K j) := hK (1 : Fin 2)
    show 1 + ∑ i : Fin 2, ((irkCoeffs 210 : SolverCoeffs ℝ).bw2 i : ℂ) * K i = _
    have c00 : (irkCoeffs 210 : SolverCoeffs ℝ).a 0 0 = 5 / 12 := by
      show (q 5 12 : ℝ) = _; simp [q]
    have c01 : (irkCoeffs 210 : SolverCoeffs ℝ).a 0 1 = -(1 / 12) := by
      show (nq 1 12 : ℝ) = _; simp [nq]; norm_num
    have c10 : (irkCoeffs 210 : SolverCoeffs ℝ).a 1 0 = 3 / 4 := by
      show (q 3 4 : ℝ) = _; simp [q]
    have c11 : (irkCoeffs 210 : SolverCoeffs ℝ).a 1 1 = 1 / 4 := by
      show (q 1 4 : ℝ) = _; simp [q]
    have w0 : (irkCoeffs 210 : SolverCoeffs ℝ).bw2 0 = 2 / 3 := by
      show (q 2 3 : ℝ) = _; simp [q]
    have w1 : (irkCoeffs 210 : SolverCoeffs ℝ).bw2 1 = 1 / 3 := by
      show (q 1 3 : ℝ) = _; simp [q]
    simp only [Fin.sum_univ_two, Fin.val_zero, Fin.val_one, c00, c01, c10, c11, w0, w1] at h0 h1 ⊢
    have r0 := congrArg Complex.re h0
    have i0 := congrArg Complex.im h0
    have r1 := congrArg Complex.re h1
    have i1 := congrArg Complex.im h1
    simp only [Complex.mul_re, Complex.mul_im, Complex.add_re, Complex.add_im, Complex.one_re, Complex.one_im, Complex.ofReal_re,
      Complex.ofReal_im] at r0 i0 r1 i1
    apply Complex.ext
    · simp only [Complex.mul_re, Complex.add_re, Complex.one_re, Complex.ofReal_re, Complex.ofReal_im]
      linarith
    · simp only [Complex.mul_im, Complex.add_im, Complex.one_im, Complex.ofReal_re, Complex.ofReal_im]
      linarith
  have g : (irkCoeffs 210 : SolverCoeffs ℝ).gamma = 1 / 3 := by
    show (q 1 3 : ℝ) = _; simp [q]
  have f1 : R = ⟨6462587 / 20422817, 105980 / 61268451⟩ + ((1 / 3 : ℝ) : ℂ) * ⟨-190, -20⟩ := by
    rw [hR, ← sol K hK, g]; ring
  have f2 : R' - ((1 / 3 : ℝ) : ℂ) * ⟨-190, -20⟩ = ⟨6462587 / 20422817, 105980 / 61268451⟩ := by
    rw [hR', ← sol K' hK', g]; ring
  simp only [g, f2] at e'
  simp only [f1, e'] at e
  have e2 := congrArg (· ^ 2) e
  simp only [← Complex.normSq_eq_norm_sq, Complex.normSq_apply] at e2
  simp at e2
  norm_num at e2

/-! ### examples -/

/-- `C66_exact`, `C65_written`: a method given by decimals, one that is listed but not implemented, and a string that is no method -/
example : (∃ lines, stabilityLimit "GAUSS_LEGENDRE_147" = .ret lines ∧ lines.length = 35) ∧
    (∃ lines, stabilityRegion "LOBATTO_IIIA_127" true = .ret lines) ∧ (∃ lines, stabilityRegion "LOBATTO_IIIC_127" false = .ret lines) ∧
    (∃ lines, stabilityLimit "RADAU" = .ret lines ∧ lines.length = 0) ∧ ¬ ∃ lines, stabilityRegion "RADAU" false = .ret lines := by
  refine ⟨?_, (C65_written _ _).mpr ⟨by decide, by simp⟩, (C65_written _ _).mpr ⟨by decide, by simp⟩, ?_, fun h =>
    absurd ((C65_written _ _).mp h).1 (by decide)⟩
  · obtain ⟨lines, h⟩ := (C66_exact "GAUSS_LEGENDRE_147").1.mpr (by decide)
    exact ⟨lines, h, by rw [(C66_exact _).2 lines h, if_pos (by decide)]⟩
  · obtain ⟨lines, h⟩ := (C66_exact "RADAU").1.mpr (by decide)
    exact ⟨lines, h, by rw [(C66_exact _).2 lines h, if_neg (by decide)]⟩

/-- `C88_values`, `C88_gamma_zero_partial`: the corner `10 + 20 i` of the regions of RADAU_IIA_53 and GAUSS_LEGENDRE_42 -/
example : (∃ lines v R, stabilityRegion "RADAU_IIA_53" true = .ret lines ∧ (10, 20, v) ∈ lines ∧
      IsEmbFactor (irkCoeffs 211) ⟨10, 20⟩ R ∧ v = ‖R - ((irkCoeffs 211 : SolverCoeffs ℝ).gamma : ℂ) * (⟨10, 20⟩ : ℂ)‖) ∧
    ∃ lines v R, stabilityRegion "GAUSS_LEGENDRE_42" true = .ret lines ∧ (10, 20, v) ∈ lines ∧
      IsEmbFactor (irkCoeffs 240) ⟨10, 20⟩ R ∧ v = ‖R‖ := by
  refine ⟨?_, ?_⟩
  · obtain ⟨lines, h⟩ := (C65_written "RADAU_IIA_53" true).mpr ⟨by decide, by simp⟩
    obtain ⟨v, hv⟩ := (C65_grid h).2 79 399 (by norm_num) (by norm_num)
    norm_num at hv
    obtain ⟨R, h1, h2⟩ := C88_values (m := 211) (by decide) (by decide) h _ (List.mem_of_getElem? hv)
    exact ⟨lines, v, R, h, List.mem_of_getElem? hv, h1, h2⟩
  · obtain ⟨lines, h⟩ := (C65_written "GAUSS_LEGENDRE_42" true).mpr ⟨by decide, by simp⟩
    obtain ⟨v, hv⟩ := (C65_grid h).2 79 399 (by norm_num) (by norm_num)
    norm_num at hv
    obtain ⟨R, h1, h2⟩ := C88_gamma_zero_partial (m := 240) (by decide) (by decide) h _ (List.mem_of_getElem? hv)
    exact ⟨lines, v, R, h, List.mem_of_getElem? hv, h1, h2⟩

/-! ### no undefined behaviour -/

/-- a computation that returns or throws -/
def Calm {α : Type} (x : Outcome α) : Prop := x = .throws ∨ ∃ a, x = .ret a

theorem Calm.bind {α β : Type} {x : Outcome α} {f : α → Outcome β} (hx : Calm x) (hf : ∀ a, Calm (f a)) : Calm (x >>= f) := by
  rcases hx with rfl | ⟨a, rfl⟩
  · exact Or.inl rfl
  · exact hf a

theorem Calm.pure {α : Type} (a : α) : Calm (Pure.pure a : Outcome α) := Or.inr ⟨a, rfl⟩

theorem Calm.mapM {α β : Type} {f : α → Outcome β} (hf : ∀ a, Calm (f a)) (l : List α) : Calm (l.mapM f) := by
  induction l with
  | nil => exact Or.inr ⟨[], rfl⟩
  | cons a l ih =>
    rw [List.mapM_cons]
    exact (hf a).bind fun b => ih.bind fun r => Calm.pure _

theorem calm_stab (z : ℂ) (A : List (List ℝ)) (b : List ℝ) : Calm (stabilityFunction z A b) := by
  by_cases h : stabilityFunction z A b = .throws
  · exact Or.inl h
  · rw [C59_throws, not_not, ← C59_returns] at h
    exact Or.inr h

theorem calm_region (X Y : List ℝ) (sc : SolverCoeffs ℝ) (e : Bool) : Calm (rkToStabRegion X Y sc e) := by
  unfold rkToStabRegion
  refine Calm.mapM (fun x => Calm.mapM (fun y => ?_) _) _
  refine Calm.bind ?_ fun R => Calm.pure _
  split_ifs <;> exact calm_stab _ _ _

/-- **C66 (outcomes).**  Whatever name is given, both parts of the program return or throw: no assertion fails and nothing undefined
happens. -/
theorem C66_outcome (name : String) (e : Bool) :
    (stabilityLimit name = .throws ∨ ∃ lines, stabilityLimit name = .ret lines) ∧
      (stabilityRegion name e = .throws ∨ ∃ lines, stabilityRegion name e = .ret lines) := by
  have hl : ∀ sc : SolverCoeffs ℝ, Calm (limitLines sc) := fun sc => by
    unfold limitLines
    exact Calm.mapM (fun x => (calm_stab _ _ _).bind fun R => (calm_stab _ _ _).bind fun R2 => Calm.pure _) _
  constructor
  · change Calm _
    unfold stabilityLimit
    split_ifs
    · exact hl _
    · exact hl _
    · exact Calm.pure _
  · change Calm _
    unfold stabilityRegion
    refine Calm.bind ?_ fun S => ?_
    · unfold regionMatrix
      refine Calm.bind ?_ fun S => ?_
      · split_ifs
        · exact (calm_region _ _ _ _).bind fun _ => Calm.pure _
        · exact Calm.pure _
      · split_ifs
        · exact (calm_region _ _ _ _).bind fun _ => Calm.pure _
        · exact Calm.pure _
    · cases S with
      | none => exact Or.inl rfl
      | some S => exact Calm.pure _

end Verif
