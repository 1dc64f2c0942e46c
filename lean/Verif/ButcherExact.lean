import Verif.Butcher

/-!
# Butcher's theorem, part two: expansion of the exact solution and the local error
-/

namespace Verif
open Spec Asymptotics Filter Set

variable {E : Type} [NormedAddCommGroup E] [NormedSpace ℝ E] {f : E → E}

/-- `1/γ` -/
noncomputable def invDensity (t : RTree) : ℝ := ((t.density : ℕ) : ℝ)⁻¹

theorem order_eq_one {t : RTree} (h : t.order = 1) : t = .node [] := by
  obtain ⟨ts⟩ := t
  cases ts with
  | nil => rfl
  | cons u us =>
    have := order_pos u
    rw [RTree.order, RTree.orderList] at h
    omega

theorem eld_leaf (f : E → E) (y : E) : eld f y (.node []) = f y := by
  have := eld_ofFn f y (m := 0) (fun k => k.elim0)
  simpa using this

/-- at step zero only the single node contributes -/
theorem ser_zero (f : E → E) (φ : RTree → ℝ) (q : ℕ) (y : E) : ser f φ (q + 1) y 0 = φ (.node []) • f y := by
  rw [ser, Finset.sum_eq_single (RTree.node [])]
  · simp [RTree.order, RTree.orderList, eld_leaf]
  · intro t _ ht
    have h1 : t.order ≠ 1 := fun h => ht (order_eq_one h)
    have h2 := order_pos t
    rw [zero_pow (by omega), zero_mul, zero_smul]
  · intro h
    exact absurd (mem_trees.mpr (by simp [RTree.order, RTree.orderList])) h

/-- `h · Σ h^(|τ|-1) φ(τ) F(τ)`, differentiated with respect to `h` -/
theorem hasDerivAt_ser (f : E → E) (φ : RTree → ℝ) (q : ℕ) (y : E) (s : ℝ) :
    HasDerivAt (fun s => s • ser f φ q y s) (ser f (fun t => t.order * φ t) q y s) s := by
  have e : (fun s => s • ser f φ q y s) = fun s => ∑ t ∈ trees q, (s ^ t.order * φ t) • eld f y t := by
    funext s
    rw [ser, Finset.smul_sum]
    apply Finset.sum_congr rfl
    intro t _
    rw [smul_smul, ← mul_assoc, ← pow_succ', Nat.sub_add_cancel (order_pos t)]
  rw [e, ser]
  apply HasDerivAt.fun_sum
  intro t _
  have := ((hasDerivAt_pow t.order s).mul_const (φ t)).smul_const (eld f y t)
  convert this using 2
  ring

/-- times and steps inside the interval of integration -/
def stepDom (t0 t1 : ℝ) : Set (ℝ × ℝ) := {p | t0 ≤ p.1 ∧ 0 ≤ p.2 ∧ p.2 ≤ 1 ∧ p.1 + p.2 ≤ t1}

/-- the same with positive steps -/
def stepDomPos (t0 t1 : ℝ) : Set (ℝ × ℝ) := {p | t0 ≤ p.1 ∧ 0 < p.2 ∧ p.2 ≤ 1 ∧ p.1 + p.2 ≤ t1}

/-- mean value inequality along a solution minus a smooth curve -/
theorem solution_sub_le {u : ℝ → E} {t0 t1 : ℝ}
    (hu : ∀ t ∈ Icc t0 t1, HasDerivWithinAt u (f (u t)) (Icc t0 t1) t) {g g' : ℝ → E} {C t h : ℝ}
    (hg : ∀ s, HasDerivAt g (g' s) s) (ht : t0 ≤ t) (hh : 0 ≤ h) (hth : t + h ≤ t1)
    (hb : ∀ s, 0 ≤ s → s < h → ‖f (u (t + s)) - g' s‖ ≤ C) : ‖u (t + h) - u t - (g h - g 0)‖ ≤ C * h := by
  have hd : ∀ s ∈ Icc 0 h, HasDerivWithinAt (fun s => u (t + s) - g s) (f (u (t + s)) - g' s) (Icc 0 h) s := by
    intro s hs
    have h1 : HasDerivWithinAt (fun s => u (t + s)) ((1 : ℝ) • f (u (t + s))) (Icc 0 h) s := by
      apply HasDerivWithinAt.scomp (t' := Icc t0 t1) s (hu (t + s) ⟨by linarith [hs.1], by linarith [hs.2]⟩)
      · exact ((hasDerivAt_id s).const_add t).hasDerivWithinAt
      · intro r hr
        exact ⟨by linarith [hr.1], by linarith [hr.2]⟩
    rw [one_smul] at h1
    exact h1.sub (hg s).hasDerivWithinAt
  have := norm_image_sub_le_of_norm_deriv_le_segment' hd (fun s hs => hb s hs.1 hs.2) h ⟨hh, le_refl _⟩
  simp only [add_zero, sub_zero] at this
  refine le_of_eq_of_le ?_ this
  congr 1
  abel

variable [FiniteDimensional ℝ E]

omit [NormedSpace ℝ E] [FiniteDimensional ℝ E] in
theorem solution_bounded {u : ℝ → E} {t0 t1 : ℝ} (hu : ContinuousOn u (Icc t0 t1)) :
    ∃ R, 0 ≤ R ∧ ∀ t ∈ Icc t0 t1, ‖u t‖ ≤ R := by
  obtain ⟨R, hR⟩ := isCompact_Icc.exists_bound_of_continuousOn hu
  exact ⟨max R 0, le_max_right _ _, fun t ht => (hR t ht).trans (le_max_left _ _)⟩

/-- **expansion of the exact solution**, uniformly in time and step -/
theorem exact_expand {n : ℕ} (hf : ContDiff ℝ n f) {u : ℝ → E} {t0 t1 : ℝ}
    (hu : ∀ t ∈ Icc t0 t1, HasDerivWithinAt u (f (u t)) (Icc t0 t1) t) : ∀ q ≤ n,
    (fun p : ℝ × ℝ => u (p.1 + p.2) - u p.1 - p.2 • ser f invDensity q (u p.1) p.2) =O[𝓟 (stepDom t0 t1)] fun p => p.2 ^ (q + 1) := by
  have hcu : ContinuousOn u (Icc t0 t1) := fun t ht => (hu t ht).continuousWithinAt
  obtain ⟨R, hR, hub⟩ := solution_bounded hcu
  obtain ⟨M, hM, hfb⟩ := bounded_deriv hf (Nat.zero_le n) R
  have hfu : ∀ t ∈ Icc t0 t1, ‖f (u t)‖ ≤ M := fun t ht => by simpa using hfb _ (hub t ht)
  have base : ∀ t h, t0 ≤ t → 0 ≤ h → t + h ≤ t1 → ‖u (t + h) - u t‖ ≤ M * h := by
    intro t h ht hh hth
    have := solution_sub_le (g := fun _ => (0 : E)) (g' := fun _ => 0) (C := M) hu (fun s => hasDerivAt_const s _) ht hh hth
      (fun s hs hsh => by rw [sub_zero]; exact hfu _ ⟨by linarith, by linarith⟩)
    simpa using this
  have hh : ∀ᶠ p : ℝ × ℝ in 𝓟 (stepDomPos t0 t1), 0 ≤ p.2 ∧ p.2 ≤ 1 := by
    rw [eventually_principal]
    exact fun p hp => ⟨hp.2.1.le, hp.2.2.1⟩
  have hy : (fun p : ℝ × ℝ => u p.1) =O[𝓟 (stepDomPos t0 t1)] fun _ => (1 : ℝ) := by
    apply isBigO_one_of_bound (R := R)
    rw [eventually_principal]
    exact fun p hp => hub _ ⟨hp.1, by linarith [hp.2.1, hp.2.2.2]⟩
  have hV : (fun p : ℝ × ℝ => p.2⁻¹ • (u (p.1 + p.2) - u p.1)) =O[𝓟 (stepDomPos t0 t1)] fun _ => (1 : ℝ) := by
    apply isBigO_one_of_bound (R := M)
    rw [eventually_principal]
    intro p hp
    rw [norm_smul, norm_inv, Real.norm_of_nonneg hp.2.1.le, inv_mul_le_iff₀ hp.2.1, mul_comm]
    exact base _ _ hp.1 hp.2.1.le hp.2.2.2
  intro q
  induction q with
  | zero =>
    intro _
    rw [isBigO_principal]
    refine ⟨M, fun p hp => ?_⟩
    rw [ser, trees_zero, Finset.sum_empty, smul_zero, sub_zero, zero_add, pow_one, Real.norm_of_nonneg hp.2.1]
    exact base _ _ hp.1 hp.2.1 hp.2.2.2
  | succ q ih =>
    intro hq
    have ih := ih (by omega)
    rw [isBigO_principal] at ih
    obtain ⟨c, hc⟩ := ih
    have hs : (fun p : ℝ × ℝ => p.2⁻¹ • (u (p.1 + p.2) - u p.1) - ser f invDensity q (u p.1) p.2) =O[𝓟 (stepDomPos t0 t1)]
        fun p => p.2 ^ q := by
      rw [isBigO_principal]
      refine ⟨c, fun p hp => ?_⟩
      have := hc p ⟨hp.1, hp.2.1.le, hp.2.2⟩
      have e : p.2⁻¹ • (u (p.1 + p.2) - u p.1) - ser f invDensity q (u p.1) p.2 =
          p.2⁻¹ • (u (p.1 + p.2) - u p.1 - p.2 • ser f invDensity q (u p.1) p.2) := by
        rw [smul_sub p.2⁻¹ _ (p.2 • _), smul_smul, inv_mul_cancel₀ hp.2.1.ne', one_smul]
      rw [e, norm_smul, norm_inv, Real.norm_of_nonneg hp.2.1.le, inv_mul_le_iff₀ hp.2.1]
      refine this.trans (le_of_eq ?_)
      rw [norm_pow, norm_pow, Real.norm_of_nonneg hp.2.1.le]
      ring
    have hex := ser_expand (hf.of_le (by exact_mod_cast hq)) hh hy hV hs
    rw [isBigO_principal] at hex ⊢
    obtain ⟨C, hC⟩ := hex
    refine ⟨max C 0, fun p hp => ?_⟩
    obtain ⟨t, h⟩ := p
    obtain ⟨ht, h0, h1, hth⟩ := hp
    simp only at ht h0 h1 hth ⊢
    have hb : ∀ s, 0 ≤ s → s < h → ‖f (u (t + s)) - ser f (fun t => t.order * invDensity t) (q + 1) (u t) s‖ ≤ max C 0 * h ^ (q + 1) := by
      intro s hs hsh
      have e : ser f (fun t => t.order * invDensity t) (q + 1) (u t) s = ser f (childProd invDensity) (q + 1) (u t) s :=
        ser_congr (fun t _ => (density_childProd t).symm) _ _
      rw [e]
      rcases hs.eq_or_lt with rfl | hpos
      · rw [ser_zero, add_zero, childProd, List.map_nil, List.prod_nil, one_smul, sub_self, norm_zero]
        exact mul_nonneg (le_max_right _ _) (pow_nonneg h0 _)
      · have := hC (t, s) ⟨ht, hpos, by linarith, by linarith⟩
        simp only [smul_smul, mul_inv_cancel₀ hpos.ne', one_smul, add_sub_cancel] at this
        refine this.trans ?_
        rw [Real.norm_of_nonneg (pow_nonneg hs _)]
        exact mul_le_mul (le_max_left _ _) (pow_le_pow_left₀ hs hsh.le _) (pow_nonneg hs _) (le_max_right _ _)
    have := solution_sub_le hu (hasDerivAt_ser f invDensity (q + 1) (u t)) ht h0 hth hb
    simp only [zero_smul, sub_zero] at this
    rw [Real.norm_of_nonneg (pow_nonneg h0 _), pow_succ, ← mul_assoc]
    exact this

/-- **Butcher's theorem**: if the order conditions hold for all trees with at most `p` nodes, then the local error of every step with
bounded stages is `O(h^(p+1))`, uniformly along any filter of times, steps and stages. -/
theorem local_error {p s : ℕ} (hf : ContDiff ℝ p f) {u : ℝ → E} {t0 t1 : ℝ}
    (hu : ∀ t ∈ Icc t0 t1, HasDerivWithinAt u (f (u t)) (Icc t0 t1) t) {A : Fin s → Fin s → ℝ} {b : Fin s → ℝ} (ho : HasOrder A b p)
    {X : Type} {l : Filter X} {t h : X → ℝ} {K : X → Fin s → E} (hD : ∀ᶠ x in l, (t x, h x) ∈ stepDom t0 t1)
    (hK : ∀ i, (fun x => K x i) =O[l] fun _ => (1 : ℝ))
    (hst : ∀ᶠ x in l, ∀ i, K x i = f (u (t x) + h x • ∑ j, A i j • K x j)) :
    (fun x => u (t x) + h x • (∑ i, b i • K x i) - u (t x + h x)) =O[l] fun x => h x ^ (p + 1) := by
  have hcu : ContinuousOn u (Icc t0 t1) := fun t ht => (hu t ht).continuousWithinAt
  obtain ⟨R, hR, hub⟩ := solution_bounded hcu
  have hh : ∀ᶠ x in l, 0 ≤ h x ∧ h x ≤ 1 := hD.mono fun x hx => ⟨hx.2.1, hx.2.2.1⟩
  have hy : (fun x => u (t x)) =O[l] fun _ => (1 : ℝ) :=
    isBigO_one_of_bound (R := R) (hD.mono fun x hx => hub _ ⟨hx.1, by linarith [hx.2.1, hx.2.2.2]⟩)
  have h1 := stages_expand hf hh hy A hK hst p (le_refl p)
  have h2 : (fun x => h x • ((∑ i, b i • K x i) - ser f invDensity p (u (t x)) (h x))) =O[l] fun x => h x ^ (p + 1) := by
    have h3 : (fun x => (∑ i, b i • K x i) - ser f invDensity p (u (t x)) (h x)) =O[l] fun x => h x ^ p := by
      have e : ∀ x, ser f invDensity p (u (t x)) (h x) = ∑ i, b i • ser f (fun t => t.weight A i) p (u (t x)) (h x) := by
        intro x
        rw [← ser_lin]
        exact ser_congr (fun τ hτ => by rw [ho τ hτ, invDensity, one_div]) _ _
      simp only [e, ← Finset.sum_sub_distrib, ← smul_sub]
      exact isBigO_fun_sum fun i _ => (h1 i).const_smul_left (b i)
    have := (isBigO_refl h l).smul h3
    refine this.congr_right fun x => ?_
    rw [smul_eq_mul, pow_succ']
  have h4 := (exact_expand hf hu p (le_refl p)).comp_tendsto (tendsto_principal.mpr hD)
  refine (h2.sub h4).congr_left fun x => ?_
  simp only [Function.comp_apply, smul_sub]
  abel

end Verif
