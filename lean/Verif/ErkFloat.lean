import Verif.FloatArith

/-!
# The explicit integrator in arithmetic with rounding errors: one step, and the loop
-/

set_option autoImplicit false

namespace Verif
open Spec Set

/-! ### preparations in exact arithmetic -/

theorem list_bound (l : List ℝ) : ∃ α, 0 ≤ α ∧ ∀ i, |l.getD i 0| ≤ α := by
  induction l with
  | nil => exact ⟨0, le_rfl, fun i => by simp⟩
  | cons x l ih =>
    obtain ⟨α, h0, h⟩ := ih
    refine ⟨max α |x|, le_max_of_le_left h0, fun i => ?_⟩
    cases i with
    | zero => simp
    | succ i => simpa using Or.inl (h i)

theorem rows_bound (l : List (List ℝ)) : ∃ α, 0 ≤ α ∧ ∀ i j, |(l.getD i []).getD j 0| ≤ α := by
  induction l with
  | nil => exact ⟨0, le_rfl, fun i j => by simp⟩
  | cons x l ih =>
    obtain ⟨α, h0, h⟩ := ih
    obtain ⟨β, h1, h2⟩ := list_bound x
    refine ⟨max α β, le_max_of_le_left h0, fun i j => ?_⟩
    cases i with
    | zero => exact (h2 j).trans (le_max_right _ _)
    | succ i => exact (h i j).trans (le_max_left _ _)

theorem tableau_bound (sr : SolverCoeffs ℝ) : ∃ α, 1 ≤ α ∧ (∀ i j, |sr.a i j| ≤ α) ∧ (∀ i, |sr.bw i| ≤ α) ∧ ∀ i, |sr.cn i| ≤ α := by
  obtain ⟨x, -, hx⟩ := rows_bound sr.A
  obtain ⟨y, -, hy⟩ := list_bound sr.b
  obtain ⟨z, -, hz⟩ := list_bound sr.c
  refine ⟨max 1 (max x (max y z)), le_max_left _ _, ?_, ?_, ?_⟩
  · intro i j
    have := hx i j
    simp only [SolverCoeffs.a, lit_real, Rat.cast_zero]
    exact this.trans ((le_max_left _ _).trans (le_max_right _ _))
  · intro i
    have := hy i
    simp only [SolverCoeffs.bw, lit_real, Rat.cast_zero]
    exact this.trans ((le_max_left _ _).trans ((le_max_right _ _).trans (le_max_right _ _)))
  · intro i
    have := hz i
    simp only [SolverCoeffs.cn, lit_real, Rat.cast_zero]
    exact this.trans ((le_max_right _ _).trans ((le_max_right _ _).trans (le_max_right _ _)))

section
variable {n : ℕ} {f : ℝ → Vec ℝ n → Vec ℝ n} {sr : SolverCoeffs ℝ}

/-- the stages of an explicit step exist -/
theorem exists_stages (f : ℝ → Vec ℝ n → Vec ℝ n) (sr : SolverCoeffs ℝ) (T H : ℝ) (Y : Vec ℝ n) :
    ∃ kr : ℕ → Vec ℝ n, ∀ i < sr.ns, kr i = f (T + sr.cn i * H) (stageArg sr H Y kr i) := by
  obtain ⟨K, L, -, -, -, -, h⟩ := stageLoop_spec f sr T H Y 0 (fun _ _ => 0)
    { status := 0, tVals := [], yVals := [], stages := [], errEst := [], err := [], acceptFrac := none, attempt := 0, rejectErr := 0,
      funEvals := 0, calls := [], file := [] }
  exact ⟨K, fun i hi => h i (Nat.zero_le _) hi⟩

/-- they form a step of the method -/
theorem stages_isRKStep (hex : Explicit sr) {T H : ℝ} {Y : Vec ℝ n} {kr : ℕ → Vec ℝ n}
    (h : ∀ i < sr.ns, kr i = f (T + sr.cn i * H) (stageArg sr H Y kr i)) :
    IsRKStep (fun i j : Fin sr.ns => sr.a i j) (fun i => sr.bw i) (fun i => sr.cn i) f T H Y
      (fun k => Y k + H * combine sr kr sr.bw k) (fun i => kr i) := by
  constructor
  · intro i
    beta_reduce
    rw [h i i.2]
    congr 1
    rw [stageArg_real]
    funext k
    simp only [Pi.add_apply, Pi.smul_apply, Finset.sum_apply, smul_eq_mul]
    congr 1
    rw [Finset.mul_sum, Fin.sum_univ_eq_sum_range (fun j => H * (sr.a i j * kr j k)) sr.ns]
    rw [← Finset.sum_subset (Finset.range_mono i.2.le : Finset.range i.1 ⊆ Finset.range sr.ns)]
    · exact Finset.sum_congr rfl fun j _ => by ring
    · intro j hj hji
      simp only [Finset.mem_range] at hj hji
      rw [hex i j i.2 hj (by omega)]; ring
  · funext k
    simp only [Pi.add_apply, Pi.smul_apply, Finset.sum_apply, smul_eq_mul]
    rw [combine_real, Fin.sum_univ_eq_sum_range (fun j => sr.bw j * kr j k) sr.ns]
    congr 2
    exact Finset.sum_congr rfl fun j _ => by ring

/-- the last stage of a first-same-as-last method is taken at the new point -/
theorem fsal_row (hfs : FsalOK sr) (hex : Explicit sr) (H : ℝ) (Y : Vec ℝ n) (kr : ℕ → Vec ℝ n) (k : Fin n) :
    stageArg sr H Y kr (sr.ns - 1) k = Y k + H * combine sr kr sr.bw k := by
  obtain ⟨two, c0, cl, row⟩ := hfs
  rw [stageArg_real, combine_real]
  dsimp only
  congr 1
  obtain ⟨w, hw⟩ : ∃ w, sr.ns = w + 1 := ⟨sr.ns - 1, by omega⟩
  have hz : sr.bw w = 0 := by
    have h1 := row w (by omega)
    have h2 := hex (sr.ns - 1) w (by omega) (by omega) (by omega)
    rw [← h1, h2]
  have e : sr.ns - 1 = w := by omega
  rw [e, hw, Finset.sum_range_succ, hz, mul_zero, add_zero, Finset.mul_sum]
  refine Finset.sum_congr rfl fun j hj => ?_
  have hj' : j < w := Finset.mem_range.mp hj
  have := row j (by omega)
  rw [e] at this
  rw [this]; ring

theorem sum_bound {s i : ℕ} (hi : i ≤ s) {w z : ℕ → ℝ} {α M H : ℝ} (hα : 0 ≤ α) (hM : 0 ≤ M) (hH : 0 ≤ H) (hw : ∀ j, |w j| ≤ α)
    (hz : ∀ j < s, |z j| ≤ M) : |∑ j ∈ Finset.range i, H * (w j * z j)| ≤ H * (s * (α * M)) := by
  refine (Finset.abs_sum_le_sum_abs _ _).trans ?_
  calc ∑ j ∈ Finset.range i, |H * (w j * z j)| ≤ ∑ j ∈ Finset.range i, H * (α * M) := by
        refine Finset.sum_le_sum fun j hj => ?_
        rw [abs_mul, abs_mul, abs_of_nonneg hH]
        have hj' : j < s := lt_of_lt_of_le (Finset.mem_range.mp hj) hi
        exact mul_le_mul_of_nonneg_left (mul_le_mul (hw j) (hz j hj') (abs_nonneg _) hα) hH
    _ = i * (H * (α * M)) := by simp
    _ ≤ s * (H * (α * M)) := mul_le_mul_of_nonneg_right (by exact_mod_cast hi) (by positivity)
    _ = _ := by ring

theorem stageArg_bound {s i : ℕ} (hi : i ≤ s) {α M H : ℝ} (hα : 0 ≤ α) (hM : 0 ≤ M) (hH : 0 ≤ H) (ha : ∀ i j, |sr.a i j| ≤ α)
    {kr : ℕ → Vec ℝ n} (hk : ∀ j < s, ∀ k, |kr j k| ≤ M) (Y : Vec ℝ n) (k : Fin n) :
    |stageArg sr H Y kr i k - Y k| ≤ H * (s * (α * M)) := by
  rw [stageArg_real]
  dsimp only
  rw [add_sub_cancel_left]
  have := sum_bound hi (w := fun j => sr.a i j) (z := fun j => kr j k) hα hM hH (ha i) (fun j hj => hk j hj k)
  convert this using 3
  ring

theorem combine_bound {s : ℕ} (hs : sr.ns = s) {α M H : ℝ} (hα : 0 ≤ α) (hM : 0 ≤ M) (hH : 0 ≤ H) (hb : ∀ i, |sr.bw i| ≤ α)
    {kr : ℕ → Vec ℝ n} (hk : ∀ j < s, ∀ k, |kr j k| ≤ M) (Y : Vec ℝ n) (k : Fin n) :
    |Y k + H * combine sr kr sr.bw k - Y k| ≤ H * (s * (α * M)) := by
  rw [add_sub_cancel_left, combine_real, hs, Finset.mul_sum]
  have := sum_bound le_rfl (w := fun j => sr.bw j) (z := fun j => kr j k) hα hM hH hb (fun j hj => hk j hj k)
  convert this using 3
  ring

end

/-- a solution with continuous right-hand side is Lipschitz on a compact interval -/
theorem solution_lipschitz {n : ℕ} {f : ℝ → Vec ℝ n → Vec ℝ n} (hf : Continuous fun q : ℝ × (Fin n → ℝ) => f q.1 q.2)
    {U : ℝ → Fin n → ℝ} {a b : ℝ} (hU : ∀ t ∈ Icc a b, HasDerivWithinAt U (f t (U t)) (Icc a b) t) :
    ∃ V, 0 ≤ V ∧ ∀ t ∈ Icc a b, ∀ t' ∈ Icc a b, ‖U t - U t'‖ ≤ V * |t - t'| := by
  have hcu : ContinuousOn U (Icc a b) := fun t ht => (hU t ht).continuousWithinAt
  have hc : ContinuousOn (fun t => f t (U t)) (Icc a b) := hf.comp_continuousOn (continuousOn_id.prodMk hcu)
  obtain ⟨V, hV⟩ := isCompact_Icc.exists_bound_of_continuousOn hc
  refine ⟨max V 0, le_max_right _ _, fun t ht t' ht' => ?_⟩
  have := (convex_Icc a b).norm_image_sub_le_of_norm_hasDerivWithin_le hU (fun x hx => (hV x hx).trans (le_max_left V 0)) ht' ht
  simpa using this

/-! ### one step -/

section
variable {F : Type} [Add F] [Sub F] [Mul F] [Div F] [Neg F] [Scalar F] {u B : ℝ} {n : ℕ}

/-- the values of a vector -/
def FloatArith.vec (A : FloatArith F u B) (y : Vec F n) : Vec ℝ n := fun k => A.val (y k)

/-- The computed right-hand side `fF` is finite and within `ε` of `f` at all representable points with time in `[a, b]` and value within two
of the solution `U`. -/
def RhsAccurate (A : FloatArith F u B) (f : ℝ → Vec ℝ n → Vec ℝ n) (U : ℝ → Vec ℝ n) (a b ε : ℝ) (fF : F → Vec F n → Vec F n) : Prop :=
  ∀ (t : F) (y : Vec F n), isFin t = true → (∀ k, isFin (y k) = true) → a ≤ A.val t → A.val t ≤ b → ‖A.vec y - U (A.val t)‖ ≤ 2 →
    ∀ k, isFin (fF t y k) = true ∧ |A.val (fF t y k) - f (A.val t) (A.vec y) k| ≤ ε

/-- the constants of the analysis of a step and the conditions on the step size `H` and the errors -/
structure StepConsts (f : ℝ → Vec ℝ n → Vec ℝ n) (U : ℝ → Vec ℝ n) (sr : SolverCoeffs ℝ) (a b δ u ε H R V α M G L Q P g0 g η : ℝ) (s : ℕ) : Prop where
  hs : sr.ns = s
  hα1 : 1 ≤ α
  hαa : ∀ i j, |sr.a i j| ≤ α
  hαb : ∀ i, |sr.bw i| ≤ α
  hαc : ∀ i, |sr.cn i| ≤ α
  hR : 0 ≤ R
  hub : ∀ t ∈ Icc a b, ‖U t‖ ≤ R
  hV : 0 ≤ V
  hUl : ∀ t ∈ Icc a b, ∀ t' ∈ Icc a b, ‖U t - U t'‖ ≤ V * |t - t'|
  hM : 0 ≤ M
  hG : G = 4 + (R + 1) + s * (α * M) + α + M + (|a| + |b|)
  hL : 0 ≤ L
  hlip : ∀ z ∈ Metric.closedBall (0 : ℝ × (Fin n → ℝ)) (R + 2 + (|a| + |b|)), ∀ w ∈ Metric.closedBall (0 : ℝ × (Fin n → ℝ)) (R + 2 + (|a| + |b|)),
    ‖autonomize f z - autonomize f w‖ ≤ L * ‖z - w‖
  hQ : Q = 1 + L * (18 * s * big G ^ 3 + 7 * big G ^ 2)
  hP : P = 9 * s * big G ^ 3 + 4 * (s + 3) * big G ^ 2
  hg0 : g0 = 2 * (1 + L * (14 * big G ^ 2 + 9 * s * big G ^ 3 + 4 * (s + 3) * big G ^ 2))
  hg : g = g0 * Q ^ s
  hη0 : 0 < η
  hη1 : η ≤ δ / 2
  hη2 : (V + 1) * η ≤ 1 / 8
  hu : 0 ≤ u
  hε : 0 ≤ ε
  hd0 : 0 ≤ H
  hH2 : H ≤ 1
  hH3 : H * (2 * (L * P * Q ^ s)) ≤ 1
  hH4 : α * H ≤ η
  hH5 : H * (s * (α * M)) ≤ 1 / 8
  hν1 : 2 * (P + 7 * big G ^ 2) * g * (u + ε) ≤ η
  hν2 : 20 * (s + 1) * big G ^ 3 * g * (u + ε) ≤ 1

section
variable {f : ℝ → Vec ℝ n → Vec ℝ n} {U : ℝ → Vec ℝ n} {sr : SolverCoeffs ℝ} {a b δ ε H R V α M G L Q P g0 g η : ℝ} {s : ℕ}

theorem StepConsts.basic (c : StepConsts f U sr a b δ u ε H R V α M G L Q P g0 g η s) :
    1 ≤ G ∧ 1 ≤ big G ∧ 0 < P ∧ 1 ≤ Q ∧ 1 ≤ g0 ∧ 1 ≤ g ∧ u + ε ≤ g * (u + ε) ∧ H * (g * (u + ε)) ≤ g * (u + ε) ∧
      7 * big G ^ 2 * u + P * (u + H * (g * (u + ε))) ≤ η := by
  obtain ⟨hs, hα1, -, -, -, hR, -, hV, -, hM, hG, hL, -, hQ, hP, hg0, hg, hη0, -, -, hu, hε, hd0, hH2, -, -, -, hν1, -⟩ := c
  have hsαM : 0 ≤ (s : ℝ) * (α * M) := by have : 0 ≤ α := by linarith
                                          positivity
  have hG1 : 1 ≤ G := by rw [hG]; linarith [abs_nonneg a, abs_nonneg b]
  have Γ1 := (big_facts hG1).1
  have hP0 : 0 < P := by rw [hP]; positivity
  have hQ1 : 1 ≤ Q := by
    have : 0 ≤ L * (18 * s * big G ^ 3 + 7 * big G ^ 2) := by positivity
    linarith
  have hg01 : 1 ≤ g0 := by
    have : 0 ≤ L * (14 * big G ^ 2 + 9 * s * big G ^ 3 + 4 * (s + 3) * big G ^ 2) := by positivity
    linarith
  have hg1 : 1 ≤ g := by have := one_le_pow₀ (n := s) hQ1; rw [hg]; nlinarith
  have hgν : u + ε ≤ g * (u + ε) := le_mul_of_one_le_left (by linarith) hg1
  have hHg : H * (g * (u + ε)) ≤ g * (u + ε) := mul_le_of_le_one_left (by positivity) hH2
  refine ⟨hG1, Γ1, hP0, hQ1, hg01, hg1, hgν, hHg, ?_⟩
  have e1 : 7 * big G ^ 2 * u ≤ 7 * big G ^ 2 * (g * (u + ε)) := mul_le_mul_of_nonneg_left (by linarith) (by positivity)
  have e2 : P * (u + H * (g * (u + ε))) ≤ P * (2 * (g * (u + ε))) := mul_le_mul_of_nonneg_left (by linarith) hP0.le
  have e3 : 0 ≤ 7 * big G ^ 2 * (g * (u + ε)) := by positivity
  linarith

/-- points near the step lie in the domain -/
theorem StepConsts.dom (c : StepConsts f U sr a b δ u ε H R V α M G L Q P g0 g η s) {T : ℝ} {Y : Vec ℝ n} (hta : a + δ ≤ T) (htb : T ≤ b - δ)
    (hyU : ‖Y - U T‖ ≤ 1) (t' : ℝ) (y' : Vec ℝ n) (b1 : |t' - T| ≤ α * H + η) (b2 : ∀ k, |y' k - Y k| ≤ H * (s * (α * M)) + η) :
    t' ∈ Icc a b ∧ ‖y' - U t'‖ ≤ 2 := by
  obtain ⟨hs, hα1, -, -, -, hR, -, hV, hUl, hM, hG, hL, -, hQ, hP, hg0, hg, hη0, hη1, hη2, hu, hε, hd0, hH2, -, hH4, hH5, hν1, -⟩ := c
  have hα0 : 0 ≤ α := by linarith
  have b3 := abs_le.mp b1
  have hTm : T ∈ Icc a b := ⟨by linarith, by linarith⟩
  have hm' : t' ∈ Icc a b := ⟨by linarith, by linarith⟩
  refine ⟨hm', ?_⟩
  have b4 : ‖y' - Y‖ ≤ H * (s * (α * M)) + η := (pi_norm_le_iff_of_nonneg (by positivity)).mpr fun k => b2 k
  have b5 := hUl T hTm t' hm'
  rw [abs_sub_comm] at b5
  have b6 : V * |t' - T| ≤ V * (2 * η) := mul_le_mul_of_nonneg_left (by linarith) hV
  have e : y' - U t' = (y' - Y) + ((Y - U T) + (U T - U t')) := by abel
  rw [e]
  have n1 := norm_add_le (y' - Y) ((Y - U T) + (U T - U t'))
  have n2 := norm_add_le (Y - U T) (U T - U t')
  linarith

theorem StepConsts.rhs (c : StepConsts f U sr a b δ u ε H R V α M G L Q P g0 g η s) {A : FloatArith F u B} {fF : F → Vec F n → Vec F n}
    (hacc : RhsAccurate A f U a b ε fF) : RhsBounds A f fF (fun t' y' => t' ∈ Icc a b ∧ ‖y' - U t'‖ ≤ 2) L ε where
  L0 := c.hL
  lip := by
    rintro t' t'' y' y'' e ⟨d1, d2⟩ ⟨d3, d4⟩ b1 b2 k
    have hball : ∀ (t' : ℝ) (y' : Vec ℝ n), t' ∈ Icc a b → ‖y' - U t'‖ ≤ 2 → (t', y') ∈ Metric.closedBall (0 : ℝ × (Fin n → ℝ)) (R + 2 + (|a| + |b|)) := by
      intro t' y' d1 d2
      rw [mem_closedBall_zero_iff, Prod.norm_def]
      have n1 := norm_add_le (y' - U t') (U t')
      rw [sub_add_cancel] at n1
      refine max_le ?_ (by dsimp only; linarith [c.hub t' d1, abs_nonneg a, abs_nonneg b])
      dsimp only
      rw [Real.norm_eq_abs]
      have := c.hR
      exact abs_le.mpr ⟨by linarith [neg_abs_le a, d1.1, abs_nonneg b], by linarith [le_abs_self b, d1.2, abs_nonneg a]⟩
    have he : 0 ≤ e := (abs_nonneg _).trans b1
    have := c.hlip _ (hball t' y' d1 d2) _ (hball t'' y'' d3 d4)
    refine (norm_le_pi_norm (f t' y' - f t'' y'') k).trans ((norm_snd_le (autonomize f (t', y') - autonomize f (t'', y''))).trans
      (this.trans (mul_le_mul_of_nonneg_left ?_ c.hL)))
    rw [Prod.norm_def]
    exact max_le b1 ((pi_norm_le_iff_of_nonneg he).mpr b2)
  acc := fun t' y' c1 c2 d k => hacc t' y' c1 c2 d.1.1 d.1.2 d.2 k

/-- what is shown of a step -/
theorem step_core (c : StepConsts f U sr a b δ u ε H R V α M G L Q P g0 g η s) (hex : Explicit sr) (hfs : sr.fsal = true → FsalOK sr)
    {A : FloatArith F u B} {fF : F → Vec F n → Vec F n} (hacc : RhsAccurate A f U a b ε fF) {sc : SolverCoeffs F} (hnt : NearTableau A sc sr)
    (hB : big G ≤ B) {t dt : F} {y : Vec F n} {kr : ℕ → Vec ℝ n} {K : ℕ → Vec F n} (ht : isFin t = true) (hdt : isFin dt = true)
    (hy : ∀ k, isFin (y k) = true) (hH : A.val dt = H) (hta : a + δ ≤ A.val t) (htb : A.val t ≤ b - δ) (hyU : ‖A.vec y - U (A.val t)‖ ≤ 1)
    (hK : ∀ i, stageStart sc ≤ i → i < sc.ns → K i = fF (t + sc.cn i * dt) (stageArg sc dt y K i))
    (hK0 : sc.fsal = true → ∀ k, Near A (K 0 k) (f (A.val t) (A.vec y) k) (g0 * (u + ε)))
    (hkr : ∀ i < sr.ns, kr i = f (A.val t + sr.cn i * H) (stageArg sr H (A.vec y) kr i)) (hkM : ∀ j < s, ∀ k, |kr j k| ≤ M)
    {yn : Vec F n} (hyn : yn = fun k => y k + dt * combine sc K sc.bw k) :
    Near A (t + dt) (A.val t + H) (7 * big G ^ 2 * u) ∧
    (∀ k, Near A (yn k) (A.vec y k + H * combine sr kr sr.bw k) ((s + 3) * (4 * big G ^ 2 * (u + H * (g * (u + ε)))))) ∧
    (sc.fsal = true → ∀ k, Near A (K (sc.ns - 1) k) (f (A.val (t + dt)) (A.vec yn) k) (g0 * (u + ε))) := by
  obtain ⟨hG1, Γ1, hP0, hQ1, hg01, hg1, hgν, hHg, hd1⟩ := c.basic
  have hdomY := c.dom hta htb hyU
  have hr := c.rhs hacc
  obtain ⟨hs, hα1, hαa, hαb, hαc, hR, hub, hV, hUl, hM, hG, hL, -, hQ, hP, hg0, hg, hη0, hη1, hη2, hu, hε, hd0, hH2, hH3, hH4, hH5, hν1, hν2⟩ := c
  have hα0 : 0 ≤ α := by linarith
  have hδ : 0 < δ := by linarith
  have hns : sc.ns = s := hnt.ns.trans hs
  have hsαM : 0 ≤ (s : ℝ) * (α * M) := by positivity
  have hTm : A.val t ∈ Icc a b := ⟨by linarith, by linarith⟩
  have hTG : |A.val t| ≤ G := by
    have : |A.val t| ≤ |a| + |b| := abs_le.mpr ⟨by linarith [neg_abs_le a, hTm.1, abs_nonneg b], by linarith [le_abs_self b, hTm.2, abs_nonneg a]⟩
    rw [hG]; linarith
  have hYn : ‖A.vec y‖ ≤ R + 1 := by
    have := norm_add_le (A.vec y - U (A.val t)) (U (A.val t))
    rw [sub_add_cancel] at this
    linarith [hub _ hTm]
  have hB0 : 0 ≤ B := by linarith
  have hsb : StepBounds A sc sr s G ε (g0 * Q ^ s) H (R + 1) M α dt y (A.vec y) kr := {
    G1 := hG1, hB := hB, u0 := hu, ε0 := hε, g1 := hg ▸ hg1, H0 := hd0, H1 := hH2
    hdt := by rw [← hH]; exact (Near.self hdt).mono (by positivity)
    small := hg ▸ hν2
    ha := hnt.a hB0, hb := hnt.bw hB0, hc := hnt.cn hB0
    a' := hαa, b' := hαb, c' := hαc
    hY := fun k => (norm_le_pi_norm (A.vec y) k).trans hYn
    hy := fun k => Near.self (hy k)
    hk := hkM, M0 := hM, Y00 := by linarith, α0 := hα1
    sum := by rw [hG]; linarith [abs_nonneg a, abs_nonneg b]
    αG := by rw [hG]; linarith [abs_nonneg a, abs_nonneg b]
    MG := by rw [hG]; linarith [abs_nonneg a, abs_nonneg b] }
  have hci : ∀ i, |A.val t + sr.cn i * H - A.val t| ≤ α * H := by
    intro i
    rw [add_sub_cancel_left, abs_mul, abs_of_nonneg hd0]
    exact mul_le_mul_of_nonneg_right (hαc i) hd0
  have hPs : (s : ℝ) * (9 * big G ^ 3 * (u + H * (g * (u + ε)))) ≤ P * (u + H * (g * (u + ε))) := by
    have : 0 ≤ 4 * ((s : ℝ) + 3) * big G ^ 2 * (u + H * (g * (u + ε))) := by positivity
    rw [hP]; linarith
  have hstages := stages_near (K := K) (t := t) (T := A.val t) (d := η) hsb hr hg01 hQ.ge (Near.self ht) hTG
    (fun i hi t' y' b1 b2 => hdomY t' y' ((abs_sub_le t' (A.val t + sr.cn i * H) (A.val t)).trans (by linarith [hci i]))
      (fun k => (abs_sub_le (y' k) (stageArg sr H (A.vec y) kr i k) (A.vec y k)).trans
        (by linarith [b2 k, stageArg_bound hi.le hα0 hM hd0 hαa hkM (A.vec y) k])))
    (by rw [← hg]; linarith) (by rw [← hs]; exact hkr) (by
      intro i hi
      by_cases hfsal : sc.fsal = true
      · by_cases hi0 : i = 0
        · right
          subst hi0
          intro k
          have hfr : sr.fsal = true := by rw [← hnt.fsal]; exact hfsal
          have : kr 0 = f (A.val t) (A.vec y) := by
            rw [hkr 0 (by omega), (hfs hfr).c0, zero_mul, add_zero]
            rfl
          rw [this]
          exact hK0 hfsal k
        · left
          exact hK i (by unfold stageStart; rw [if_pos hfsal]; omega) (by rw [hns]; exact hi)
      · left
        exact hK i (by unfold stageStart; rw [if_neg hfsal]; omega) (by rw [hns]; exact hi))
  have hyn' : ∀ k, Near A (yn k) (A.vec y k + H * combine sr kr sr.bw k) ((s + 3) * (4 * big G ^ 2 * (u + H * (g0 * Q ^ s * (u + ε))))) := by
    intro k; rw [hyn]; exact near_yn hsb hns hs hstages k
  have htime : Near A (t + dt) (A.val t + H) (7 * big G ^ 2 * u) := by
    have := near_add hG1 hB hu (Near.self ht) (Near.self hdt) hTG (by rw [hH, abs_of_nonneg hd0]; linarith) zero_le_one zero_le_one
    rw [hH] at this
    refine this.mono ?_
    have : u * big G ≤ big G ^ 2 * u := by nlinarith [mul_nonneg hu (by linarith : 0 ≤ big G)]
    have : 0 ≤ big G ^ 2 * u := by positivity
    linarith
  refine ⟨htime, by rw [hg]; exact hyn', ?_⟩
  intro hfsal k
  have hfr : sr.fsal = true := by rw [← hnt.fsal]; exact hfsal
  have fok := hfs hfr
  have two := fok.two
  rw [hns]
  refine last_near (T := A.val t) (t := t) (d := η) hsb hr (i := s - 1) (by omega) (by rw [← hs]; exact fok.cl)
    (fun k => by rw [← hs]; exact fsal_row fok hex H (A.vec y) kr k) (Near.self ht) hTG ?_
    (by rw [← hg, ← hP]; exact hd1) hg0.ge (by rw [← hP]; exact hH3) hstages ?_ htime hyn' k
  · intro t' y' b1 b2
    refine hdomY t' y' ((abs_sub_le t' (A.val t + H) (A.val t)).trans ?_)
      (fun k => (abs_sub_le (y' k) (A.vec y k + H * combine sr kr sr.bw k) (A.vec y k)).trans ?_)
    · rw [add_sub_cancel_left, abs_of_nonneg hd0]
      have := mul_le_mul_of_nonneg_right hα1 hd0
      linarith
    · linarith [b2 k, combine_bound (sr := sr) hs hα0 hM hd0 hαb hkM (A.vec y) k]
  · exact hK (s - 1) (by unfold stageStart; rw [if_pos hfsal]; omega) (by rw [hns]; omega)

end
end

/-- **One step in floating-point arithmetic.**  The constants depend on the problem and the method only. -/
theorem float_step {n p : ℕ} {f : ℝ → Vec ℝ n → Vec ℝ n} (hp : 1 ≤ p) (hf : ContDiff ℝ p fun q : ℝ × (Fin n → ℝ) => f q.1 q.2)
    {U : ℝ → Vec ℝ n} {a b δ : ℝ} (hδ : 0 < δ) (hU : ∀ t ∈ Icc a b, HasDerivWithinAt U (f t (U t)) (Icc a b) t)
    {sr : SolverCoeffs ℝ} (hex : Explicit sr) (hfs : sr.fsal = true → FsalOK sr) (hrs : ∀ i : Fin sr.ns, ∑ j : Fin sr.ns, sr.a i j = sr.cn i)
    (ho : HasOrder (fun i j : Fin sr.ns => sr.a i j) (fun i => sr.bw i) p) :
    ∃ Λ κ h0 ν0 g0 B0 : ℝ, 0 ≤ Λ ∧ 1 ≤ κ ∧ 0 < h0 ∧ 0 < ν0 ∧ 1 ≤ g0 ∧
      ∀ (F : Type) [Add F] [Sub F] [Mul F] [Div F] [Neg F] [Scalar F] (u B ε : ℝ) (A : FloatArith F u B) (sc : SolverCoeffs F)
        (fF : F → Vec F n → Vec F n), NearTableau A sc sr → 0 ≤ u → 0 ≤ ε → u + ε ≤ ν0 → B0 ≤ B → RhsAccurate A f U a b ε fF →
        ∀ (t dt : F) (y : Vec F n) (K : ℕ → Vec F n), isFin t = true → isFin dt = true → (∀ k, isFin (y k) = true) →
          a + δ ≤ A.val t → A.val t ≤ b - δ → 0 ≤ A.val dt → A.val dt ≤ h0 → ‖A.vec y - U (A.val t)‖ ≤ 1 →
          (∀ i, stageStart sc ≤ i → i < sc.ns →
            K i = fF (t + sc.cn i * dt) (stageArg sc dt y K i)) →
          (sc.fsal = true → ∀ k, Near A (K 0 k) (f (A.val t) (A.vec y) k) (g0 * (u + ε))) →
          ∀ yn : Vec F n, (yn = fun k => y k + dt * combine sc K sc.bw k) →
          isFin (t + dt) = true ∧ |A.val (t + dt) - (A.val t + A.val dt)| ≤ κ * u ∧ (∀ k, isFin (yn k) = true) ∧
          ‖A.vec yn - U (A.val (t + dt))‖ ≤ (1 + Λ * A.val dt) * ‖A.vec y - U (A.val t)‖ +
            κ * (A.val dt * (A.val dt ^ p + (u + ε)) + u) ∧
          (sc.fsal = true →
            ∀ k, Near A (K (sc.ns - 1) k) (f (A.val (t + dt)) (A.vec yn) k) (g0 * (u + ε))) := by
  have hA : ∀ i j : Fin sr.ns, i ≤ j → sr.a i j = 0 := fun i j hij => hex i j i.isLt j.isLt hij
  obtain ⟨Λ, C, M, h1, hΛ, hC, hM, hh1, hstep⟩ := rkStep_error hp hf hU ho hA hrs
  have hcu : ContinuousOn U (Icc a b) := fun t ht => (hU t ht).continuousWithinAt
  obtain ⟨R, hR, hub⟩ := solution_bounded hcu
  obtain ⟨V, hV, hUl⟩ := solution_lipschitz hf.continuous hU
  obtain ⟨α, hα1, hαa, hαb, hαc⟩ := tableau_bound sr
  obtain ⟨s, hs⟩ : ∃ s : ℕ, sr.ns = s := ⟨_, rfl⟩
  obtain ⟨G, hG⟩ : ∃ G : ℝ, G = 4 + (R + 1) + s * (α * M) + α + M + (|a| + |b|) := ⟨_, rfl⟩
  obtain ⟨L, hL, hlip⟩ := lipschitz_ball hp (autonomize_contDiff hf) (R + 2 + (|a| + |b|))
  obtain ⟨Q, hQ⟩ : ∃ Q : ℝ, Q = 1 + L * (18 * s * big G ^ 3 + 7 * big G ^ 2) := ⟨_, rfl⟩
  obtain ⟨P, hP⟩ : ∃ P : ℝ, P = 9 * s * big G ^ 3 + 4 * (s + 3) * big G ^ 2 := ⟨_, rfl⟩
  obtain ⟨g0, hg0⟩ : ∃ g0 : ℝ, g0 = 2 * (1 + L * (14 * big G ^ 2 + 9 * s * big G ^ 3 + 4 * (s + 3) * big G ^ 2)) := ⟨_, rfl⟩
  obtain ⟨g, hg⟩ : ∃ g : ℝ, g = g0 * Q ^ s := ⟨_, rfl⟩
  obtain ⟨η, hη⟩ : ∃ η : ℝ, η = min (δ / 2) (1 / (8 * (V + 1))) := ⟨_, rfl⟩
  have hα0 : 0 < α := by linarith
  have hη0 : 0 < η := by rw [hη]; exact lt_min (by linarith) (by positivity)
  have hη1 : η ≤ δ / 2 := by rw [hη]; exact min_le_left _ _
  have hη2 : (V + 1) * η ≤ 1 / 8 := by
    have : η ≤ 1 / (8 * (V + 1)) := by rw [hη]; exact min_le_right _ _
    rw [le_div_iff₀ (by positivity)] at this
    linarith
  -- with vanishing errors and step size the constants are admissible
  have cz : StepConsts f U sr a b δ 0 0 0 R V α M G L Q P g0 g η s := ⟨hs, hα1, hαa, hαb, hαc, hR, hub, hV, hUl, hM, hG, hL, hlip, hQ, hP, hg0, hg,
    hη0, hη1, hη2, le_rfl, le_rfl, le_rfl, zero_le_one, by simp, by simpa using hη0.le, by simp, by simpa using hη0.le, by simp⟩
  obtain ⟨hG1, Γ1, hP0, hQ1, hg01, hg1, -⟩ := cz.basic
  obtain ⟨ν0, hν0⟩ : ∃ ν0 : ℝ, ν0 = min (η / (2 * (P + 7 * big G ^ 2) * g)) (1 / (20 * (s + 1) * big G ^ 3 * g)) := ⟨_, rfl⟩
  obtain ⟨h0, hh0⟩ : ∃ h0 : ℝ, h0 = min (min h1 1) (min (1 / (2 * (L * P * Q ^ s) + 1)) (min (η / α) (1 / (8 * (s * (α * M) + 1))))) := ⟨_, rfl⟩
  obtain ⟨X, hX⟩ : ∃ X : ℝ, X = 4 * ((s : ℝ) + 3) * big G ^ 2 * g := ⟨_, rfl⟩
  obtain ⟨κ, hκ⟩ : ∃ κ : ℝ, κ = 1 + 7 * big G ^ 2 + 7 * big G ^ 2 * V + X + C := ⟨_, rfl⟩
  have hX0 : 0 ≤ X := by rw [hX]; positivity
  have hV7 : 0 ≤ 7 * big G ^ 2 * V := by positivity
  have hΓ7 : 0 ≤ 7 * big G ^ 2 := by positivity
  refine ⟨Λ, κ, h0, ν0, g0, big G, hΛ, by linarith, ?_, ?_, hg01, ?_⟩
  · rw [hh0]; exact lt_min (lt_min hh1 one_pos) (lt_min (by positivity) (lt_min (by positivity) (by positivity)))
  · rw [hν0]; exact lt_min (by positivity) (by positivity)
  intro F _ _ _ _ _ _ u B ε A sc fF hnt hu hε hν hB hacc t dt y K ht hdt hy hta htb hd0 hdh hyU hK hK0 yn hyn
  rw [hh0] at hdh
  rw [hν0] at hν
  generalize hH : A.val dt = H at *
  have hH1 : H ≤ h1 := hdh.trans ((min_le_left _ _).trans (min_le_left _ _))
  have c : StepConsts f U sr a b δ u ε H R V α M G L Q P g0 g η s := by
    refine ⟨hs, hα1, hαa, hαb, hαc, hR, hub, hV, hUl, hM, hG, hL, hlip, hQ, hP, hg0, hg, hη0, hη1, hη2, hu, hε, hd0, ?_, ?_, ?_, ?_, ?_, ?_⟩
    · exact hdh.trans ((min_le_left _ _).trans (min_le_right _ _))
    · have : H ≤ 1 / (2 * (L * P * Q ^ s) + 1) := hdh.trans ((min_le_right _ _).trans (min_le_left _ _))
      rw [le_div_iff₀ (by positivity)] at this
      linarith
    · have : H ≤ η / α := hdh.trans ((min_le_right _ _).trans ((min_le_right _ _).trans (min_le_left _ _)))
      rw [le_div_iff₀ (by linarith)] at this
      linarith
    · have : H ≤ 1 / (8 * (s * (α * M) + 1)) := hdh.trans ((min_le_right _ _).trans ((min_le_right _ _).trans (min_le_right _ _)))
      rw [le_div_iff₀ (by positivity)] at this
      linarith
    · have : u + ε ≤ η / (2 * (P + 7 * big G ^ 2) * g) := hν.trans (min_le_left _ _)
      rw [le_div_iff₀ (by positivity)] at this
      linarith
    · have : u + ε ≤ 1 / (20 * (s + 1) * big G ^ 3 * g) := hν.trans (min_le_right _ _)
      rw [le_div_iff₀ (by positivity)] at this
      linarith
  obtain ⟨-, -, -, -, -, -, hgν, hHg, hd1⟩ := c.basic
  have hH4 := c.hH4
  have hαH : H ≤ α * H := le_mul_of_one_le_left hd0 hα1
  have hTm : A.val t ∈ Icc a b := ⟨by linarith, by linarith⟩
  obtain ⟨kr, hkr⟩ := exists_stages f sr (A.val t) H (A.vec y)
  have hrk := stages_isRKStep hex hkr
  obtain ⟨hst, hkM⟩ := hstep (A.val t) H (A.vec y) _ _ hTm.1 hd0 hH1 (by linarith) hyU hrk
  have hkM' : ∀ j < s, ∀ k, |kr j k| ≤ M := fun j hj k => (norm_le_pi_norm (kr j) k).trans (hkM ⟨j, by rw [hs]; exact hj⟩)
  obtain ⟨htime, hyn', hlast⟩ := step_core c hex hfs hacc hnt hB ht hdt hy hH hta htb hyU hK hK0 hkr hkM' hyn
  have q0 : 0 ≤ P * (u + H * (g * (u + ε))) := by positivity
  refine ⟨htime.1, htime.2.trans (mul_le_mul_of_nonneg_right (by linarith) hu), fun k => (hyn' k).1, ?_, hlast⟩
  have t1' : A.val (t + dt) ∈ Icc a b := by
    have := abs_le.mp htime.2
    constructor <;> linarith
  have t2 : A.val t + H ∈ Icc a b := ⟨by linarith [hTm.1], by linarith⟩
  have n0 := hUl (A.val t + H) t2 _ t1'
  rw [abs_sub_comm] at n0
  have n1 : ‖A.vec yn - fun k => A.vec y k + H * combine sr kr sr.bw k‖ ≤ (s + 3) * (4 * big G ^ 2 * (u + H * (g * (u + ε)))) :=
    (pi_norm_le_iff_of_nonneg (by positivity)).mpr fun k => (hyn' k).2
  have n2 : V * |A.val (t + dt) - (A.val t + H)| ≤ V * (7 * big G ^ 2 * u) := mul_le_mul_of_nonneg_left htime.2 hV
  have n3 := norm_add_le (A.vec yn - fun k => A.vec y k + H * combine sr kr sr.bw k)
    (((fun k => A.vec y k + H * combine sr kr sr.bw k) - U (A.val t + H)) + (U (A.val t + H) - U (A.val (t + dt))))
  have n4 := norm_add_le ((fun k => A.vec y k + H * combine sr kr sr.bw k) - U (A.val t + H)) (U (A.val t + H) - U (A.val (t + dt)))
  rw [sub_add_sub_cancel, sub_add_sub_cancel] at n3
  rw [sub_add_sub_cancel] at n4
  have c1 : ((s : ℝ) + 3) * (4 * big G ^ 2 * (u + H * (g * (u + ε)))) ≤ X * u + X * (H * (u + ε)) := by
    have : 4 * ((s : ℝ) + 3) * big G ^ 2 * u ≤ X * u := by
      refine mul_le_mul_of_nonneg_right ?_ hu
      rw [hX]; exact le_mul_of_one_le_right (by positivity) hg1
    rw [hX] at this ⊢; linarith
  have c2 : C * H ^ (p + 1) = C * (H * H ^ p) := by rw [pow_succ']
  have c3 : 0 ≤ H * H ^ p := mul_nonneg hd0 (pow_nonneg hd0 _)
  have c4 : 0 ≤ H * (u + ε) := mul_nonneg hd0 (by linarith)
  have d1 : C * (H * H ^ p) ≤ κ * (H * H ^ p) := mul_le_mul_of_nonneg_right (by linarith) c3
  have d2 : X * (H * (u + ε)) ≤ κ * (H * (u + ε)) := mul_le_mul_of_nonneg_right (by linarith) c4
  have d3 : (X + 7 * big G ^ 2 * V) * u ≤ κ * u := mul_le_mul_of_nonneg_right (by linarith) hu
  linarith

/-! ### the loop -/

section
variable {F : Type} [Add F] [Sub F] [Mul F] [Div F] [Neg F] [Scalar F] {u B : ℝ} {n : ℕ} {A : FloatArith F u B}

/-- clipping the step to the end of the interval -/
theorem clip_float {t t1 dt : F} {W : ℝ} (hu : 0 ≤ u) (hW : 1 ≤ W) (hWB : 2 * W + 2 ≤ B) (huW : u * (2 * W + 3) ≤ 1) (ht : isFin t = true) (ht1 : isFin t1 = true)
    (hdt : isFin dt = true) (hle : A.val t ≤ A.val t1) (htW : |A.val t| ≤ W) (ht1W : |A.val t1| ≤ W) (h0 : 0 ≤ A.val dt) (h1 : A.val dt ≤ 1) :
    isFin (clipDt t t1 dt) = true ∧ 0 ≤ A.val (clipDt t t1 dt) ∧ A.val (clipDt t t1 dt) ≤ A.val dt + 2 * (2 * W + 3) * u ∧
      A.val (t + clipDt t t1 dt) ≤ A.val t1 + 2 * (2 * W + 3) * u := by
  have b1 := abs_le.mp htW
  have b2 := abs_le.mp ht1W
  have e1 : |A.val t + A.val dt| ≤ W + 1 := abs_le.mpr ⟨by linarith, by linarith⟩
  obtain ⟨s1, s2⟩ := A.add t dt ht hdt (by linarith)
  have s3 : |A.val (t + dt) - (A.val t + A.val dt)| ≤ (2 * W + 3) * u := s2.trans (by rw [mul_comm]; exact mul_le_mul_of_nonneg_right (by linarith) hu)
  have s4 := abs_le.mp s3
  have hWu : 0 ≤ (2 * W + 3) * u := by positivity
  unfold clipDt
  split_ifs with h
  · have hlt := (A.lt _ _ ht1 s1).mp h
    have e2 : |A.val t1 - A.val t| ≤ 2 * W := abs_le.mpr ⟨by linarith, by linarith⟩
    obtain ⟨d1, d2⟩ := A.sub t1 t ht1 ht (by linarith)
    have d3 : |A.val (t1 - t) - (A.val t1 - A.val t)| ≤ (2 * W + 3) * u := d2.trans (by rw [mul_comm]; exact mul_le_mul_of_nonneg_right (by linarith) hu)
    have d4 := abs_le.mp d3
    have d5 := A.sub_nonneg t t1 ht ht1 hle d1
    have e3 : |A.val t + A.val (t1 - t)| ≤ W + 1 := abs_le.mpr ⟨by linarith, by linarith⟩
    obtain ⟨f1, f2⟩ := A.add t (t1 - t) ht d1 (by linarith)
    have f3 : |A.val (t + (t1 - t)) - (A.val t + A.val (t1 - t))| ≤ (2 * W + 3) * u :=
      f2.trans (by rw [mul_comm]; exact mul_le_mul_of_nonneg_right (by linarith) hu)
    have f4 := abs_le.mp f3
    exact ⟨d1, d5, by linarith, by linarith⟩
  · refine ⟨hdt, h0, by linarith, ?_⟩
    have : ¬ A.val t1 < A.val (t + dt) := fun hc => h ((A.lt _ _ ht1 s1).mpr hc)
    linarith

theorem mp_float (A : FloatArith F u B) (hB : 1 ≤ B) (et : F) : ltb (errNorm n et) machinePrecision = false := by
  have hm : isFin (machinePrecision : F) = true := (A.lit _ (by norm_num; linarith)).1
  have hmm : ltb (machinePrecision : F) machinePrecision = false := by
    cases h : ltb (machinePrecision : F) machinePrecision with
    | false => rfl
    | true => exact absurd ((A.lt _ _ hm hm).mp h) (lt_irrefl _)
  unfold errNorm
  simp only
  split_ifs with h
  · exact hmm
  · exact Bool.eq_false_iff.mpr h

/-- the step size controller with `max_dt` set -/
theorem newDt_float (A : FloatArith F u B) (hB : 100 ≤ B) (hu : 0 ≤ u) (hu1 : u ≤ 1 / 100) {o : ErkOpts F} {mo : ℕ} {dt err : F} (hdt : isFin dt = true)
    (h0 : 0 ≤ A.val dt) (h1 : A.val dt ≤ 2) (herr : ltb err machinePrecision = false) (hmx : isFin o.maxDt = true) (hmx0 : 0 < A.val o.maxDt) :
    isFin (newDt o mo dt err) = true ∧ 0 ≤ A.val (newDt o mo dt err) ∧ A.val (newDt o mo dt err) ≤ A.val o.maxDt := by
  have z := A.int 0 (by norm_num)
  have z4 := A.int 4 (by norm_num)
  simp only [Nat.cast_zero, Nat.cast_ofNat] at z z4
  have hpos : ltb (lit 0) o.maxDt = true := (A.lt _ _ z.1 hmx).mpr (by rw [z.2]; exact hmx0)
  obtain ⟨n1, n2⟩ := A.lit (9 / 10) (by norm_num; linarith)
  push_cast at n2
  have n3 := abs_le.mp n2
  have n4 : u * (1 + |(9 / 10 : ℝ)|) ≤ 2 / 100 := by rw [abs_of_nonneg (by norm_num)]; linarith
  have n5 : 0 ≤ A.val (lit (9 / 10)) := by linarith
  have n6 : A.val (lit (9 / 10)) ≤ 1 := by linarith
  have p0 : 0 ≤ A.val (lit (9 / 10)) * A.val dt := mul_nonneg n5 h0
  have p1 : A.val (lit (9 / 10)) * A.val dt ≤ 2 := by nlinarith
  obtain ⟨m1, m2⟩ := A.mul _ _ n1 hdt (by rw [abs_of_nonneg p0]; linarith)
  have m3 := A.mul_nonneg _ _ n1 hdt n5 h0 m1
  have m4 : A.val (lit (9 / 10) * dt) ≤ 3 := by
    have := abs_le.mp m2
    have : u * (1 + |A.val (lit (9 / 10)) * A.val dt|) ≤ 1 := by rw [abs_of_nonneg p0]; nlinarith
    linarith
  -- the scale
  obtain ⟨c1, c2, c3⟩ : isFin (cmin (lit 4) (spow (lit 1 / err) (lit 1 / (lit 1 + lit mo)))) = true ∧
      0 ≤ A.val (cmin (lit 4) (spow (lit 1 / err) (lit 1 / (lit 1 + lit mo)))) ∧
      A.val (cmin (lit 4) (spow (lit 1 / err) (lit 1 / (lit 1 + lit mo)))) ≤ 4 := by
    have hp := A.scale err (lit 1 / (lit 1 + lit mo)) herr
    unfold cmin
    split_ifs with h
    · have hf := A.between _ h hp
      refine ⟨hf, ?_, ?_⟩
      · by_contra hc
        have : ltb (spow (lit 1 / err) (lit 1 / (lit 1 + lit mo))) (lit 0) = true := (A.lt _ _ hf z.1).mpr (by rw [z.2]; linarith)
        rw [hp] at this
        exact absurd this (by decide)
      · have := (A.lt _ _ hf z4.1).mp h
        rw [z4.2] at this
        exact this.le
    · rw [z4.2]; exact ⟨z4.1, by norm_num, le_rfl⟩
  have q0 := mul_nonneg m3 c2
  have q1 : A.val (lit (9 / 10) * dt) * A.val (cmin (lit 4) (spow (lit 1 / err) (lit 1 / (lit 1 + lit mo)))) ≤ 12 := by nlinarith
  obtain ⟨r1, -⟩ := A.mul _ _ m1 c1 (by rw [abs_of_nonneg q0]; linarith)
  have r2 := A.mul_nonneg _ _ m1 c1 m3 c2 r1
  unfold newDt
  simp only
  rw [if_pos hpos]
  generalize lit (9 / 10) * dt * cmin (lit 4) (spow (lit 1 / err) (lit 1 / (lit 1 + lit mo))) = nd at r1 r2
  unfold cmin
  split_ifs with h
  · exact ⟨r1, r2, ((A.lt _ _ r1 hmx).mp h).le⟩
  · exact ⟨hmx, hmx0.le, le_rfl⟩

end

theorem gronwall_step {Λ S S' H D X c e e' : ℝ} (hΛ : 0 ≤ Λ) (hS : 0 ≤ S) (hH : 0 ≤ H) (hD : 0 ≤ D) (hX : 0 ≤ X) (hc : 0 ≤ c)
    (he : e ≤ Real.exp (Λ * S) * (S * D + X)) (he' : e' ≤ (1 + Λ * H) * e + (H * D + c)) (hSS : S + H ≤ S') :
    e' ≤ Real.exp (Λ * S') * (S' * D + (X + c)) := by
  have h1 : 1 + Λ * H ≤ Real.exp (Λ * H) := by have := Real.add_one_le_exp (Λ * H); linarith
  have h2 : 0 ≤ Real.exp (Λ * S) * (S * D + X) := by positivity
  have h3 : 1 ≤ Real.exp (Λ * (S + H)) := Real.one_le_exp (by positivity)
  have h4 : (1 + Λ * H) * e ≤ Real.exp (Λ * H) * (Real.exp (Λ * S) * (S * D + X)) :=
    (mul_le_mul_of_nonneg_left he (by positivity)).trans (mul_le_mul_of_nonneg_right h1 h2)
  have h5 : H * D + c ≤ Real.exp (Λ * (S + H)) * (H * D + c) := le_mul_of_one_le_left (by positivity) h3
  have h6 : Real.exp (Λ * H) * (Real.exp (Λ * S) * (S * D + X)) = Real.exp (Λ * (S + H)) * (S * D + X) := by
    rw [← mul_assoc, ← Real.exp_add]; congr 2; ring
  have h7 : Real.exp (Λ * (S + H)) ≤ Real.exp (Λ * S') := Real.exp_le_exp.mpr (mul_le_mul_of_nonneg_left hSS hΛ)
  calc e' ≤ Real.exp (Λ * (S + H)) * ((S + H) * D + (X + c)) := by rw [h6] at h4; linarith
    _ ≤ Real.exp (Λ * S') * (S' * D + (X + c)) := by
      refine mul_le_mul h7 ?_ (by positivity) (Real.exp_pos _).le
      have := mul_le_mul_of_nonneg_right hSS hD
      linarith

section
variable {F : Type} [Add F] [Sub F] [Mul F] [Div F] [Neg F] [Scalar F] {u B : ℝ} {n p : ℕ} {A : FloatArith F u B}
  {f : ℝ → Vec ℝ n → Vec ℝ n} {U : ℝ → Vec ℝ n} {fF : F → Vec F n → Vec F n} {sc : SolverCoeffs F} {a b δ Λ κ h0 g0 ε : ℝ}

/-- the conclusion of `float_step` for a given arithmetic and right-hand side -/
def StepOK (A : FloatArith F u B) (f : ℝ → Vec ℝ n → Vec ℝ n) (U : ℝ → Vec ℝ n) (fF : F → Vec F n → Vec F n) (sc : SolverCoeffs F)
    (p : ℕ) (a b δ Λ κ h0 g0 ε : ℝ) : Prop :=
  ∀ (t dt : F) (y : Vec F n) (K : ℕ → Vec F n), isFin t = true → isFin dt = true → (∀ k, isFin (y k) = true) →
    a + δ ≤ A.val t → A.val t ≤ b - δ → 0 ≤ A.val dt → A.val dt ≤ h0 → ‖A.vec y - U (A.val t)‖ ≤ 1 →
    (∀ i, stageStart sc ≤ i → i < sc.ns → K i = fF (t + sc.cn i * dt) (stageArg sc dt y K i)) →
    (sc.fsal = true → ∀ k, Near A (K 0 k) (f (A.val t) (A.vec y) k) (g0 * (u + ε))) →
    ∀ yn : Vec F n, (yn = fun k => y k + dt * combine sc K sc.bw k) →
    isFin (t + dt) = true ∧ |A.val (t + dt) - (A.val t + A.val dt)| ≤ κ * u ∧ (∀ k, isFin (yn k) = true) ∧
    ‖A.vec yn - U (A.val (t + dt))‖ ≤ (1 + Λ * A.val dt) * ‖A.vec y - U (A.val t)‖ +
      κ * (A.val dt * (A.val dt ^ p + (u + ε)) + u) ∧
    (sc.fsal = true → ∀ k, Near A (K (sc.ns - 1) k) (f (A.val (t + dt)) (A.vec yn) k) (g0 * (u + ε)))

/-- a finite sample within `E` of the solution -/
def GoodSample (A : FloatArith F u B) (U : ℝ → Vec ℝ n) (E : ℝ) (t : F) (y : Vec F n) : Prop :=
  isFin t = true ∧ (∀ k, isFin (y k) = true) ∧ ‖A.vec y - U (A.val t)‖ ≤ E

/-- the numbers of a run: `N` samples, times from `τ0` to `τ1`, steps at most `h`, initial error `e0` -/
structure RunNumbers (p : ℕ) (u ε a b δ Λ κ h0 τ0 τ1 h e0 D W E : ℝ) (N : ℕ) : Prop where
  u0 : 0 ≤ u
  u1 : u ≤ 1 / 100
  ε0 : 0 ≤ ε
  δ0 : 0 < δ
  Λ0 : 0 ≤ Λ
  κ1 : 1 ≤ κ
  κW : 2 * (2 * (|a| + |b| + 1) + 3) ≤ κ
  κu : κ * u ≤ 1
  h1 : 0 ≤ h
  hh : h + (N + 1) * (κ * u) ≤ h0
  hone : h + (N + 1) * (κ * u) ≤ 1
  lo : a + δ + N * (κ * u) ≤ τ0
  hi : τ1 + κ * u ≤ b - δ
  le : τ0 ≤ τ1
  e00 : 0 ≤ e0
  hD : D = κ * ((h + (N + 1) * (κ * u)) ^ p + (u + ε))
  hW : τ1 - τ0 + (N + 1) * (κ * u) ≤ W
  hE : E = Real.exp (Λ * W) * (W * D + (N * (κ * u) + e0))
  E1 : E ≤ 1

/-- the loop invariant -/
structure FInv (A : FloatArith F u B) (f : ℝ → Vec ℝ n → Vec ℝ n) (U : ℝ → Vec ℝ n) (sc : SolverCoeffs F) (ε Λ κ g0 τ0 τ1 h e0 D E : ℝ)
    (s : ErkState F n) : Prop where
  ft : isFin s.t = true
  fd : isFin s.dt = true
  fy : ∀ k, isFin (s.y k) = true
  lo : τ0 ≤ A.val s.t + s.step * (κ * u)
  hi : A.val s.t ≤ τ1 + κ * u
  d0 : 0 ≤ A.val s.dt
  d1 : A.val s.dt ≤ h + (s.step + 1) * (κ * u)
  er : ‖A.vec s.y - U (A.val s.t)‖ ≤
    Real.exp (Λ * (A.val s.t + s.step * (κ * u) - τ0)) * ((A.val s.t + s.step * (κ * u) - τ0) * D + (s.step * (κ * u) + e0))
  fs : sc.fsal = true → ∀ k, Near A (s.Ks 0 k) (f (A.val s.t) (A.vec s.y) k) (g0 * (u + ε))
  len : s.sol.tVals.length = s.step + 1
  smp : List.Forall₂ (GoodSample A U E) s.sol.tVals s.sol.yVals

variable {τ0 τ1 h e0 D W E : ℝ} {N : ℕ}

theorem RunNumbers.D0 (r : RunNumbers p u ε a b δ Λ κ h0 τ0 τ1 h e0 D W E N) : 0 ≤ D := by
  have := r.u0
  have := r.ε0
  have := r.h1
  have := r.κ1
  rw [r.hD]; positivity

theorem RunNumbers.bound (r : RunNumbers p u ε a b δ Λ κ h0 τ0 τ1 h e0 D W E N) {T e : ℝ} {j : ℕ} (hj : j < N) (hlo : τ0 ≤ T + j * (κ * u))
    (hhi : T ≤ τ1 + κ * u) (he : e ≤ Real.exp (Λ * (T + j * (κ * u) - τ0)) * ((T + j * (κ * u) - τ0) * D + (j * (κ * u) + e0))) : e ≤ E := by
  have hD := r.D0
  have hκu : 0 ≤ κ * u := mul_nonneg (by linarith [r.κ1]) r.u0
  have hjN : (j : ℝ) + 1 ≤ N := by exact_mod_cast hj
  have h1 : (j : ℝ) * (κ * u) + κ * u ≤ N * (κ * u) := by have := mul_le_mul_of_nonneg_right hjN hκu; linarith
  have hS : T + j * (κ * u) - τ0 ≤ W := by linarith [r.hW]
  have hS0 : 0 ≤ T + j * (κ * u) - τ0 := by linarith
  have := r.e00
  have hj0 : 0 ≤ (j : ℝ) * (κ * u) := by positivity
  rw [r.hE]
  refine he.trans (mul_le_mul (Real.exp_le_exp.mpr (mul_le_mul_of_nonneg_left hS r.Λ0)) ?_ (by positivity) (Real.exp_pos _).le)
  have := mul_le_mul_of_nonneg_right hS hD
  linarith

theorem FInv.err_le (r : RunNumbers p u ε a b δ Λ κ h0 τ0 τ1 h e0 D W E N) {s : ErkState F n} (i : FInv A f U sc ε Λ κ g0 τ0 τ1 h e0 D E s)
    (hN : s.step < N) : ‖A.vec s.y - U (A.val s.t)‖ ≤ E := r.bound hN i.lo i.hi i.er

/-- the step size proposed by an attempt -/
theorem attempt_newDt_float (r : RunNumbers p u ε a b δ Λ κ h0 τ0 τ1 h e0 D W E N) (hB : 100 ≤ B) {o : ErkOpts F} {mo : ℕ} {t1 : F}
    (hopt : o.adaptive = true → isFin o.maxDt = true ∧ 0 < A.val o.maxDt ∧ A.val o.maxDt ≤ h) {s : ErkState F n}
    (c1 : isFin (clipDt s.t t1 s.dt) = true) (c2 : 0 ≤ A.val (clipDt s.t t1 s.dt)) {x : ℝ} (c3 : A.val (clipDt s.t t1 s.dt) ≤ h + x) (hx : 0 ≤ x)
    (hx1 : h + x ≤ 1) :
    isFin (attemptAt fF t1 o sc mo s).newDt = true ∧ 0 ≤ A.val (attemptAt fF t1 o sc mo s).newDt ∧
      A.val (attemptAt fF t1 o sc mo s).newDt ≤ h + x ∧ (o.adaptive = true → A.val (attemptAt fF t1 o sc mo s).newDt ≤ h) := by
  by_cases had : o.adaptive = true
  · obtain ⟨m1, m2, m3⟩ := hopt had
    have e : (attemptAt fF t1 o sc mo s).newDt = newDt o mo (clipDt s.t t1 s.dt) (errNorm n (attemptAt fF t1 o sc mo s).errTot) := by
      simp only [attemptAt, attempt, had, if_true]
    rw [e]
    obtain ⟨q1, q2, q3⟩ := newDt_float A hB r.u0 r.u1 (o := o) (mo := mo) c1 c2 (by linarith) (mp_float A (by linarith) _) m1 m2
    exact ⟨q1, q2, by linarith, fun _ => by linarith⟩
  · have had' : o.adaptive = false := by simpa using had
    have e : (attemptAt fF t1 o sc mo s).newDt = clipDt s.t t1 s.dt := by
      simp [attemptAt, attempt, had']
    rw [e]
    exact ⟨c1, c2, c3, fun h => absurd h had⟩

/-- **the invariant is preserved** as long as there are at most `N` samples -/
theorem finv_next (r : RunNumbers p u ε a b δ Λ κ h0 τ0 τ1 h e0 D W E N) (hst : StepOK A f U fF sc p a b δ Λ κ h0 g0 ε)
    (hB : 100 ≤ B) (hBW : 2 * (|a| + |b| + 1) + 2 ≤ B) {nd : Bool} {o : ErkOpts F} {oo : OutOpts} {mo : ℕ} {t1 : F} (ht1 : isFin t1 = true)
    (hτ1 : A.val t1 = τ1) (hopt : o.adaptive = true → isFin o.maxDt = true ∧ 0 < A.val o.maxDt ∧ A.val o.maxDt ≤ h)
    {s s' : ErkState F n} (i : FInv A f U sc ε Λ κ g0 τ0 τ1 h e0 D E s) (hb : erkBody nd fF t1 o oo sc mo s = .next s') (hN : s'.step < N) :
    FInv A f U sc ε Λ κ g0 τ0 τ1 h e0 D E s' := by
  have hκu : 0 ≤ κ * u := mul_nonneg (by linarith [r.κ1]) r.u0
  have hD := r.D0
  have hc := bodyCase nd fF t1 o oo sc mo s
  rw [hb] at hc
  -- the clipped step
  have hstep : s.step ≤ s'.step ∧ ltb s.t t1 = true := by
    cases hc with
    | accepted h => exact ⟨Nat.le_succ _, h⟩
    | rejected h => exact ⟨le_rfl, h⟩
  have hsN : s.step < N := lt_of_le_of_lt hstep.1 hN
  have hlt : A.val s.t < τ1 := by rw [← hτ1]; exact (A.lt _ _ i.ft ht1).mp hstep.2
  have hjN : (s.step : ℝ) + 1 ≤ N := by exact_mod_cast hsN
  have hjκ : (s.step : ℝ) * (κ * u) + κ * u ≤ N * (κ * u) := by have := mul_le_mul_of_nonneg_right hjN hκu; linarith
  have hj0 : 0 ≤ (s.step : ℝ) * (κ * u) := by positivity
  have hlo := i.lo
  have Tab : a + δ ≤ A.val s.t ∧ A.val s.t ≤ b - δ := ⟨by linarith [r.lo], by linarith [r.hi]⟩
  have habs : ∀ x : ℝ, a ≤ x → x ≤ b → |x| ≤ |a| + |b| + 1 := fun x h1 h2 =>
    abs_le.mpr ⟨by linarith [neg_abs_le a, abs_nonneg b], by linarith [le_abs_self b, abs_nonneg a]⟩
  have hδ := r.δ0
  obtain ⟨c1, c2, c3, c4⟩ := clip_float (t1 := t1) (dt := s.dt) (W := |a| + |b| + 1) r.u0 (by linarith [abs_nonneg a, abs_nonneg b]) hBW
    (by
      have := mul_le_mul_of_nonneg_right r.κW r.u0
      have : 0 ≤ u * (2 * (|a| + |b| + 1) + 3) := mul_nonneg r.u0 (by linarith [abs_nonneg a, abs_nonneg b])
      linarith [r.κu]) i.ft ht1 i.fd (by rw [hτ1]; exact hlt.le)
    (habs _ (by linarith) (by linarith)) (habs _ (by rw [hτ1]; linarith [r.le, r.lo]) (by rw [hτ1]; linarith [r.hi])) i.d0
    (by linarith [i.d1, r.hone])
  have hκW := mul_le_mul_of_nonneg_right r.κW r.u0
  rw [hτ1] at c4
  have c3' : A.val (clipDt s.t t1 s.dt) ≤ h + ((s.step : ℝ) + 2) * (κ * u) := by linarith [i.d1]
  have hx1 : h + ((s.step : ℝ) + 2) * (κ * u) ≤ h + (N + 1) * (κ * u) := by linarith
  have hx2 : h + ((s.step : ℝ) + 2) * (κ * u) ≤ 1 := hx1.trans r.hone
  have herr := FInv.err_le r i hsN
  obtain ⟨nd1, nd2, nd3, nd4⟩ := attempt_newDt_float (A := A) (fF := fF) (sc := sc) (mo := mo) r hB hopt c1 c2 c3' (by positivity) hx2
  obtain ⟨L, hsol, -, -, hadt, hold, hnew, hyn, -⟩ := attempt_sol fF o sc mo s (clipDt s.t t1 s.dt) s.sol.bump
  change (attemptAt fF t1 o sc mo s).sol = _ at hsol
  change (attemptAt fF t1 o sc mo s).dt = _ at hadt
  change ∀ i, _ → (attemptAt fF t1 o sc mo s).Ks i = _ at hold
  change ∀ i, _ → _ → (attemptAt fF t1 o sc mo s).Ks i = fF _ (stageArg sc _ s.y (attemptAt fF t1 o sc mo s).Ks i) at hnew
  change (attemptAt fF t1 o sc mo s).yn = fun k => s.y k + clipDt s.t t1 s.dt * combine sc (attemptAt fF t1 o sc mo s).Ks sc.bw k at hyn
  have hline : ∀ (sol : ErkOutput F n) (x : F) (z : Vec F n), (sol.line oo x z).tVals = sol.tVals ∧ (sol.line oo x z).yVals = sol.yVals := by
    intro sol x z; unfold ErkOutput.line; split_ifs <;> simp
  have hK0 : sc.fsal = true → ∀ k, Near A ((attemptAt fF t1 o sc mo s).Ks 0 k) (f (A.val s.t) (A.vec s.y) k) (g0 * (u + ε)) := by
    intro hf k
    rw [hold 0 (by unfold stageStart; rw [if_pos hf]; norm_num)]
    exact i.fs hf k
  cases hc with
  | accepted _ _ _ x hA =>
    subst hA
    generalize attemptAt fF t1 o sc mo s = x at *
    obtain ⟨q1, q2, q3, q4, q5⟩ := hst s.t (clipDt s.t t1 s.dt) s.y x.Ks i.ft c1 i.fy Tab.1 Tab.2 c2 (by linarith [r.hh]) (herr.trans r.E1) hnew hK0 x.yn hyn
    have q2' := abs_le.mp q2
    have hbnd : ‖A.vec x.yn - U (A.val (s.t + clipDt s.t t1 s.dt))‖ ≤
        Real.exp (Λ * (A.val (s.t + clipDt s.t t1 s.dt) + ((s.step + 1 : ℕ) : ℝ) * (κ * u) - τ0)) *
          ((A.val (s.t + clipDt s.t t1 s.dt) + ((s.step + 1 : ℕ) : ℝ) * (κ * u) - τ0) * D + (((s.step + 1 : ℕ) : ℝ) * (κ * u) + e0)) := by
      have e1 : (((s.step + 1 : ℕ) : ℝ) * (κ * u) + e0) = (s.step * (κ * u) + e0) + κ * u := by push_cast; ring
      rw [e1]
      refine gronwall_step (H := A.val (clipDt s.t t1 s.dt)) r.Λ0 (by linarith) c2 hD (by have := r.e00; positivity) hκu i.er (q4.trans ?_) (by push_cast; linarith)
      have : A.val (clipDt s.t t1 s.dt) ^ p ≤ (h + (N + 1) * (κ * u)) ^ p := pow_le_pow_left₀ c2 (by linarith) p
      have e2 := mul_le_mul_of_nonneg_left this (mul_nonneg c2 (by linarith [r.κ1] : (0 : ℝ) ≤ κ))
      rw [r.hD]
      nlinarith
    have hlo' : τ0 ≤ A.val (s.t + clipDt s.t t1 s.dt) + ((s.step + 1 : ℕ) : ℝ) * (κ * u) := by push_cast; linarith
    have hhi' : A.val (s.t + clipDt s.t t1 s.dt) ≤ τ1 + κ * u := by linarith
    refine { ft := ?_, fd := ?_, fy := ?_, lo := ?_, hi := ?_, d0 := ?_, d1 := ?_, er := ?_, fs := ?_, len := ?_, smp := ?_ }
    · show isFin (s.t + x.dt) = true
      rw [hadt]; exact q1
    · exact nd1
    · exact q3
    · show τ0 ≤ A.val (s.t + x.dt) + ((s.step + 1 : ℕ) : ℝ) * (κ * u)
      rw [hadt]; exact hlo'
    · show A.val (s.t + x.dt) ≤ τ1 + κ * u
      rw [hadt]; exact hhi'
    · exact nd2
    · show A.val x.newDt ≤ h + (((s.step + 1 : ℕ) : ℝ) + 1) * (κ * u)
      refine nd3.trans (le_of_eq ?_)
      push_cast; ring
    · show ‖A.vec x.yn - U (A.val (s.t + x.dt))‖ ≤ Real.exp (Λ * (A.val (s.t + x.dt) + ((s.step + 1 : ℕ) : ℝ) * (κ * u) - τ0)) *
          ((A.val (s.t + x.dt) + ((s.step + 1 : ℕ) : ℝ) * (κ * u) - τ0) * D + (((s.step + 1 : ℕ) : ℝ) * (κ * u) + e0))
      rw [hadt]; exact hbnd
    · intro hf k
      show Near A (fsalHook sc x.Ks 0 k) (f (A.val (s.t + x.dt)) (A.vec x.yn) k) (g0 * (u + ε))
      unfold fsalHook
      rw [if_pos hf, Function.update_self, hadt]
      exact q5 hf k
    · show ((x.sol.line oo s.t x.yn).tVals ++ [s.t + x.dt]).length = s.step + 1 + 1
      rw [(hline _ _ _).1, hsol]
      simp [ErkOutput.bump, i.len]
    · show List.Forall₂ (GoodSample A U E) ((x.sol.line oo s.t x.yn).tVals ++ [s.t + x.dt]) ((x.sol.line oo s.t x.yn).yVals ++ [x.yn])
      rw [(hline _ _ _).1, (hline _ _ _).2, hsol, hadt]
      refine List.rel_append i.smp (.cons ⟨q1, q3, ?_⟩ .nil)
      exact r.bound hN hlo' hhi' hbnd
  | rejected _ _ _ x hA _ had =>
    subst hA
    generalize attemptAt fF t1 o sc mo s = x at *
    refine { ft := i.ft, fd := nd1, fy := i.fy, lo := i.lo, hi := i.hi, d0 := nd2, d1 := ?_, er := i.er, fs := hK0, len := ?_, smp := ?_ }
    · refine (nd4 had).trans ?_
      show h ≤ h + ((s.step : ℝ) + 1) * (κ * u)
      linarith
    · show (x.sol.line oo s.t x.yn).tVals.length = s.step + 1
      rw [(hline _ _ _).1, hsol]
      exact i.len
    · show List.Forall₂ (GoodSample A U E) (x.sol.line oo s.t x.yn).tVals (x.sol.line oo s.t x.yn).yVals
      rw [(hline _ _ _).1, (hline _ _ _).2, hsol]
      exact i.smp

/-- the number of samples -/
theorem erk_len {nd : Bool} {o : ErkOpts F} {oo : OutOpts} {mo : ℕ} {t1 : F} {s0 s : ErkState F n} (h0 : s0.sol.tVals.length = s0.step + 1)
    (hr : Reach (erkBody nd fF t1 o oo sc mo) s0 s) : s.sol.tVals.length = s.step + 1 := by
  refine hr.inv (Inv := fun s => s.sol.tVals.length = s.step + 1) h0 ?_
  intro x y hx hb
  have hc := bodyCase nd fF t1 o oo sc mo x
  rw [hb] at hc
  obtain ⟨L, hsol, -⟩ := attempt_sol fF o sc mo x (clipDt x.t t1 x.dt) x.sol.bump
  have hline : ∀ (sol : ErkOutput F n) (w : F) (z : Vec F n), (sol.line oo w z).tVals = sol.tVals := by
    intro sol w z; unfold ErkOutput.line; split_ifs <;> simp
  cases hc with
  | accepted _ _ _ q hA =>
    subst hA
    simp only [accept, hline, List.length_append, List.length_singleton]
    unfold attemptAt
    rw [hsol]
    simp [ErkOutput.bump, hx]
  | rejected _ _ _ q hA =>
    subst hA
    simp only [rejectStep, hline]
    unfold attemptAt
    rw [hsol]
    exact hx

omit [Add F] [Sub F] [Mul F] [Div F] [Neg F] in
theorem erkInit_flds (fF : F → Vec F n → Vec F n) (sc : SolverCoeffs F) (t0 dt : F) (y0 : Vec F n) :
    (erkInit fF t0 y0 dt sc).t = t0 ∧ (erkInit fF t0 y0 dt sc).dt = dt ∧ (erkInit fF t0 y0 dt sc).y = y0 ∧ (erkInit fF t0 y0 dt sc).step = 0 ∧
      (erkInit fF t0 y0 dt sc).sol.tVals = [t0] ∧ (erkInit fF t0 y0 dt sc).sol.yVals = [y0] ∧
      (sc.fsal = true → (erkInit fF t0 y0 dt sc).Ks 0 = fF t0 y0) := by
  by_cases h : sc.fsal = true
  · refine ⟨?_, ?_, ?_, ?_, ?_, ?_, fun _ => ?_⟩ <;> unfold erkInit <;> rw [if_pos h] <;> simp [evalFun]
  · refine ⟨?_, ?_, ?_, ?_, ?_, ?_, fun q => absurd q h⟩ <;> unfold erkInit <;> rw [if_neg h]

/-- **the invariant holds initially** -/
theorem finv_init (r : RunNumbers p u ε a b δ Λ κ h0 τ0 τ1 h e0 D W E N) (hacc : RhsAccurate A f U a b ε fF) (hg : 1 ≤ g0) (hN : 0 < N)
    (hBW : 2 * (|a| + |b| + 1) + 2 ≤ B) {t0 t1 dt : F} {y0 : Vec F n} (ft0 : isFin t0 = true) (ft1 : isFin t1 = true)
    (fy0 : ∀ k, isFin (y0 k) = true) (fdt : isFin dt = true) (hτ0 : A.val t0 = τ0) (hτ1 : A.val t1 = τ1)
    (hy0 : ‖A.vec y0 - U (A.val t0)‖ ≤ e0) (hdt0 : 0 ≤ A.val dt) (hdth : A.val dt ≤ h) :
    FInv A f U sc ε Λ κ g0 τ0 τ1 h e0 D E (erkInit fF t0 y0 (clipDt t0 t1 dt) sc) := by
  have hu := r.u0
  have hκ1 := r.κ1
  have hκu : 0 ≤ κ * u := mul_nonneg (by linarith) hu
  have hNκ : 0 ≤ N * (κ * u) := by positivity
  have hlo := r.lo
  have hhi := r.hi
  have hle := r.le
  have hδ := r.δ0
  have hone := r.hone
  have hab : 0 ≤ |a| + |b| := by positivity
  have habs : ∀ x : ℝ, a ≤ x → x ≤ b → |x| ≤ |a| + |b| + 1 := fun x h1 h2 =>
    abs_le.mpr ⟨by linarith [neg_abs_le a, abs_nonneg b], by linarith [le_abs_self b, abs_nonneg a]⟩
  have hκW' := mul_le_mul_of_nonneg_right r.κW hu
  obtain ⟨c1, c2, c3, -⟩ := clip_float (A := A) (W := |a| + |b| + 1) hu (by linarith) hBW
    (by
      have : 0 ≤ u * (2 * (|a| + |b| + 1) + 3) := mul_nonneg hu (by linarith)
      linarith [r.κu]) ft0 ft1 fdt (by linarith) (habs _ (by linarith) (by linarith)) (habs _ (by linarith) (by linarith)) hdt0 (by linarith)
  have hE0 : e0 ≤ E := by
    exact r.bound (T := τ0) (j := 0) hN (by simp) (by linarith) (by simp)
  have hacc0 := hacc t0 y0 ft0 fy0 (by linarith) (by linarith) (by linarith [r.E1])
  have hε := r.ε0
  have hgε : ε ≤ g0 * (u + ε) := by nlinarith
  obtain ⟨z1, z2, z3, z4, z5, z6, z7⟩ := erkInit_flds fF sc t0 (clipDt t0 t1 dt) y0
  refine { ft := ?_, fd := ?_, fy := ?_, lo := ?_, hi := ?_, d0 := ?_, d1 := ?_, er := ?_, fs := ?_, len := ?_, smp := ?_ }
  · rw [z1]; exact ft0
  · rw [z2]; exact c1
  · rw [z3]; exact fy0
  · rw [z1, z4, hτ0]; simp
  · rw [z1]; linarith
  · rw [z2]; exact c2
  · rw [z2, z4]; push_cast; linarith
  · rw [z1, z3, z4, hτ0]; rw [hτ0] at hy0; simpa using hy0
  · intro hfs k
    rw [z1, z3, z7 hfs]
    exact (show Near A _ _ ε from hacc0 k).mono hgε
  · rw [z5, z4]; rfl
  · rw [z5, z6]; exact .cons ⟨ft0, fy0, hy0.trans hE0⟩ .nil

/-- **every state of the loop with fewer than `N` accepted steps satisfies the invariant** -/
theorem finv_reach (r : RunNumbers p u ε a b δ Λ κ h0 τ0 τ1 h e0 D W E N) (hst : StepOK A f U fF sc p a b δ Λ κ h0 g0 ε)
    (hB : 100 ≤ B) (hBW : 2 * (|a| + |b| + 1) + 2 ≤ B) {nd : Bool} {o : ErkOpts F} {oo : OutOpts} {mo : ℕ} {t1 : F} (ht1 : isFin t1 = true)
    (hτ1 : A.val t1 = τ1) (hopt : o.adaptive = true → isFin o.maxDt = true ∧ 0 < A.val o.maxDt ∧ A.val o.maxDt ≤ h)
    {s0 s : ErkState F n} (i : FInv A f U sc ε Λ κ g0 τ0 τ1 h e0 D E s0) (hr : Reach (erkBody nd fF t1 o oo sc mo) s0 s) :
    s.step < N → FInv A f U sc ε Λ κ g0 τ0 τ1 h e0 D E s := by
  refine hr.inv (Inv := fun s => s.step < N → FInv A f U sc ε Λ κ g0 τ0 τ1 h e0 D E s) (fun _ => i) ?_
  intro q q' hq hb hN'
  have hqs : q.step ≤ q'.step := by
    have hc := bodyCase nd fF t1 o oo sc mo q
    rw [hb] at hc
    cases hc with
    | accepted => exact Nat.le_succ _
    | rejected => exact le_rfl
  exact finv_next r hst hB hBW ht1 hτ1 hopt (hq (lt_of_le_of_lt hqs hN')) hb hN'

theorem StepOK.mono {κ' : ℝ} (hκ : κ ≤ κ') (hu : 0 ≤ u) (hε : 0 ≤ ε) (h : StepOK A f U fF sc p a b δ Λ κ h0 g0 ε) :
    StepOK A f U fF sc p a b δ Λ κ' h0 g0 ε := by
  intro t dt y K q1 q2 q3 q4 q5 q6 q7 q8 q9 q10 yn q11
  obtain ⟨w1, w2, w3, w4, w5⟩ := h t dt y K q1 q2 q3 q4 q5 q6 q7 q8 q9 q10 yn q11
  refine ⟨w1, w2.trans (mul_le_mul_of_nonneg_right hκ hu), w3, w4.trans (add_le_add le_rfl (mul_le_mul_of_nonneg_right hκ ?_)), w5⟩
  have : 0 ≤ A.val dt * (A.val dt ^ p + (u + ε)) := mul_nonneg q6 (add_nonneg (pow_nonneg q6 _) (by linarith))
  linarith

end

/-- **the numbers of a run**: one constant makes all the smallness conditions hold -/
theorem runNumbers_of {p : ℕ} (hp : 1 ≤ p) {a b δ Λ κ h1 ν0 B0 : ℝ} (hδ : 0 < δ) (hΛ : 0 ≤ Λ) (hκ0 : 1 ≤ κ)
    (hκW : 2 * (2 * (|a| + |b| + 1) + 3) ≤ κ) (hh1 : 0 < h1) (hν0 : 0 < ν0) :
    ∃ C : ℝ, 0 < C ∧ 1000000 ≤ C ∧ B0 ≤ C ∧ 2 * (|a| + |b| + 1) + 2 ≤ C ∧
      ∀ (u ε τ0 τ1 h e0 : ℝ) (N : ℕ), 0 ≤ u → 0 ≤ ε → 0 ≤ e0 → 1 ≤ N → 0 ≤ h → h ≤ min (h1 / 2) (1 / 2) → a + δ ≤ τ0 → τ0 ≤ τ1 → τ1 ≤ b - δ →
        C * (h ^ p + ε + e0 + N * u) ≤ 1 →
        u + ε ≤ ν0 ∧ ∃ D W E, E ≤ C * (h ^ p + ε + e0 + N * u) ∧ RunNumbers p u ε a b (δ / 2) Λ κ h1 τ0 τ1 h e0 D W E N := by
  obtain ⟨W, hW⟩ : ∃ W : ℝ, W = |b - a| + 1 := ⟨_, rfl⟩
  have hW1 : 1 ≤ W := by rw [hW]; linarith [abs_nonneg (b - a)]
  obtain ⟨X, hX⟩ : ∃ X : ℝ, X = W * κ * (2 ^ p * (2 * κ + 1) + 1) + κ + 1 := ⟨_, rfl⟩
  have hX0 : 0 ≤ X := by rw [hX]; positivity
  obtain ⟨C0, hC0⟩ : ∃ C0 : ℝ, C0 = Real.exp (Λ * W) * X := ⟨_, rfl⟩
  have hC00 : 0 ≤ C0 := by rw [hC0]; positivity
  have p1 : 0 ≤ 1 / ν0 := by positivity
  have p2 : 0 ≤ 4 * κ / h1 := by positivity
  have p3 : 0 ≤ 4 * κ / δ := by positivity
  have hab : 0 ≤ |a| + |b| := by positivity
  obtain ⟨C, hC⟩ : ∃ C : ℝ, C = C0 + 1 / ν0 + 4 * κ / h1 + 4 * κ + 4 * κ / δ + |B0| + 1000000 + (2 * (|a| + |b| + 1) + 2) := ⟨_, rfl⟩
  have hB0 := le_abs_self B0
  have hB0' := abs_nonneg B0
  refine ⟨C, by linarith, by linarith, by linarith, by linarith, ?_⟩
  intro u ε τ0 τ1 h e0 N hu hε he0 hN hh hh0 ha h01 hb' hsmall
  have hN1 : (1 : ℝ) ≤ N := by exact_mod_cast hN
  have hhp : 0 ≤ h ^ p := pow_nonneg hh p
  have hh1' : h ≤ h1 / 2 := hh0.trans (min_le_left _ _)
  have hh2 : h ≤ 1 / 2 := hh0.trans (min_le_right _ _)
  obtain ⟨x, hx⟩ : ∃ x : ℝ, x = h ^ p + ε + e0 + N * u := ⟨_, rfl⟩
  rw [← hx] at hsmall ⊢
  have hNu : u ≤ N * u := le_mul_of_one_le_left hu hN1
  have hx0 : 0 ≤ x := by rw [hx]; have := mul_nonneg (by linarith : (0 : ℝ) ≤ N) hu; linarith
  have hxN : N * u ≤ x := by rw [hx]; linarith
  have hxε : u + ε ≤ x := by rw [hx]; linarith
  -- consequences of the smallness assumption
  have sm : ∀ c : ℝ, 0 ≤ c → c ≤ C → c * x ≤ 1 := fun c _ hc => (mul_le_mul_of_nonneg_right hc hx0).trans hsmall
  have s1 : u + ε ≤ ν0 := by
    have := sm (1 / ν0) p1 (by linarith)
    rw [div_mul_eq_mul_div, one_mul, div_le_one hν0] at this
    linarith
  have hκN : 4 * κ * (N * u) ≤ 4 * κ * x := mul_le_mul_of_nonneg_left hxN (by linarith)
  have s2 : 4 * κ * (N * u) ≤ h1 := by
    have := sm (4 * κ / h1) p2 (by linarith)
    rw [div_mul_eq_mul_div, div_le_one hh1] at this
    linarith
  have s3 : 4 * κ * (N * u) ≤ 1 := by
    have := sm (4 * κ) (by linarith) (by linarith)
    linarith
  have s4 : 4 * κ * (N * u) ≤ δ := by
    have := sm (4 * κ / δ) p3 (by linarith)
    rw [div_mul_eq_mul_div, div_le_one hδ] at this
    linarith
  have s5 : 1000000 * u ≤ 1 := by
    have := sm 1000000 (by norm_num) (by linarith)
    linarith
  have hκu : 0 ≤ κ * u := by positivity
  have hκNu : κ * u ≤ N * (κ * u) := le_mul_of_one_le_left hκu hN1
  have hN1' : ((N : ℝ) + 1) * (κ * u) ≤ 2 * κ * (N * u) := by linarith
  have hWD : τ1 - τ0 + (N + 1) * (κ * u) ≤ W := by
    rw [hW]
    have := le_abs_self (b - a)
    linarith
  obtain ⟨D, hD⟩ : ∃ D : ℝ, D = κ * ((h + (N + 1) * (κ * u)) ^ p + (u + ε)) := ⟨_, rfl⟩
  obtain ⟨E, hE⟩ : ∃ E : ℝ, E = Real.exp (Λ * W) * (W * D + (N * (κ * u) + e0)) := ⟨_, rfl⟩
  -- the bound
  have hEC : E ≤ C * x := by
    have hθ0 : 0 ≤ ((N : ℝ) + 1) * (κ * u) := by positivity
    have hθ1 : ((N : ℝ) + 1) * (κ * u) ≤ 1 := by linarith
    have k1 : (h + (N + 1) * (κ * u)) ^ p ≤ 2 ^ p * (h ^ p + (N + 1) * (κ * u)) := by
      have k2 := add_pow_le hh hθ0 p
      have k3 : ((N + 1) * (κ * u)) ^ p ≤ (N + 1) * (κ * u) := by
        calc ((N + 1) * (κ * u)) ^ p ≤ ((N + 1) * (κ * u)) ^ 1 := pow_le_pow_of_le_one hθ0 hθ1 hp
          _ = _ := pow_one _
      have k4 : (2 : ℝ) ^ (p - 1) ≤ 2 ^ p := pow_le_pow_right₀ (by norm_num) (by omega)
      calc (h + (N + 1) * (κ * u)) ^ p ≤ 2 ^ (p - 1) * (h ^ p + ((N + 1) * (κ * u)) ^ p) := k2
        _ ≤ 2 ^ p * (h ^ p + (N + 1) * (κ * u)) := mul_le_mul k4 (by linarith) (by positivity) (by positivity)
    have k5 : h ^ p + (N + 1) * (κ * u) ≤ (2 * κ + 1) * x := by
      have : h ^ p ≤ x := by rw [hx]; linarith
      have : 2 * κ * (N * u) ≤ 2 * κ * x := by linarith
      linarith
    have k6 : D ≤ κ * ((2 ^ p * (2 * κ + 1) + 1) * x) := by
      rw [hD]
      refine mul_le_mul_of_nonneg_left ?_ (by linarith)
      have : (2 : ℝ) ^ p * (h ^ p + (N + 1) * (κ * u)) ≤ 2 ^ p * ((2 * κ + 1) * x) := mul_le_mul_of_nonneg_left k5 (by positivity)
      linarith
    have k7 : W * D + (N * (κ * u) + e0) ≤ X * x := by
      have := mul_le_mul_of_nonneg_left k6 (by linarith : 0 ≤ W)
      have : e0 ≤ x := by rw [hx]; linarith
      have : N * (κ * u) ≤ κ * x := by have := mul_le_mul_of_nonneg_left hxN (by linarith : 0 ≤ κ); linarith
      rw [hX]
      linarith
    calc E ≤ Real.exp (Λ * W) * (X * x) := by rw [hE]; exact mul_le_mul_of_nonneg_left k7 (Real.exp_pos _).le
      _ = C0 * x := by rw [hC0]; ring
      _ ≤ C * x := mul_le_mul_of_nonneg_right (by linarith) hx0
  refine ⟨s1, D, W, E, hEC, ?_⟩
  exact {
    u0 := hu, u1 := by linarith, ε0 := hε, δ0 := by linarith, Λ0 := hΛ, κ1 := hκ0, κW := hκW, κu := by linarith, h1 := hh
    hh := by linarith
    hone := by linarith
    lo := by linarith
    hi := by linarith
    le := h01
    e00 := he0
    hD := hD
    hW := hWD
    hE := hE
    E1 := hEC.trans hsmall }

/-- **Convergence in arithmetic with rounding errors** (C91). -/
theorem float_converges {n p : ℕ} {f : ℝ → Vec ℝ n → Vec ℝ n} (hp : 1 ≤ p) (hf : ContDiff ℝ p fun q : ℝ × (Fin n → ℝ) => f q.1 q.2)
    {U : ℝ → Vec ℝ n} {a b δ : ℝ} (hδ : 0 < δ) (hU : ∀ t ∈ Icc a b, HasDerivWithinAt U (f t (U t)) (Icc a b) t)
    {m : ℤ} (hm : m ∈ erkImplemented)
    (ho : HasOrder (fun i j : Fin (erkCoeffs m : SolverCoeffs ℝ).ns => (erkCoeffs m : SolverCoeffs ℝ).a i j)
      (fun i => (erkCoeffs m : SolverCoeffs ℝ).bw i) p) :
    ∃ C h0 : ℝ, 0 < C ∧ 0 < h0 ∧
      ∀ (F : Type) [Add F] [Sub F] [Mul F] [Div F] [Neg F] [Scalar F] (u B ε : ℝ) (A : FloatArith F u B) (fF : F → Vec F n → Vec F n),
        0 ≤ u → 0 ≤ ε → C ≤ B → RhsAccurate A f U a b ε fF →
        ∀ (nd : Bool) (o : ErkOpts F) (oo : OutOpts) (t0 t1 : F) (y0 : Vec F n) (dt : F) (fuel : ℕ) (out : ErkOutput F n) (h e0 : ℝ),
          isFin t0 = true → isFin t1 = true → (∀ k, isFin (y0 k) = true) → isFin dt = true →
          a + δ ≤ A.val t0 → A.val t0 ≤ A.val t1 → A.val t1 ≤ b - δ → ‖A.vec y0 - U (A.val t0)‖ ≤ e0 → 0 ≤ A.val dt → A.val dt ≤ h → h ≤ h0 →
          (o.adaptive = true → (erkCoeffs m : SolverCoeffs F).b2 ≠ [] → isFin o.maxDt = true ∧ 0 < A.val o.maxDt ∧ A.val o.maxDt ≤ h) →
          erkOdeint nd fF t0 t1 y0 o oo m dt fuel = some (.ret out) → C * (h ^ p + ε + e0 + out.tVals.length * u) ≤ 1 →
          List.Forall₂ (GoodSample A U (C * (h ^ p + ε + e0 + out.tVals.length * u))) out.tVals out.yVals := by
  obtain ⟨hex, hfs, -, -, -⟩ := shipped_facts hm
  obtain ⟨Λ, κ1, h1, ν0, g0, B0, hΛ, hκ1, hh1, hν0, hg0, hall⟩ :=
    float_step (δ := δ / 2) hp hf (by linarith) hU hex hfs (shipped_row_sums hm) ho
  obtain ⟨κ, hκ⟩ : ∃ κ : ℝ, κ = max κ1 (2 * (2 * (|a| + |b| + 1) + 3)) := ⟨_, rfl⟩
  have hκκ1 : κ1 ≤ κ := by rw [hκ]; exact le_max_left _ _
  have hκW : 2 * (2 * (|a| + |b| + 1) + 3) ≤ κ := by rw [hκ]; exact le_max_right _ _
  obtain ⟨C, hC0, hC1, hC2, hC3, hnum⟩ := runNumbers_of (B0 := B0) hp hδ hΛ (hκ1.trans hκκ1) hκW hh1 hν0
  refine ⟨C, min (h1 / 2) (1 / 2), hC0, lt_min (by linarith) (by norm_num), ?_⟩
  intro F _ _ _ _ _ _ u B ε A fF hu hε hCB hacc nd o oo t0 t1 y0 dt fuel out h e0 ft0 ft1 fy0 fdt ha h01 hb' hy0 hdt0 hdth hh0 hopt hrun hsmall
  have hN1 := nearTableau_shipped A (by linarith) hm
  have hopt' : (effOpts o (erkCoeffs m : SolverCoeffs F)).adaptive = true →
      isFin (effOpts o (erkCoeffs m : SolverCoeffs F)).maxDt = true ∧ 0 < A.val (effOpts o (erkCoeffs m : SolverCoeffs F)).maxDt ∧
        A.val (effOpts o (erkCoeffs m : SolverCoeffs F)).maxDt ≤ h := by
    intro had
    obtain ⟨-, -, f3, -⟩ := effOpts_fields o (erkCoeffs m : SolverCoeffs F)
    obtain ⟨h1, h2⟩ := effOpts_adaptive.mp had
    rw [f3]
    exact hopt h1 (fun hc => h2 (by rw [hc]; rfl))
  obtain ⟨-, hG⟩ := erkOdeint_ret hrun
  generalize (erkCoeffs m : SolverCoeffs F) = sc at hN1 hopt' hG
  obtain ⟨mo, s, hmo, -, hreach, hout⟩ := erkGuts_ret hG
  have htv : out.tVals = s.sol.tVals ∧ out.yVals = s.sol.yVals := by
    rcases hout with ⟨-, rfl⟩ | ⟨-, -, -, rfl⟩ <;> exact ⟨rfl, rfl⟩
  obtain ⟨-, -, -, z4, z5, -⟩ := erkInit_flds fF sc t0 (clipDt t0 t1 dt) y0
  have hlen := erk_len (by rw [z4, z5]; rfl) hreach
  rw [htv.1] at hsmall ⊢
  rw [htv.2]
  obtain ⟨hν, D, W, E, hEC, r⟩ := hnum u ε (A.val t0) (A.val t1) h e0 s.sol.tVals.length hu hε ((norm_nonneg _).trans hy0) (by omega)
    (hdt0.trans hdth) hh0 ha h01 hb' hsmall
  have hst : StepOK A f U fF sc p a b (δ / 2) Λ κ h1 g0 ε :=
    StepOK.mono hκκ1 hu hε (hall F u B ε A sc fF hN1 hu hε hν (by linarith) hacc)
  have hS := finv_reach r hst (by linarith) (by linarith) ft1 rfl hopt'
    (finv_init r hacc hg0 (by omega) (by linarith) ft0 ft1 fy0 fdt rfl rfl hy0 hdt0 hdth) hreach (by omega)
  exact hS.smp.imp fun t y q => ⟨q.1, q.2.1, q.2.2.trans hEC⟩

end Verif
