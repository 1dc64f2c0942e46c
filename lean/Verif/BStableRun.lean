import Verif.BStableShipped
import Verif.Prop.IrkConverge
import Verif.Spec.Contractive

/-!
# Nonlinear stability of the accepted steps (helper lemmas for C94, C95)
-/

set_option autoImplicit false

namespace Verif
open Spec
open scoped RealInnerProductSpace

section eucl
variable {n : ℕ}

/-- vectors with the Euclidean norm -/
noncomputable def toE : Vec ℝ n →ₗ[ℝ] EuclideanSpace ℝ (Fin n) := (WithLp.linearEquiv 2 ℝ (Fin n → ℝ)).symm.toLinearMap

theorem norm_toE (y : Vec ℝ n) : ‖toE y‖ = eucl y := by
  rw [EuclideanSpace.norm_eq, eucl]
  congr 1
  exact Finset.sum_congr rfl fun k _ => by rw [Real.norm_eq_abs, sq_abs]; rfl

theorem inner_toE (x y : Vec ℝ n) : ⟪toE x, toE y⟫ = ∑ k, x k * y k := by
  rw [PiLp.inner_apply]
  exact Finset.sum_congr rfl fun k _ => by
    change y k * x k = _
    ring

theorem eucl_nonneg (y : Vec ℝ n) : 0 ≤ eucl y := Real.sqrt_nonneg _

theorem eucl_add (x y : Vec ℝ n) : eucl (x + y) ≤ eucl x + eucl y := by
  simp only [← norm_toE, map_add]; exact norm_add_le _ _

theorem eucl_sub (x y : Vec ℝ n) : eucl (x - y) ≤ eucl x + eucl y := by
  simp only [← norm_toE, map_sub]; exact norm_sub_le _ _

theorem eucl_smul (r : ℝ) (x : Vec ℝ n) : eucl (r • x) = |r| * eucl x := by
  rw [← norm_toE, map_smul, norm_smul, Real.norm_eq_abs, norm_toE]

theorem eucl_zero : eucl (0 : Vec ℝ n) = 0 := by rw [← norm_toE, map_zero, norm_zero]

theorem eucl_sum {ι : Type} (s : Finset ι) (x : ι → Vec ℝ n) : eucl (∑ i ∈ s, x i) ≤ ∑ i ∈ s, eucl (x i) := by
  simp only [← norm_toE, map_sum]; exact norm_sum_le _ _

theorem sq_eucl (y : Vec ℝ n) : eucl y ^ 2 = ∑ k, y k ^ 2 := Real.sq_sqrt (Finset.sum_nonneg fun _ _ => sq_nonneg _)

theorem eucl_le_of {y : Vec ℝ n} {r : ℝ} (h : ∑ k, y k ^ 2 ≤ r ^ 2) : eucl y ≤ |r| := by
  rw [eucl, ← Real.sqrt_sq_eq_abs]; exact Real.sqrt_le_sqrt h

theorem Contractive.mono {f : ℝ → Vec ℝ n → Vec ℝ n} (hf : Contractive f) (t : ℝ) (y z : Vec ℝ n) :
    ⟪toE (f t y - f t z), toE (y - z)⟫ ≤ 0 := by
  rw [inner_toE]; exact hf t y z

end eucl

section step
variable {n s : ℕ} {V : Type} [NormedAddCommGroup V] [InnerProductSpace ℝ V] (L : Vec ℝ n →ₗ[ℝ] V)
  {A : Fin s → Fin s → ℝ} {b c : Fin s → ℝ} {f : ℝ → Vec ℝ n → Vec ℝ n} {t h : ℝ} {y z y' z' : Vec ℝ n} {k l : Fin s → Vec ℝ n}

/-- the difference of two steps -/
theorem rk_diff (hy : IsRKStep A b c f t h y y' k) (hz : IsRKStep A b c f t h z z' l)
    (hf : ∀ t y z, ⟪L (f t y - f t z), L (y - z)⟫ ≤ 0) :
    L (y' - z') = L (y - z) + h • ∑ j, b j • L (k j - l j) ∧
      ∀ j, ⟪L (k j - l j), L (y - z) + h • ∑ i, A j i • L (k i - l i)⟫ ≤ 0 := by
  constructor
  · rw [hy.2, hz.2]
    simp only [map_add, map_sub, map_smul, map_sum, smul_sub, Finset.sum_sub_distrib]
    abel
  · intro j
    have e : L (y - z) + h • ∑ i, A j i • L (k i - l i) = L ((y + h • ∑ i, A j i • k i) - (z + h • ∑ i, A j i • l i)) := by
      simp only [map_add, map_sub, map_smul, map_sum, smul_sub, Finset.sum_sub_distrib]
      abel
    have := hf (t + c j * h) (y + h • ∑ i, A j i • k i) (z + h • ∑ i, A j i • l i)
    rw [← hy.1 j, ← hz.1 j, ← e] at this
    exact this

end step

section run
variable {n : ℕ} {fn : OdeFun ℝ n} {no : NewtonOpts ℝ} {sc : SolverCoeffs ℝ}

/-- an accepted step compared with a reference that satisfies the stage equations up to `r` and the final value up to `δ` -/
theorem step_reference {V : Type} [NormedAddCommGroup V] [InnerProductSpace ℝ V] (L : Vec ℝ n →ₗ[ℝ] V) {a b : SampleI ℝ n}
    {d : Fin sc.ns → ℝ} {Y : Fin sc.ns → Vec ℝ n} (H : ResidualStepAt fn no sc a b d Y)
    (hf : ∀ t y z, ⟪L (fn.fn t y - fn.fn t z), L (y - z)⟫ ≤ 0) {w0 w1 δ : Vec ℝ n} {Z r : Fin sc.ns → Vec ℝ n}
    (hZ : ∀ i, Z i = w0 + (b.t - a.t) • ∑ j : Fin sc.ns, sc.a i j • fn.fn (a.t + sc.cn j * (b.t - a.t)) (Z j) + r i)
    (hw : w1 = w0 + (b.t - a.t) • ∑ j : Fin sc.ns, sc.bw j • fn.fn (a.t + sc.cn j * (b.t - a.t)) (Z j) + ∑ i, d i • r i + δ) :
    Perturbed (fun i j : Fin sc.ns => sc.a i j) (fun i => sc.bw i) d (b.t - a.t) (L (a.y - w0)) (L (b.y - w1 + δ))
      (fun j => L (fn.fn (a.t + sc.cn j * (b.t - a.t)) (a.y + Y j) - fn.fn (a.t + sc.cn j * (b.t - a.t)) (Z j)))
      (fun j => L (a.y + Y j - Z j)) (fun i => L (stageResidual fn.fn sc a.t (b.t - a.t) a.y Y i - r i)) where
  stage := fun i => by
    have e : Y i = (b.t - a.t) • ∑ j : Fin sc.ns, sc.a i j • fn.fn (a.t + sc.cn j * (b.t - a.t)) (a.y + Y j) +
        stageResidual fn.fn sc a.t (b.t - a.t) a.y Y i := by simp only [stageResidual]; abel
    have e2 : a.y + Y i - Z i = (a.y - w0) + (b.t - a.t) • ∑ j : Fin sc.ns, sc.a i j •
        (fn.fn (a.t + sc.cn j * (b.t - a.t)) (a.y + Y j) - fn.fn (a.t + sc.cn j * (b.t - a.t)) (Z j)) +
        (stageResidual fn.fn sc a.t (b.t - a.t) a.y Y i - r i) := by
      simp only [smul_sub, Finset.sum_sub_distrib]
      calc a.y + Y i - Z i = a.y + ((b.t - a.t) • ∑ j : Fin sc.ns, sc.a i j • fn.fn (a.t + sc.cn j * (b.t - a.t)) (a.y + Y j) +
          stageResidual fn.fn sc a.t (b.t - a.t) a.y Y i) - (w0 + (b.t - a.t) • ∑ j : Fin sc.ns, sc.a i j •
            fn.fn (a.t + sc.cn j * (b.t - a.t)) (Z j) + r i) := by rw [← e, ← hZ i]
        _ = _ := by abel
    rw [e2]
    simp only [map_add, map_smul, map_sum]
  weights := H.1
  value := by
    have e2 : b.y - w1 + δ = (a.y - w0) + (b.t - a.t) • ∑ j : Fin sc.ns, sc.bw j •
        (fn.fn (a.t + sc.cn j * (b.t - a.t)) (a.y + Y j) - fn.fn (a.t + sc.cn j * (b.t - a.t)) (Z j)) +
        ∑ i, d i • (stageResidual fn.fn sc a.t (b.t - a.t) a.y Y i - r i) := by
      simp only [smul_sub, Finset.sum_sub_distrib]
      rw [H.2.1, hw]
      abel
    rw [e2]
    simp only [map_add, map_smul, map_sum]
  mono := fun j => hf _ _ _

/-- What the approximate solution of the stage equations may leave: nothing when the right-hand side is affine, otherwise the residual
tolerance and, if the iteration may stop on a small increment, the time times the Lipschitz constant times the increment tolerance. -/
def StageDefect (fn : OdeFun ℝ n) (no : NewtonOpts ℝ) (T Λ δ : ℝ) : Prop :=
  (IsAffine fn ∧ δ = 0) ∨ (no.dxDelta = 0 ∧ δ = |no.tol|) ∨
    (0 ≤ Λ ∧ LipschitzE fn.fn Λ ∧ (∀ t y v, eucl ((Matrix.of (fn.jac t y)).mulVec v) ≤ Λ * eucl v) ∧
      δ = |no.tol| + T * Λ * |no.dxDelta|)

theorem StageDefect.nonneg {T Λ δ : ℝ} (hT : 0 ≤ T) (h : StageDefect fn no T Λ δ) : 0 ≤ δ := by
  rcases h with ⟨-, rfl⟩ | ⟨-, rfl⟩ | ⟨h, -, -, rfl⟩ <;> positivity

/-- size of the tableau -/
noncomputable def sizeA (sc : SolverCoeffs ℝ) : ℝ := 1 + 2 * ∑ i : Fin sc.ns, ∑ j : Fin sc.ns, |sc.a i j|

theorem sizeA_pos (sc : SolverCoeffs ℝ) : 1 ≤ sizeA sc := by
  have : 0 ≤ ∑ i : Fin sc.ns, ∑ j : Fin sc.ns, |sc.a i j| := Finset.sum_nonneg fun _ _ => Finset.sum_nonneg fun _ _ => abs_nonneg _
  unfold sizeA; linarith

/-- the residual of an accepted step -/
theorem residual_bound {a b : SampleI ℝ n} {d : Fin sc.ns → ℝ} {Y : Fin sc.ns → Vec ℝ n} {T Λ δ : ℝ}
    (H : ResidualStepAt fn no sc a b d Y) (ha : IsAffine fn → ∀ i, stageResidual fn.fn sc a.t (b.t - a.t) a.y Y i = 0)
    (hab : a.t ≤ b.t) (hT : b.t - a.t ≤ T) (hd : StageDefect fn no T Λ δ) (i : Fin sc.ns) :
    eucl (stageResidual fn.fn sc a.t (b.t - a.t) a.y Y i) ≤ sizeA sc * δ := by
  have hT0 : 0 ≤ T := (sub_nonneg.mpr hab).trans hT
  have hδ := hd.nonneg hT0
  have hA := sizeA_pos sc
  have hδA : δ ≤ sizeA sc * δ := le_mul_of_one_le_left hδ hA
  have hone : ∀ (v : Fin sc.ns → Vec ℝ n) (r : ℝ), ∑ i, ∑ k, (v i k) ^ 2 < r ^ 2 → ∀ i, eucl (v i) ≤ |r| := fun v r hv i =>
    eucl_le_of ((Finset.single_le_sum (f := fun i => ∑ k, (v i k) ^ 2) (fun _ _ => Finset.sum_nonneg fun _ _ => sq_nonneg _)
      (Finset.mem_univ i)).trans hv.le)
  rcases hd with ⟨haff, rfl⟩ | hd
  · rw [ha haff i, eucl_zero, mul_zero]
  have htol : |no.tol| ≤ δ := by
    rcases hd with ⟨-, rfl⟩ | ⟨hΛ, -, -, rfl⟩
    · exact le_rfl
    · have : 0 ≤ T * Λ * |no.dxDelta| := by positivity
      linarith
  rcases H.2.2.2 with h1 | ⟨dY, h1, h2⟩
  · exact (hone _ _ h1 i).trans (htol.trans hδA)
  rcases hd with ⟨hx, -⟩ | ⟨hΛ, hL, hJ, rfl⟩
  · rw [hx] at h1
    have : 0 ≤ ∑ i, ∑ k, (dY i k) ^ 2 := Finset.sum_nonneg fun _ _ => Finset.sum_nonneg fun _ _ => sq_nonneg _
    norm_num at h1
    linarith
  have e : stageResidual fn.fn sc a.t (b.t - a.t) a.y Y i = (b.t - a.t) • ∑ u : Fin sc.ns, sc.a i u •
      ((Matrix.of (fn.jac a.t a.y)).mulVec (dY u) - (fn.fn (a.t + sc.cn u * (b.t - a.t)) (a.y + Y u) -
        fn.fn (a.t + sc.cn u * (b.t - a.t)) (a.y + (Y - dY) u))) := by
    have e1 := h2 i
    simp only [stageResidual, smul_sub, Finset.sum_sub_distrib, Pi.sub_apply] at e1 ⊢
    linear_combination (norm := module) e1
  rw [e, eucl_smul, abs_of_nonneg (sub_nonneg.mpr hab)]
  have hterm : ∀ u : Fin sc.ns, eucl (sc.a i u • ((Matrix.of (fn.jac a.t a.y)).mulVec (dY u) -
      (fn.fn (a.t + sc.cn u * (b.t - a.t)) (a.y + Y u) - fn.fn (a.t + sc.cn u * (b.t - a.t)) (a.y + (Y - dY) u)))) ≤
      |sc.a i u| * (2 * (Λ * |no.dxDelta|)) := by
    intro u
    rw [eucl_smul]
    refine mul_le_mul_of_nonneg_left ((eucl_sub _ _).trans ?_) (abs_nonneg _)
    have k1 := hJ a.t a.y (dY u)
    have k2 := hL (a.t + sc.cn u * (b.t - a.t)) (a.y + Y u) (a.y + (Y - dY) u)
    have k3 : (fun k => (a.y + Y u) k - (a.y + (Y - dY) u) k) = dY u := by
      funext k; simp
    rw [k3] at k2
    have k4 := mul_le_mul_of_nonneg_left (hone _ _ h1 u) hΛ
    have k5 : eucl (fn.fn (a.t + sc.cn u * (b.t - a.t)) (a.y + Y u) - fn.fn (a.t + sc.cn u * (b.t - a.t)) (a.y + (Y - dY) u)) ≤
      Λ * eucl (dY u) := k2
    linarith
  have hsum : eucl (∑ u : Fin sc.ns, sc.a i u • ((Matrix.of (fn.jac a.t a.y)).mulVec (dY u) -
      (fn.fn (a.t + sc.cn u * (b.t - a.t)) (a.y + Y u) - fn.fn (a.t + sc.cn u * (b.t - a.t)) (a.y + (Y - dY) u)))) ≤
      sizeA sc * (Λ * |no.dxDelta|) := by
    refine (eucl_sum _ _).trans ((Finset.sum_le_sum fun u _ => hterm u).trans ?_)
    rw [← Finset.sum_mul]
    have := Finset.single_le_sum (f := fun i : Fin sc.ns => ∑ j : Fin sc.ns, |sc.a i j|)
      (fun _ _ => Finset.sum_nonneg fun _ _ => abs_nonneg _) (Finset.mem_univ i)
    have h0 : 0 ≤ Λ * |no.dxDelta| := by positivity
    have := mul_le_mul_of_nonneg_right this h0
    unfold sizeA
    linarith
  have h0 : 0 ≤ Λ * |no.dxDelta| := by positivity
  calc _ ≤ (b.t - a.t) * (sizeA sc * (Λ * |no.dxDelta|)) := mul_le_mul_of_nonneg_left hsum (sub_nonneg.mpr hab)
    _ ≤ T * (sizeA sc * (Λ * |no.dxDelta|)) := mul_le_mul_of_nonneg_right hT (by positivity)
    _ = sizeA sc * (T * Λ * |no.dxDelta|) := by ring
    _ ≤ _ := mul_le_mul_of_nonneg_left (by linarith [abs_nonneg no.tol]) (by linarith)

/-- the accepted samples of a run and what relates consecutive ones -/
def StepOf (fn : OdeFun ℝ n) (no : NewtonOpts ℝ) (sc : SolverCoeffs ℝ) (t0 t1 : ℝ) (a b : SampleI ℝ n) : Prop :=
  (a.t < b.t ∧ t0 ≤ a.t ∧ b.t ≤ t1) ∧ ∃ d Y, ResidualStepAt fn no sc a b d Y ∧
    (IsAffine fn → ∀ i, stageResidual fn.fn sc a.t (b.t - a.t) a.y Y i = 0)

theorem run_chain {nd : Bool} {la : LinAlg ℝ} {t0 t1 : ℝ} {y0 : Vec ℝ n} {o : IrkOpts ℝ} {dt h : ℝ} {oo : OutOpts} {fuel : ℕ}
    {out : IrkOutput ℝ (sc.ns * n) n} (hla : la.Exact) (hs : la.Sound)
    (hrun : irkGuts nd la fn t0 t1 y0 o dt sc oo fuel = some (.ret out)) (hpos : nd = false ∨ (0 < dt ∧ t0 < t1))
    (hno : o.newtonOpts = some no) :
    ∃ acc : List (SampleI ℝ n), acc.length = out.count.newtonSuccess - out.count.rejectErr + 1 ∧ RunView oo acc out ∧
      acc.IsChain (fun a b => StepOf fn no sc t0 t1 a b ∧ (0 < o.maxDt → o.maxDt ≤ h → dt ≤ h → b.t - a.t ≤ h)) ∧
      acc.head? = some (firstI t0 y0) := by
  refine irk_accs_count (sc := sc) (fn := fn) (J := fun s => 0 < o.maxDt → o.maxDt ≤ h → dt ≤ h → s.dt ≤ h) hrun hpos
    (fun mx _ _ hd => by
      change clipDt t0 t1 dt ≤ _
      rw [clipDt_real]; exact (min_le_left _ _).trans hd)
    (fun no mo Ai s s' hT hJ _ hb h1 h2 h3 => dt_le_next h1 h2 hT (hJ h1 h2 h3) hb)
    (fun no' mo Ai s r a l hno' hA hT hJ hlt hr hst ha e1 e2 => ?_)
  rw [hno] at hno'
  cases hno'
  obtain ⟨q1, q2, -⟩ := attemptI_spec ha
  obtain ⟨c1, c2, c3⟩ := clip_factsI hT hlt
  have hsub : (newSampleI s a).t - l.t = clipDt s.t t1 s.dt := by simp only [newSampleI, q1, e1]; ring
  have ht : (newSampleI s a).t = l.t + clipDt s.t t1 s.dt := by simp only [newSampleI, q1, e1]
  have hy : (newSampleI s a).y = fun k => l.y k + combineI sc r.Y (dWeights Ai fun i => sc.bw i) k := by
    simp only [newSampleI, q2, e2]; rfl
  have hr' : newtonSolveStages nd la fn sc l.t (clipDt s.t t1 s.dt) l.y s.newtonMaxit no.refreshJac no.dxDelta
      no.tol s.sol.bump.count s.sol.log = .ret r := by rw [e1, e2]; exact hr
  obtain ⟨d, hd⟩ := residualStepAt_of hla hs hA hr' hst ht hy
  refine ⟨⟨⟨by rw [ht]; linarith, by rw [e1]; exact hT.lo, by rw [ht, e1]; exact c2⟩, d, _, hd, fun haff i => ?_⟩, fun h1 h2 h3 => ?_⟩
  · rw [hsub]; exact stage_affine hla hs haff hr' hst i
  · rw [hsub]; exact c3.trans (hJ h1 h2 h3)

end run

/-- growth along a chain -/
theorem chain_growth {α : Type} {R : α → α → Prop} {g τ : α → ℝ} {q ζ ξ : ℝ} (hq : 1 ≤ q) (hζ : 0 ≤ ζ) (hξ : 0 ≤ ξ)
    (hR : ∀ a b, R a b → τ a ≤ τ b ∧ g b ≤ q * g a + ζ + ξ * (τ b - τ a)) (h0 : ∀ a, 0 ≤ g a) (a : α) (l : List α) (hl : (a :: l).IsChain R) :
    ∀ b ∈ a :: l, τ a ≤ τ b ∧ g b ≤ q ^ l.length * (g a + l.length * ζ + ξ * (τ b - τ a)) := by
  induction l generalizing a with
  | nil =>
    intro b hb
    simp only [List.mem_singleton] at hb
    subst hb
    simp
  | cons c l ih =>
    rw [List.isChain_cons_cons] at hl
    obtain ⟨h1, h2⟩ := hR a c hl.1
    have hq0 : (0 : ℝ) ≤ q := by linarith
    intro b hb
    rcases List.mem_cons.mp hb with rfl | hb
    · refine ⟨le_rfl, ?_⟩
      have h3 : 1 ≤ q ^ (c :: l).length := one_le_pow₀ hq
      have h4 : 0 ≤ ((c :: l).length : ℝ) * ζ := by positivity
      have h5 := h0 b
      rw [sub_self, mul_zero, add_zero]
      calc g b ≤ g b + (c :: l).length * ζ := by linarith
        _ ≤ _ := le_mul_of_one_le_left (by linarith) h3
    · obtain ⟨k1, k2⟩ := ih c hl.2 b hb
      refine ⟨h1.trans k1, k2.trans ?_⟩
      rw [List.length_cons, pow_succ, mul_assoc]
      refine mul_le_mul_of_nonneg_left ?_ (pow_nonneg hq0 _)
      have e1 : 0 ≤ (l.length : ℝ) * ζ := by positivity
      have e2 : 0 ≤ ξ * (τ b - τ c) := mul_nonneg hξ (by linarith)
      have e3 : 0 ≤ ξ * (τ c - τ a) := mul_nonneg hξ (by linarith)
      have e4 : ζ + l.length * ζ + ξ * (τ b - τ c) + ξ * (τ c - τ a) ≤ q * (ζ + l.length * ζ + ξ * (τ b - τ c) + ξ * (τ c - τ a)) :=
        le_mul_of_one_le_left (by linarith) hq
      push_cast
      linarith

/-- the weights of the update are determined by the tableau -/
theorem update_weights_unique {s : ℕ} {A : Fin s → Fin s → ℝ} {b d : Fin s → ℝ} {ω : Fin s → Fin s → ℝ}
    (right : ∀ i k, ∑ j, A i j * ω j k = if i = k then 1 else 0) (hd : ∀ j, ∑ i, d i * A i j = b j) (k : Fin s) :
    d k = ∑ j, b j * ω j k := by
  simp only [← hd, Finset.sum_mul]
  rw [Finset.sum_comm]
  have : ∀ i, ∑ j, d i * A i j * ω j k = d i * if i = k then 1 else 0 := fun i => by
    rw [← right i k, Finset.mul_sum]; exact Finset.sum_congr rfl fun j _ => by ring
  simp [this]

section stable
variable {sc : SolverCoeffs ℝ}

/-- an accepted step and a reference that satisfies the formula up to `ρ` -/
theorem stable_step {ω : Fin sc.ns → Fin sc.ns → ℝ} {D : Fin sc.ns → ℝ} {β ε : ℝ}
    (hS : StableData (fun i j : Fin sc.ns => sc.a i j) (fun i => sc.bw i) ω D β ε) (hε1 : ε ≤ 1) :
    ∃ κ C : ℝ, 0 ≤ κ ∧ 0 ≤ C ∧ ∀ (n : ℕ) (fn : OdeFun ℝ n) (no : NewtonOpts ℝ) (t0 t1 T Λ δ ρ : ℝ) (a b : SampleI ℝ n) (w0 w1 : Vec ℝ n)
      (Z : Fin sc.ns → Vec ℝ n), Contractive fn.fn → StepOf fn no sc t0 t1 a b → b.t - a.t ≤ T → StageDefect fn no T Λ δ → 0 ≤ ρ →
      (∀ i, eucl (Z i - (w0 + (b.t - a.t) • ∑ j : Fin sc.ns, sc.a i j • fn.fn (a.t + sc.cn j * (b.t - a.t)) (Z j))) ≤ ρ) →
      eucl (w1 - (w0 + (b.t - a.t) • ∑ j : Fin sc.ns, sc.bw j • fn.fn (a.t + sc.cn j * (b.t - a.t)) (Z j))) ≤ ρ →
      eucl (b.y - w1) ≤ (1 + κ * ε) * eucl (a.y - w0) + C * (δ + ρ) := by
  obtain ⟨κ, C, hκ, hC, key⟩ := perturbed_bound hS hε1
  obtain ⟨W, hW⟩ : ∃ W, W = ∑ k, |∑ j : Fin sc.ns, sc.bw j * ω j k| := ⟨_, rfl⟩
  have hW0 : 0 ≤ W := by rw [hW]; exact Finset.sum_nonneg fun _ _ => abs_nonneg _
  have hA := sizeA_pos sc
  refine ⟨κ, C * sizeA sc + 1 + W, hκ, by positivity, ?_⟩
  intro n fn no t0 t1 T Λ δ ρ a b w0 w1 Z hf hab hT hdef hρ hZ hw
  obtain ⟨⟨hlt, -, -⟩, d, Y, H, haff⟩ := hab
  have hδ := hdef.nonneg ((sub_nonneg.mpr hlt.le).trans hT)
  obtain ⟨r, hr⟩ : ∃ r : Fin sc.ns → Vec ℝ n, r = fun i => Z i - (w0 + (b.t - a.t) • ∑ j : Fin sc.ns, sc.a i j •
    fn.fn (a.t + sc.cn j * (b.t - a.t)) (Z j)) := ⟨_, rfl⟩
  obtain ⟨v, hv⟩ : ∃ v, v = w1 - (w0 + (b.t - a.t) • ∑ j : Fin sc.ns, sc.bw j • fn.fn (a.t + sc.cn j * (b.t - a.t)) (Z j)) := ⟨_, rfl⟩
  have hrb : ∀ i, eucl (r i) ≤ ρ := fun i => by rw [hr]; exact hZ i
  have hvb : eucl v ≤ ρ := by rw [hv]; exact hw
  have hP := step_reference (δ := v - ∑ i, d i • r i) toE H (Contractive.mono hf) (w0 := w0) (w1 := w1) (Z := Z) (r := r)
    (fun i => by rw [hr]; exact (add_sub_cancel _ _).symm) (by rw [hv]; abel)
  have hb := key _ d (b.t - a.t) _ _ _ _ _ (sizeA sc * δ + ρ) (sub_nonneg.mpr hlt.le) (by positivity) hP (fun i => by
    rw [norm_toE]
    exact (eucl_sub _ _).trans (add_le_add (residual_bound H haff hlt.le hT hdef i) (hrb i)))
  rw [norm_toE, norm_toE] at hb
  have hsum : eucl (∑ i, d i • r i) ≤ W * ρ := by
    refine (eucl_sum _ _).trans ?_
    rw [hW, Finset.sum_mul]
    refine Finset.sum_le_sum fun i _ => ?_
    rw [eucl_smul, update_weights_unique hS.right H.1 i]
    exact mul_le_mul_of_nonneg_left (hrb i) (abs_nonneg _)
  have e : b.y - w1 = (b.y - w1 + (v - ∑ i, d i • r i)) - v + ∑ i, d i • r i := by abel
  have h1 : eucl (b.y - w1) ≤ eucl (b.y - w1 + (v - ∑ i, d i • r i)) + eucl v + eucl (∑ i, d i • r i) := by
    conv_lhs => rw [e]
    exact (eucl_add _ _).trans (add_le_add_left (eucl_sub _ _) _)
  have h2 : C * (sizeA sc * δ + ρ) + ρ + W * ρ ≤ (C * sizeA sc + 1 + W) * (δ + ρ) := by
    have k1 : 0 ≤ (1 + W) * δ := by positivity
    have k2 : C * ρ ≤ C * (sizeA sc * ρ) := mul_le_mul_of_nonneg_left (le_mul_of_one_le_left hρ hA) hC
    linarith
  linarith

end stable

end Verif
