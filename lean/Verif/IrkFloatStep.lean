import Verif.IrkFloat

/-!
# One accepted step of the implicit integrators in arithmetic with rounding errors
-/

set_option autoImplicit false

namespace Verif
open Spec Set

section
variable {n : ℕ}

/-- one step of the method with matrix `a`, nodes `c` and weights `d` of the stage increments, in exact arithmetic and with a residual in the stage equations -/
def RealStep (f : ℝ → Vec ℝ n → Vec ℝ n) (U : ℝ → Vec ℝ n) (a : ℕ → ℕ → ℝ) (c d : ℕ → ℝ) (lo hi : ℝ) (p : ℕ) (Λ C Γ h0 : ℝ) (s : ℕ) : Prop :=
  ∀ (T H η : ℝ) (Y : Vec ℝ n) (Z : Vec ℝ (s * n)), lo ≤ T → 0 ≤ H → H ≤ h0 → T + H ≤ hi → ‖Y - U T‖ ≤ 1 → ‖Z‖ ≤ 1 → η ≤ 1 →
    ‖stageRes s a c f T H Y Z‖ ≤ η →
    ‖(fun k => Y k + ∑ i : Fin s, Z (finProdFinEquiv (i, k)) * d i) - U (T + H)‖ ≤ (1 + Λ * H) * ‖Y - U T‖ + C * H ^ (p + 1) + Γ * η

/-- `X` is the inverse of the leading `s` by `s` block of `a` -/
def IsInvBlock (s : ℕ) (a X : ℕ → ℕ → ℝ) : Prop := ∀ i k : Fin s, ∑ j : Fin s, X i j * a j k = if i = k then 1 else 0

theorem real_irk_step {p : ℕ} (hp : 1 ≤ p) {f : ℝ → Vec ℝ n → Vec ℝ n} (hf : ContDiff ℝ p fun q : ℝ × Vec ℝ n => f q.1 q.2) {U : ℝ → Vec ℝ n} {lo hi : ℝ}
    (hU : ∀ t ∈ Icc lo hi, HasDerivWithinAt U (f t (U t)) (Icc lo hi) t) {sr : SolverCoeffs ℝ}
    (ho : HasOrder (fun i j : Fin sr.ns => sr.a i j) (fun i => sr.bw i) p) (hc : ∀ i : Fin sr.ns, ∑ j : Fin sr.ns, sr.a i j = sr.cn i)
    (hdet : IsUnit (Matrix.of (sr.mat : Mat ℝ sr.ns)).det) :
    ∃ (Λ C Γ h0 ξ : ℝ) (X : ℕ → ℕ → ℝ), 0 ≤ Λ ∧ 0 ≤ C ∧ 0 ≤ Γ ∧ 0 < h0 ∧ 0 ≤ ξ ∧ (∀ i j, |X i j| ≤ ξ) ∧ IsInvBlock sr.ns sr.a X ∧
      RealStep f U sr.a sr.cn (fun i => ∑ j : Fin sr.ns, X j i * sr.bw j) lo hi p Λ C Γ h0 sr.ns := by
  obtain ⟨Λ, C, Γ, hs, hΛ, hC, hΓ, hs0, hstep⟩ := implicit_step_error hp (autonomize_contDiff hf) (autonomize_solution hU) ho
  obtain ⟨V, hV⟩ : ∃ V : Matrix (Fin sr.ns) (Fin sr.ns) ℝ, V = (Matrix.of (sr.mat : Mat ℝ sr.ns))⁻¹ := ⟨_, rfl⟩
  obtain ⟨X, hX⟩ : ∃ X : ℕ → ℕ → ℝ, X = fun i j => if h : i < sr.ns ∧ j < sr.ns then V ⟨i, h.1⟩ ⟨j, h.2⟩ else 0 := ⟨_, rfl⟩
  have hXV : ∀ i j : Fin sr.ns, X i j = V i j := fun i j => by rw [hX]; simp
  obtain ⟨ξ, hξ⟩ : ∃ ξ : ℝ, ξ = ∑ i, ∑ j, |V i j| := ⟨_, rfl⟩
  have hξ0 : 0 ≤ ξ := by rw [hξ]; exact Finset.sum_nonneg fun _ _ => Finset.sum_nonneg fun _ _ => abs_nonneg _
  have hXξ : ∀ i j, |X i j| ≤ ξ := by
    intro i j
    rw [hX]
    by_cases h : i < sr.ns ∧ j < sr.ns
    · simp only [dif_pos h]
      rw [hξ]
      refine (Finset.single_le_sum (f := fun j => |V ⟨i, h.1⟩ j|) (fun _ _ => abs_nonneg _) (Finset.mem_univ (⟨j, h.2⟩ : Fin sr.ns))).trans ?_
      exact Finset.single_le_sum (f := fun i => ∑ j, |V i j|) (fun _ _ => Finset.sum_nonneg fun _ _ => abs_nonneg _) (Finset.mem_univ _)
    · simp only [dif_neg h, abs_zero]
      exact hξ0
  have hinv : IsInvBlock sr.ns sr.a X := by
    intro i k
    have h1 := congrFun (congrFun (Matrix.nonsing_inv_mul _ hdet) i) k
    rw [← hV, Matrix.mul_apply, Matrix.one_apply] at h1
    rw [← h1]
    refine Finset.sum_congr rfl fun j _ => ?_
    rw [hXV]
    rfl
  have hCn := absC_nonneg sr
  obtain ⟨D, hD⟩ : ∃ D : ℝ, D = ∑ i : Fin sr.ns, |∑ j : Fin sr.ns, X j i * sr.bw j| := ⟨_, rfl⟩
  have hD0 : 0 ≤ D := by rw [hD]; exact Finset.sum_nonneg fun _ _ => abs_nonneg _
  refine ⟨Λ, C, Γ + D, min (min hs 1) (1 / (absC sr + 1)), ξ, X, hΛ, hC, by positivity, lt_min (lt_min hs0 one_pos) (by positivity), hξ0, hXξ, hinv, ?_⟩
  intro T H η Y Z hT hH hle hTH hY hZ hη1 hη
  have hη0 : 0 ≤ η := (norm_nonneg _).trans hη
  have hH1 : H ≤ 1 := hle.trans ((min_le_left _ _).trans (min_le_right _ _))
  have hHs : H ≤ hs := hle.trans ((min_le_left _ _).trans (min_le_left _ _))
  have hHC : absC sr * H ≤ 1 := by
    have : H ≤ 1 / (absC sr + 1) := hle.trans (min_le_right _ _)
    rw [le_div_iff₀ (by positivity)] at this
    linarith
  obtain ⟨Zj, hZj⟩ : ∃ Zj : Fin sr.ns → Vec ℝ n, Zj = fun j k => Z (finProdFinEquiv (j, k)) := ⟨_, rfl⟩
  have hZ1 : ∀ j, ‖Zj j‖ ≤ 1 := fun j => pi_le zero_le_one fun k => by rw [hZj]; exact (le_pi Z _).trans hZ
  obtain ⟨K, hK⟩ : ∃ K : Fin sr.ns → Vec ℝ n, K = fun j : Fin sr.ns => f (T + sr.cn j * H) (Y + Zj j) := ⟨_, rfl⟩
  obtain ⟨res, hres⟩ : ∃ res : Fin sr.ns → Vec ℝ n, res = fun i : Fin sr.ns => Zj i - H • ∑ j : Fin sr.ns, sr.a i j • K j := ⟨_, rfl⟩
  have hresZ : ∀ i : Fin sr.ns, H • ∑ j : Fin sr.ns, sr.a i j • K j + res i = Zj i := fun i => by rw [hres]; simp
  have hresle : ∀ i, ‖res i‖ ≤ η := by
    intro i
    refine pi_le hη0 fun k => ?_
    have h1 := (le_pi _ (finProdFinEquiv (i, k))).trans hη
    have h2 : res i k = stageRes sr.ns sr.a sr.cn f T H Y Z (finProdFinEquiv (i, k)) := by
      rw [hres, hK, hZj]
      simp only [Pi.sub_apply, Pi.smul_apply, Finset.sum_apply, smul_eq_mul, stageRes, divNat_stage, modNat_stage]
      rfl
    rw [h2]
    exact h1
  have esum : ∀ i : Fin sr.ns, H • ∑ j : Fin sr.ns, sr.a i j • ((1 : ℝ), K j) = (sr.cn i * H, H • ∑ j : Fin sr.ns, sr.a i j • K j) := by
    intro i
    rw [pair_sum (fun j : Fin sr.ns => sr.a i j) K, hc i, Prod.smul_mk, smul_eq_mul, mul_comm]
  have hcn : ∀ i : Fin sr.ns, |sr.cn i * H| ≤ 1 := fun i => by
    have h1 := stage_time sr (t := T) hH i
    rw [add_sub_cancel_left] at h1
    linarith
  have hsum2 : ∀ i : Fin sr.ns, ‖H • ∑ j : Fin sr.ns, sr.a i j • K j‖ ≤ 2 := by
    intro i
    have e : H • ∑ j : Fin sr.ns, sr.a i j • K j = Zj i - res i := by rw [← hresZ i]; simp
    rw [e]
    exact (norm_sub_le _ _).trans (by linarith [hZ1 i, hresle i])
  have key := hstep T H η (T, Y) (fun j => (1, K j)) (fun i => (0, res i)) hT hH hHs hTH
    (by rw [Prod.mk_sub_mk, sub_self, norm_pair]; exact hY)
    (fun i => by rw [esum]; exact pair_norm_le ((hcn i).trans (by norm_num)) (hsum2 i))
    (fun i => by
      rw [esum, Prod.mk_add_mk, add_zero, hresZ]
      exact pair_norm_le ((hcn i).trans (by norm_num)) ((hZ1 i).trans (by norm_num)))
    (fun i => by rw [norm_pair]; exact hresle i)
    (fun i => by
      rw [esum, Prod.mk_add_mk, Prod.mk_add_mk, add_zero, autonomize, hresZ, hK])
  have e1 : (T, Y) + H • ((1 : ℝ), ∑ j : Fin sr.ns, sr.bw j • K j) - (T + H, U (T + H)) =
      (0, Y + H • (∑ j : Fin sr.ns, sr.bw j • K j) - U (T + H)) := by
    rw [Prod.smul_mk, Prod.mk_add_mk, smul_eq_mul, mul_one, Prod.mk_sub_mk, sub_self]
  have e2 : (T, Y) - (T, U T) = (0, Y - U T) := by rw [Prod.mk_sub_mk, sub_self]
  rw [pair_sum, sum_weights hp ho, e1, e2, norm_pair, norm_pair] at key
  obtain ⟨d, hd⟩ : ∃ d : Fin sr.ns → ℝ, d = fun i : Fin sr.ns => ∑ j : Fin sr.ns, X j i * sr.bw j := ⟨_, rfl⟩
  have hdb : ∀ k : Fin sr.ns, ∑ i : Fin sr.ns, d i * sr.a i k = sr.bw k := by
    intro k
    rw [hd]
    simp only [Finset.sum_mul]
    rw [Finset.sum_comm]
    have h1 : ∀ j : Fin sr.ns, ∑ i : Fin sr.ns, X j i * sr.bw j * sr.a i k = sr.bw j * if j = k then 1 else 0 := by
      intro j
      rw [← hinv j k, Finset.mul_sum]
      exact Finset.sum_congr rfl fun i _ => by ring
    rw [Finset.sum_congr rfl fun j _ => h1 j]
    simp
  have hupd : (fun k => Y k + ∑ i : Fin sr.ns, Z (finProdFinEquiv (i, k)) * ∑ j : Fin sr.ns, X j i * sr.bw j) =
      Y + H • (∑ j : Fin sr.ns, sr.bw j • K j) + ∑ i, d i • res i := by
    have h1 : ∑ i, d i • Zj i = H • (∑ j : Fin sr.ns, sr.bw j • K j) + ∑ i, d i • res i := by
      rw [Finset.sum_congr rfl fun i _ => by rw [← hresZ i, smul_add], Finset.sum_add_distrib]
      congr 1
      simp only [Finset.smul_sum, smul_smul]
      rw [Finset.sum_comm]
      refine Finset.sum_congr rfl fun j _ => ?_
      rw [← Finset.sum_smul]
      congr 1
      rw [← hdb j, Finset.mul_sum]
      exact Finset.sum_congr rfl fun i _ => by ring
    rw [add_assoc, ← h1]
    funext k
    rw [Pi.add_apply, Finset.sum_apply]
    congr 1
    refine Finset.sum_congr rfl fun i _ => ?_
    rw [hd, hZj, Pi.smul_apply, smul_eq_mul, mul_comm]
  have h5 : ‖∑ i, d i • res i‖ ≤ D * η := (wsum_le d hresle).trans (le_of_eq (by rw [hD, hd]))
  have h6 : Γ * H * η ≤ Γ * η := mul_le_mul_of_nonneg_right (mul_le_of_le_one_right hΓ hH1) hη0
  rw [hupd, add_sub_right_comm]
  refine (norm_add_le _ _).trans ?_
  linarith

end

section
variable {F : Type} [Add F] [Sub F] [Mul F] [Div F] [Neg F] [Scalar F] {n : ℕ} {u B : ℝ}

/-- The computed inverse of the matrix of the tableau, if there is one, is within `ρ` of the exact inverse of the exact matrix (irk.hpp 599-601). -/
def InvAccurate (A : FloatArith F u B) (la : LinAlg F) (sc : SolverCoeffs F) (sr : SolverCoeffs ℝ) (ρ : ℝ) : Prop :=
  ∀ (Ai : Mat F sc.ns) (X : ℕ → ℕ → ℝ), la.inv sc.mat = some Ai → IsInvBlock sc.ns sr.a X → ∀ i j : Fin sc.ns, Near A (Ai i j) (X i j) ρ

variable {A : FloatArith F u B} {sc : SolverCoeffs F} {sr : SolverCoeffs ℝ}

/-- **the computed new value** -/
theorem update_near {G ξ α ρ : ℝ} {X : ℕ → ℕ → ℝ} {Ai : Mat F sc.ns} {Y : Vec F (sc.ns * n)} {y : Vec F n} (hB : big G ≤ B) (hu : 0 ≤ u) (hρ : 0 ≤ ρ)
    (hnt : NearTableau A sc sr) (hAi : ∀ i j : Fin sc.ns, Near A (Ai i j) (X i j) ρ) (hξ : 0 ≤ ξ) (hXξ : ∀ i j, |X i j| ≤ ξ) (hα : 1 ≤ α)
    (hαb : ∀ i, |sr.bw i| ≤ α) (hG : (sc.ns + 1 : ℝ) * ((sc.ns + 1) * (ξ * α)) + ξ + α + 1 ≤ G) (hy : ∀ k, isFin (y k) = true)
    (hyG : ∀ k, |A.val (y k)| ≤ G) (hY : ∀ p, isFin (Y p) = true) (hY1 : ∀ p, |A.val (Y p)| ≤ 1) (hρ1 : ρ ≤ 1) (hu1 : u * big G ≤ 1)
    (hsm1 : (sc.ns : ℝ) * (ρ * big G + 3 * (u * big G ^ 2)) ≤ 1)
    (hsm : (sc.ns : ℝ) * (sc.ns * (ρ * big G + 3 * (u * big G ^ 2)) + 2 * (u * big G)) ≤ 1) (k : Fin n) :
    Near A (y k + combineI sc Y (dWeights Ai fun i => sc.bw i) k)
      (A.val (y k) + ∑ i : Fin sc.ns, A.val (Y (finProdFinEquiv (i, k))) * ∑ j : Fin sc.ns, X j i * sr.bw j)
      (sc.ns * (sc.ns * (ρ * big G + 3 * (u * big G ^ 2)) + 2 * (u * big G)) + u * big G) := by
  have hs0 : (0 : ℝ) ≤ sc.ns := by positivity
  have hξα : 0 ≤ ξ * α := by positivity
  have e0 : (sc.ns + 1 : ℝ) * ((sc.ns + 1) * (ξ * α)) = sc.ns * (sc.ns * (ξ * α)) + sc.ns * (ξ * α) + sc.ns * (ξ * α) + ξ * α := by ring
  have e1 : 0 ≤ (sc.ns : ℝ) * (sc.ns * (ξ * α)) := by positivity
  have e2 : 0 ≤ (sc.ns : ℝ) * (ξ * α) := by positivity
  rw [e0] at hG
  have hG1 : 1 ≤ G := by linarith
  obtain ⟨b1, b2, -, -⟩ := big_facts hG1
  have hB0 : 0 ≤ B := by linarith
  have hub : 0 ≤ u * big G := mul_nonneg hu (by linarith)
  have hub2 : u * big G ≤ u * big G ^ 2 := by rw [sq, ← mul_assoc]; exact le_mul_of_one_le_right hub b1
  have hρb : 0 ≤ ρ * big G := by positivity
  have hbw : ∀ j : Fin sc.ns, Near A (sc.bw j) (sr.bw j) (u * big G) := fun j =>
    Near.mono (hnt.bw hB0 j) (mul_le_mul_of_nonneg_left (by linarith [hαb j]) hu)
  have hterm : ∀ i j : Fin sc.ns, Near A (Ai j i * sc.bw j) (X j i * sr.bw j) (ρ * big G + 2 * (u * big G ^ 2)) := by
    intro i j
    have h1 := near_mul hG1 hB hu (hAi j i) (hbw j) (by linarith [hXξ j i]) (by linarith [hαb j]) hρ hρ1 hu1
    have h2 : |X j i| * (u * big G) ≤ big G * (u * big G) := mul_le_mul_of_nonneg_right (by linarith [hXξ j i]) hub
    have h3 : big G * (u * big G) = u * big G ^ 2 := by ring
    exact h1.mono (by linarith)
  have hprod : ∀ i j : Fin sc.ns, |X j i * sr.bw j| ≤ ξ * α := fun i j => by
    rw [abs_mul]; exact mul_le_mul (hXξ j i) (hαb j) (abs_nonneg _) hξ
  have hdw : ∀ i : Fin sc.ns, Near A (dWeights Ai (fun i => sc.bw i) i) (∑ j : Fin sc.ns, X j i * sr.bw j) (sc.ns * (ρ * big G + 3 * (u * big G ^ 2))) := by
    intro i
    have h0 : (sc.ns : ℝ) * (ρ * big G + 2 * (u * big G ^ 2) + u * big G) ≤ sc.ns * (ρ * big G + 3 * (u * big G ^ 2)) :=
      mul_le_mul_of_nonneg_left (by linarith) hs0
    exact (near_sumFin (A := A) (Γ := ξ * α) hG1 hB hu (hterm i) (hprod i) (by positivity) hξα (by linarith) (h0.trans hsm1)).mono h0
  have hdr : ∀ i : Fin sc.ns, |∑ j : Fin sc.ns, X j i * sr.bw j| ≤ sc.ns * (ξ * α) := by
    intro i
    refine (Finset.abs_sum_le_sum_abs _ _).trans ((Finset.sum_le_sum fun j _ => hprod i j).trans ?_)
    rw [Finset.sum_const, Finset.card_univ, Fintype.card_fin, nsmul_eq_mul]
  have hε0 : 0 ≤ (sc.ns : ℝ) * (ρ * big G + 3 * (u * big G ^ 2)) := by positivity
  have hterm2 : ∀ i : Fin sc.ns, Near A (stageOf Y i k * dWeights Ai (fun i => sc.bw i) i) (A.val (Y (finProdFinEquiv (i, k))) * ∑ j : Fin sc.ns, X j i * sr.bw j)
      (sc.ns * (ρ * big G + 3 * (u * big G ^ 2)) + u * big G) := by
    intro i
    have h1 := near_mul hG1 hB hu (Near.self (A := A) (hY (finProdFinEquiv (i, k)))) (hdw i) (by linarith [hY1 (finProdFinEquiv (i, k))]) (by linarith [hdr i])
      le_rfl zero_le_one hsm1
    have h2 := mul_le_mul_of_nonneg_right (hY1 (finProdFinEquiv (i, k))) hε0
    exact h1.mono (by linarith)
  have hb2 : ∀ i : Fin sc.ns, |A.val (Y (finProdFinEquiv (i, k))) * ∑ j : Fin sc.ns, X j i * sr.bw j| ≤ sc.ns * (ξ * α) := by
    intro i
    rw [abs_mul]
    calc _ ≤ 1 * (sc.ns * (ξ * α)) := mul_le_mul (hY1 _) (hdr i) (abs_nonneg _) zero_le_one
      _ = _ := one_mul _
  have hS := near_sumFin (A := A) (Γ := sc.ns * (ξ * α)) hG1 hB hu hterm2 hb2 (by positivity) e2 (by linarith) (by linarith)
  have hSv : |∑ i : Fin sc.ns, A.val (Y (finProdFinEquiv (i, k))) * ∑ j : Fin sc.ns, X j i * sr.bw j| ≤ G := by
    refine (Finset.abs_sum_le_sum_abs _ _).trans ((Finset.sum_le_sum fun j _ => hb2 j).trans ?_)
    rw [Finset.sum_const, Finset.card_univ, Fintype.card_fin, nsmul_eq_mul]
    linarith
  have h3 := near_add hG1 hB hu (Near.self (A := A) (hy k)) hS (hyG k) hSv zero_le_one (by linarith)
  exact h3.mono (by linarith)

end

section
variable {F : Type} [Add F] [Sub F] [Mul F] [Div F] [Neg F] [Scalar F] {n : ℕ} {u B : ℝ}

/-- what the stopping tests of the Newton iteration leave of the stage equations in a step `H`: at most second order in `H`, and at most what the tolerances
allow; the squares in the tests (irk.hpp 469-473) cost half the digits -/
noncomputable def newtonLeft (u H xt Rt : ℝ) : ℝ := min (H ^ 2) (Rt + H * xt + Real.sqrt u)

/-- **one step in arithmetic with rounding errors**: times and values stay finite, and the error grows by at most … -/
def StepOKI (A : FloatArith F u B) (U : ℝ → Vec ℝ n) (fn : OdeFun F n) (la : LinAlg F) (sc : SolverCoeffs F) (p : ℕ) (a b δ Λ κ h0 ε ρ : ℝ) : Prop :=
  ∀ (nd : Bool) (t dt : F) (y : Vec F n) (Ai : Mat F sc.ns) (maxit refresh : ℤ) (xtol Rtol : F) (count : IrkCounters) (log : CallLog F n)
    (r : StageResult F (sc.ns * n) n), isFin t = true → isFin dt = true → (∀ k, isFin (y k) = true) → a + δ ≤ A.val t → A.val t ≤ b - δ →
    0 ≤ A.val dt → A.val dt ≤ h0 → ‖A.vec y - U (A.val t)‖ ≤ 1 → isFin xtol = true → isFin Rtol = true → |A.val xtol| ≤ 1 → |A.val Rtol| ≤ 1 →
    la.inv sc.mat = some Ai → newtonSolveStages nd la fn sc t dt y maxit refresh xtol Rtol count log = .ret r → r.status = 0 →
    ∀ yn : Vec F n, (yn = fun k => y k + combineI sc r.Y (dWeights Ai fun i => sc.bw i) k) →
    isFin (t + dt) = true ∧ |A.val (t + dt) - (A.val t + A.val dt)| ≤ κ * u ∧ (∀ k, isFin (yn k) = true) ∧
    ‖A.vec yn - U (A.val (t + dt))‖ ≤ (1 + Λ * A.val dt) * ‖A.vec y - U (A.val t)‖ +
      κ * (A.val dt * (A.val dt ^ p + (u + ε)) + (u + ρ + newtonLeft u (A.val dt) |A.val xtol| |A.val Rtol|))

end

set_option maxHeartbeats 2000000 in
/-- **One step in floating-point arithmetic.**  The constants depend on the problem, the method and the bound of the Jacobi matrix only. -/
theorem irk_float_step {n p : ℕ} (hp : 1 ≤ p) {f : ℝ → Vec ℝ n → Vec ℝ n} (hf : ContDiff ℝ p fun q : ℝ × Vec ℝ n => f q.1 q.2) {U : ℝ → Vec ℝ n} {a b δ Jb : ℝ}
    (hδ : 0 < δ) (hJb : 0 ≤ Jb) (hU : ∀ t ∈ Icc a b, HasDerivWithinAt U (f t (U t)) (Icc a b) t) {sr : SolverCoeffs ℝ}
    (ho : HasOrder (fun i j : Fin sr.ns => sr.a i j) (fun i => sr.bw i) p) (hc : ∀ i : Fin sr.ns, ∑ j : Fin sr.ns, sr.a i j = sr.cn i)
    (hdet : IsUnit (Matrix.of (sr.mat : Mat ℝ sr.ns)).det) :
    ∃ Λ κ h0 ν0 B0 : ℝ, 0 ≤ Λ ∧ 1 ≤ κ ∧ 0 < h0 ∧ 0 < ν0 ∧
      ∀ (F : Type) [Add F] [Sub F] [Mul F] [Div F] [Neg F] [Scalar F] (u B ε ρ : ℝ) (A : FloatArith F u B) (sc : SolverCoeffs F) (fn : OdeFun F n)
        (la : LinAlg F), NearTableau A sc sr → 0 ≤ u → 0 ≤ ε → 0 ≤ ρ → u + ε + ρ ≤ ν0 → B0 ≤ B → RhsAccurate A f U a b ε fn.fn →
        JacBounded A U a b Jb fn.jac → LuAccurate A la (sc.ns * n) ρ → InvAccurate A la sc sr ρ → StepOKI A U fn la sc p a b δ Λ κ h0 ε ρ := by
  obtain ⟨Λ, C, Γ, hr0, ξ, X, hΛ, hC, hΓ, hhr0, hξ, hXξ, hinv, hreal⟩ := real_irk_step hp hf hU ho hc hdet
  have hcu : ContinuousOn U (Icc a b) := fun t ht => (hU t ht).continuousWithinAt
  obtain ⟨R, hR, hub⟩ := solution_bounded hcu
  obtain ⟨V, hV, hUl⟩ := solution_lipschitz hf.continuous hU
  obtain ⟨α, hα1, hαa, hαb, hαc⟩ := tableau_bound sr
  have hab : 0 ≤ |a| + |b| := by positivity
  obtain ⟨Q, hQ⟩ : ∃ Q : ℝ, Q = R + 3 + (|a| + |b|) := ⟨_, rfl⟩
  obtain ⟨L, hL, hLip0⟩ := lipschitz_ball hp (autonomize_contDiff hf) Q
  have hLip : ∀ t z t' w, ‖((t, z) : ℝ × Vec ℝ n)‖ ≤ Q → ‖((t', w) : ℝ × Vec ℝ n)‖ ≤ Q →
      ‖f t z - f t' w‖ ≤ L * ‖((t, z) : ℝ × Vec ℝ n) - (t', w)‖ := by
    intro t z t' w h1 h2
    have h3 := hLip0 (t, z) (by simpa using h1) (t', w) (by simpa using h2)
    exact (norm_snd_le (autonomize f (t, z) - autonomize f (t', w))).trans h3
  obtain ⟨M, hM, hfb0⟩ := bounded_deriv (autonomize_contDiff hf) (Nat.zero_le p) Q
  have hfb : ∀ t y, ‖((t, y) : ℝ × Vec ℝ n)‖ ≤ Q → ‖f t y‖ ≤ M := fun t y hz => by
    have h1 : ‖autonomize f (t, y)‖ ≤ M := by simpa using hfb0 (t, y) hz
    exact (norm_snd_le (autonomize f (t, y))).trans h1
  obtain ⟨s, hs⟩ : ∃ s : ℝ, s = sr.ns := ⟨_, rfl⟩
  have hs0 : 0 ≤ s := by rw [hs]; positivity
  obtain ⟨G, hG⟩ : ∃ G : ℝ, G = ((s * n + 1) * (α * (M + Jb + 1)) + (R + 1) + (|a| + |b|) + 4) + ((s + 1) * ((s + 1) * (ξ * α)) + ξ + α + 1) := ⟨_, rfl⟩
  have hG0 : 0 ≤ (s * n + 1) * (α * (M + Jb + 1)) := by positivity
  have hG0' : 0 ≤ (s + 1) * ((s + 1) * (ξ * α)) := by positivity
  have hG1 : 1 ≤ G := by rw [hG]; linarith
  obtain ⟨b1, -⟩ := big_facts hG1
  obtain ⟨P, hP⟩ : ∃ P : ℝ, P = big G ^ 3 := ⟨_, rfl⟩
  have hbP : big G ≤ P := by rw [hP]; exact le_self_pow₀ b1 (by norm_num)
  have hb2P : big G ^ 2 ≤ P := by rw [hP]; exact pow_le_pow_right₀ b1 (by norm_num)
  have hP1 : 1 ≤ P := b1.trans hbP
  have hm0 : 0 ≤ s * n := by positivity
  obtain ⟨k1, hk1⟩ : ∃ k1 : ℝ, k1 = (s * n * (5 + 3 * α * L) + 8) * P + s * n * α + 1 + 3 * L * P := ⟨_, rfl⟩
  obtain ⟨k3, hk3⟩ : ∃ k3 : ℝ, k3 = s * (α * (Jb + L)) + 4 * (s * n) * P := ⟨_, rfl⟩
  obtain ⟨k4, hk4⟩ : ∃ k4 : ℝ, k4 = s * (α * M) := ⟨_, rfl⟩
  obtain ⟨k5, hk5⟩ : ∃ k5 : ℝ, k5 = Real.sqrt ((2 * (s * n) + 1) * big G) := ⟨_, rfl⟩
  obtain ⟨k6, hk6⟩ : ∃ k6 : ℝ, k6 = (s * (s * 3 + 2) + 1 + 3 * s) * P := ⟨_, rfl⟩
  have hα0 : 0 ≤ α := by linarith
  have x1 : 0 ≤ (s * n * (5 + 3 * α * L) + 8) * P := by positivity
  have x2 : 0 ≤ s * n * α := by positivity
  have x3 : 0 ≤ 3 * L * P := by positivity
  have hk10 : 0 ≤ k1 := by rw [hk1]; positivity
  have hk30 : 0 ≤ k3 := by rw [hk3]; positivity
  have hk40 : 0 ≤ k4 := by rw [hk4]; positivity
  have hk50 : 0 ≤ k5 := by rw [hk5]; positivity
  have hk60 : 0 ≤ k6 := by rw [hk6]; positivity
  obtain ⟨S, hS⟩ : ∃ S : ℝ, S = k1 + k3 + k4 + k6 + α + 3 * P := ⟨_, rfl⟩
  have hS1 : 1 ≤ S := by rw [hS]; linarith
  obtain ⟨K, hK⟩ : ∃ K : ℝ, K = 200 * S * (1 + V + 1 / δ) := ⟨_, rfl⟩
  have hK0 : 0 < K := by rw [hK]; positivity
  obtain ⟨c, hcd⟩ : ∃ c : ℝ, c = 4 / 3 * k3 * k4 + 6 * k1 + 1 + k3 + 2 * k5 + 4 / 3 * k3 * k4 := ⟨_, rfl⟩
  have hc0 : 0 ≤ c := by rw [hcd]; positivity
  obtain ⟨κ, hκ⟩ : ∃ κ : ℝ, κ = 1 + k6 + C + Γ * c + V * P + P := ⟨_, rfl⟩
  have hΓc : 0 ≤ Γ * c := by positivity
  have hVP : 0 ≤ V * P := by positivity
  have hsmall : ∀ x : ℝ, 0 ≤ x → x ≤ 1 / K → S * x ≤ 1 / 200 ∧ V * (S * x) ≤ 1 / 200 ∧ S * x ≤ δ / 200 := by
    intro x hx hx1
    rw [le_div_iff₀ hK0, hK] at hx1
    have e1 : 0 ≤ S * x := by positivity
    have e2 : 0 ≤ V * (S * x) := by positivity
    have e3 : 0 ≤ S * x / δ := by positivity
    have e4 : x * (200 * S * (1 + V + 1 / δ)) = 200 * (S * x) + 200 * (V * (S * x)) + 200 * (S * x / δ) := by ring
    rw [e4] at hx1
    refine ⟨by linarith, by linarith, ?_⟩
    have e5 : S * x / δ ≤ 1 / 200 := by linarith
    rw [div_le_iff₀ hδ] at e5
    linarith
  refine ⟨Λ, κ, min hr0 (1 / K), 1 / K, big G, hΛ, by linarith, lt_min hhr0 (by positivity), by positivity, ?_⟩
  intro F _ _ _ _ _ _ u B ε ρ A sc fn la hnt hu hε hρ hν hB hacc hjac hlu hia nd t dt y Ai maxit refresh xtol Rtol count log r ht hdt hy hta htb hd0 hdh hyU hxf hRf hx1 hR1 hAi hn hst yn hyn
  have hns := hnt.ns
  have hsc : (sc.ns : ℝ) = s := by rw [hs, hns]
  rw [← hns] at hinv hreal
  generalize hH : A.val dt = H at *
  obtain ⟨h1, h2, h3⟩ := hsmall H hd0 (hdh.trans (min_le_right _ _))
  obtain ⟨n1, n2, n3⟩ := hsmall (u + ε + ρ) (by linarith) hν
  have hSu : S * u ≤ S * (u + ε + ρ) := mul_le_mul_of_nonneg_left (by linarith) (by linarith)
  have hSε : S * ε ≤ S * (u + ε + ρ) := mul_le_mul_of_nonneg_left (by linarith) (by linarith)
  have hVSu : V * (S * u) ≤ V * (S * (u + ε + ρ)) := mul_le_mul_of_nonneg_left hSu hV
  have hHS : H ≤ S * H := le_mul_of_one_le_left hd0 hS1
  have hH1 : H ≤ 1 := by linarith
  -- products with parts of `S`
  have pS : ∀ {z x : ℝ}, 0 ≤ x → z ≤ S → z * x ≤ S * x := fun hx hz => mul_le_mul_of_nonneg_right hz hx
  have hk1S : k1 ≤ S := by rw [hS]; linarith
  have hk3S : k3 ≤ S := by rw [hS]; linarith
  have hk4S : k4 ≤ S := by rw [hS]; linarith
  have hk6S : k6 ≤ S := by rw [hS]; linarith
  have hαS : α ≤ S := by rw [hS]; linarith
  have hPS : 3 * P ≤ S := by rw [hS]; linarith
  have hν0 : 0 ≤ u + ε + ρ := by linarith
  have hubu : 0 ≤ u * big G := by positivity
  have hubP : u * big G ≤ P * u := by rw [mul_comm]; exact mul_le_mul_of_nonneg_right hbP hu
  have hub2P : u * big G ^ 2 ≤ P * u := by rw [mul_comm]; exact mul_le_mul_of_nonneg_right hb2P hu
  have hub20 : 0 ≤ u * big G ^ 2 := by positivity
  have hub3P : u * big G ^ 3 = P * u := by rw [hP, mul_comm]
  obtain ⟨ω, hω⟩ : ∃ ω : ℝ, ω = 3 * (u * big G ^ 2) := ⟨_, rfl⟩
  have hω0 : 0 ≤ ω := by rw [hω]; positivity
  have hωS : ω ≤ S * u := by rw [hω]; linarith [pS hu hPS]
  have hαH : α * H ≤ S * H := pS hd0 hαS
  have hTm : A.val t ∈ Icc a b := ⟨by linarith, by linarith⟩
  have hyR : ‖A.vec y‖ ≤ R + 1 := by
    have := norm_add_le (A.vec y - U (A.val t)) (U (A.val t))
    rw [sub_add_cancel] at this
    linarith [hub (A.val t) hTm]
  have habs : ∀ x ∈ Icc a b, |x| ≤ |a| + |b| := fun x hx =>
    abs_le.mpr ⟨by linarith [hx.1, neg_abs_le a, abs_nonneg b], by linarith [hx.2, le_abs_self b, abs_nonneg a]⟩
  -- the sizes
  have hu1 : L * (P * u) ≤ 1 / 200 / 3 := by
    have e : 3 * L * P ≤ k1 := by rw [hk1]; linarith
    have := pS hu (e.trans hk1S)
    linarith
  have hLb : L * (u * big G ^ 2) ≤ L * (P * u) := mul_le_mul_of_nonneg_left hub2P hL
  have hHα0 : 0 ≤ H * α := by positivity
  have hHαε : 0 ≤ H * α * ε := by positivity
  have hφ0 : 0 ≤ ε + 3 * L * (u * big G ^ 2) := by positivity
  -- the error of a residual
  have hηle : s * n * (5 * (u * big G ^ 3) + H * α * (ε + 3 * L * (u * big G ^ 2))) + 8 * (u * big G ^ 3) ≤
      (s * n * (5 + 3 * α * L) + 8) * P * u + s * n * α * (H * ε) := by
    have e1 : H * α * (L * (u * big G ^ 2)) ≤ 1 * α * (L * (P * u)) :=
      mul_le_mul (mul_le_mul_of_nonneg_right hH1 hα0) hLb (by positivity) (by linarith)
    have e2 := mul_le_mul_of_nonneg_left e1 (show 0 ≤ 3 * (s * n) by positivity)
    rw [hub3P]
    linarith
  have hk1a : (s * n * (5 + 3 * α * L) + 8) * P ≤ k1 := by
    rw [hk1]; linarith
  have hk1b : s * n * α ≤ k1 := by
    rw [hk1]; linarith
  have hk1c : 1 ≤ k1 := by
    rw [hk1]; linarith
  have hHε : H * ε ≤ ε := mul_le_of_le_one_left hε hH1
  have hHε0 : 0 ≤ H * ε := by positivity
  have hsum : s * n * (5 * (u * big G ^ 3) + H * α * (ε + 3 * L * (u * big G ^ 2))) + 8 * (u * big G ^ 3) ≤ k1 * (u + H * ε) := by
    have e1 := mul_le_mul_of_nonneg_right hk1a hu
    have e2 := mul_le_mul_of_nonneg_right hk1b hHε0
    linarith
  have cI : IConsts sc.ns n α M L Jb (R + 1) (|a| + |b|) G u ε H := by
    refine ⟨hα1, hM, hL, hJb, by linarith, hab, ?_, hu, hε, hd0, hH1, ?_, ?_⟩
    · rw [hsc, hG]; linarith
    · have : ε ≤ S * ε := le_mul_of_one_le_left hε hS1
      linarith
    · rw [hsc]
      have e1 := pS (show 0 ≤ u + H * ε by linarith) hk1S
      have e2 : S * (u + H * ε) ≤ S * (u + ε + ρ) := mul_le_mul_of_nonneg_left (by linarith) (by linarith)
      linarith
  have hcH : ∀ j : ℕ, |sr.cn j * H| ≤ S * H := fun j => by
    rw [abs_mul, abs_of_nonneg hd0]; exact mul_le_mul_of_nonneg_right ((hαc j).trans hαS) hd0
  have hTc : ∀ j : ℕ, A.val t + sr.cn j * H ∈ Icc a b := fun j => by
    have := abs_le.mp (hcH j)
    exact ⟨by linarith, by linarith⟩
  have hball : ∀ (T : ℝ) (z : Vec ℝ n), T ∈ Icc a b → ‖z‖ ≤ R + 2 → ‖((T, z) : ℝ × Vec ℝ n)‖ ≤ Q := fun T z hT hz =>
    pair_norm_le (by rw [hQ]; linarith [habs T hT]) (by rw [hQ]; linarith)
  have hyZ : ∀ Z : Vec ℝ n, (∀ k, |Z k| ≤ 1 / 2) → ‖A.vec y + Z‖ ≤ R + 2 := fun Z hZ =>
    (norm_add_le _ _).trans (by linarith [pi_le (by norm_num : (0 : ℝ) ≤ 1 / 2) hZ])
  have hrhs : IRhs A f fn sc sr t dt y L M H ε (1 / 2) (3 * (u * big G ^ 2)) := by
    rw [← hω]
    refine ⟨?_, ?_, ?_⟩
    · intro j t' y' Z ft' fy' hZ htt hyy k
      have hZ' : ‖Z‖ ≤ 1 / 2 := pi_le (by norm_num) hZ
      have q1 := abs_le.mp htt
      have q2 := abs_le.mp (hcH j)
      have hV' : V * (S * H + ω) ≤ 1 / 100 := by
        have := mul_le_mul_of_nonneg_left hωS hV
        linarith
      have htm : A.val t' ∈ Icc a b := ⟨by linarith, by linarith⟩
      have hyy' : ‖A.vec y' - (A.vec y + Z)‖ ≤ ω := pi_le hω0 hyy
      have hUU : ‖U (A.val t) - U (A.val t')‖ ≤ 1 / 100 := by
        refine (hUl _ hTm _ htm).trans (le_trans (mul_le_mul_of_nonneg_left ?_ hV) hV')
        exact abs_le.mpr ⟨by linarith, by linarith⟩
      have hdist : ‖A.vec y' - U (A.val t')‖ ≤ 2 := by
        have e : A.vec y' - U (A.val t') = (A.vec y' - (A.vec y + Z)) + Z + (A.vec y - U (A.val t)) + (U (A.val t) - U (A.val t')) := by abel
        rw [e]
        refine (norm_add_le _ _).trans ((add_le_add ((norm_add_le _ _).trans (add_le_add (norm_add_le _ _) le_rfl)) le_rfl).trans ?_)
        linarith
      obtain ⟨w1, w2⟩ := hacc t' y' ft' fy' htm.1 htm.2 hdist k
      refine ⟨w1, ?_⟩
      have hy'R : ‖A.vec y'‖ ≤ R + 2 := by
        have := norm_add_le (A.vec y' - U (A.val t')) (U (A.val t'))
        rw [sub_add_cancel] at this
        linarith [hub _ htm]
      have h5 := hLip (A.val t') (A.vec y') (A.val t + sr.cn j * H) (A.vec y + Z) (hball _ _ htm hy'R) (hball _ _ (hTc j) (hyZ Z hZ))
      have h6 : ‖((A.val t', A.vec y') : ℝ × Vec ℝ n) - (A.val t + sr.cn j * H, A.vec y + Z)‖ ≤ ω := by
        rw [Prod.mk_sub_mk]
        exact pair_norm_le htt hyy'
      have h7 := (le_pi (f (A.val t') (A.vec y') - f (A.val t + sr.cn j * H) (A.vec y + Z)) k).trans (h5.trans (mul_le_mul_of_nonneg_left h6 hL))
      rw [Pi.sub_apply] at h7
      have h8 := abs_le.mp h7
      have h9 := abs_le.mp w2
      have h10 : f (A.val t + sr.cn j * H) (fun k => A.val (y k) + Z k) k = f (A.val t + sr.cn j * H) (A.vec y + Z) k := rfl
      rw [h10]
      exact abs_le.mpr ⟨by linarith, by linarith⟩
    · intro j Z hZ k
      exact (le_pi _ k).trans (hfb _ _ (hball _ _ (hTc j) (hyZ Z hZ)))
    · intro j Z Z' hZ hZ'
      have h5 := hLip (A.val t + sr.cn j * H) (A.vec y + Z) (A.val t + sr.cn j * H) (A.vec y + Z') (hball _ _ (hTc j) (hyZ Z hZ))
        (hball _ _ (hTc j) (hyZ Z' hZ'))
      rw [Prod.mk_sub_mk, sub_self, norm_pair, add_sub_add_left_eq_sub] at h5
      exact h5
  have hJ := hjac t y ht hy hTm.1 hTm.2 (by linarith)
  obtain ⟨η, hη⟩ : ∃ η : ℝ, η = (sc.ns * n : ℝ) * (5 * (u * big G ^ 3) + H * α * (ε + 3 * L * (u * big G ^ 2))) + u * big G ^ 3 := ⟨_, rfl⟩
  obtain ⟨ζ, hζ⟩ : ∃ ζ : ℝ, ζ = 2 * (u * big G) := ⟨_, rfl⟩
  obtain ⟨q, hq⟩ : ∃ q : ℝ, q = H * (sc.ns * (α * Jb)) + (sc.ns * n : ℝ) * (4 * (u * big G ^ 2)) := ⟨_, rfl⟩
  obtain ⟨b', hb'⟩ : ∃ b' : ℝ, b' = H * (sc.ns * (α * L)) := ⟨_, rfl⟩
  obtain ⟨a0, ha0⟩ : ∃ a0 : ℝ, a0 = H * (sc.ns * (α * M)) := ⟨_, rfl⟩
  have hPu0 : 0 ≤ P * u := by positivity
  have hE : η + ρ + ζ ≤ k1 * (u + H * ε + ρ) := by
    have e1 : ρ ≤ k1 * ρ := le_mul_of_one_le_left hρ hk1c
    rw [hη, hζ, hsc]
    rw [hub3P] at hsum ⊢
    linarith
  have hEν : k1 * (u + H * ε + ρ) ≤ S * (u + ε + ρ) := mul_le_mul hk1S (by linarith) (by linarith) (by linarith)
  have hqb : q + b' ≤ k3 * (H + u) := by
    have e1 : s * n * (4 * (u * big G ^ 2)) ≤ s * n * (4 * (P * u)) := mul_le_mul_of_nonneg_left (by linarith) hm0
    have e2 : 0 ≤ s * (α * (Jb + L)) * u := by positivity
    have e3 : 0 ≤ s * n * (4 * P) * H := by positivity
    rw [hq, hb', hsc, hk3]
    linarith
  have hb'0 : 0 ≤ b' := by rw [hb']; positivity
  have hq0 : 0 ≤ q := by rw [hq]; positivity
  have hqbS : q + b' ≤ S * H + S * u := by
    have := pS (show 0 ≤ H + u by linarith) hk3S
    linarith
  have ha0k : a0 = k4 * H := by rw [ha0, hk4, hsc]; ring
  have ha0S : a0 ≤ S * H := by rw [ha0k]; exact pS hd0 hk4S
  have ha00 : 0 ≤ a0 := by rw [ha0k]; positivity
  obtain ⟨m1, m2, m3, m4⟩ := irk_float_newton cI hB hnt hαa hαc ht hdt hH hy (habs _ hTm) (fun k => (le_pi (A.vec y) k).trans hyR) (by norm_num) hrhs hJ
    hρ hlu hη hζ hq hb' ha0 (by linarith) (by linarith) (by linarith) hxf hRf hx1 hR1 hn hst
  have hη0 : 0 ≤ η := by rw [hη]; positivity
  have hζ0 : 0 ≤ ζ := by rw [hζ]; positivity
  -- the residual
  obtain ⟨Res, hRes⟩ : ∃ Res : ℝ, Res = ‖stageRes sc.ns sr.a sr.cn f (A.val t) H (A.vec y) (A.vec r.Y)‖ := ⟨_, rfl⟩
  have hRes0 : 0 ≤ Res := by rw [hRes]; exact norm_nonneg _
  rw [← hRes] at m3 m4
  have hqba : (q + b') * a0 ≤ k3 * k4 * (H ^ 2 + u) := by
    have e1 : (q + b') * a0 ≤ k3 * (H + u) * (k4 * H) := by
      rw [ha0k]; exact mul_le_mul_of_nonneg_right hqb (by positivity)
    have e2 : H * u ≤ u := mul_le_of_le_one_left hu hH1
    have e3 := mul_le_mul_of_nonneg_left e2 (show 0 ≤ k3 * k4 by positivity)
    linarith
  have hRes1 : Res ≤ 1 := by
    have e1 : (q + b') * a0 ≤ 1 * a0 := mul_le_mul_of_nonneg_right (by linarith) ha00
    linarith
  have hk34 : 0 ≤ k3 * k4 := by positivity
  obtain ⟨x, hx⟩ : ∃ x : ℝ, x = u + H * ε + ρ := ⟨_, rfl⟩
  rw [← hx] at hE hEν
  have hx0 : 0 ≤ x := by rw [hx]; positivity
  have hux : u ≤ x := by rw [hx]; linarith
  have hr1 : Res ≤ c * (x + H ^ 2) := by
    have e1 : 0 ≤ H ^ 2 := sq_nonneg H
    have e2 : k3 * k4 * u ≤ k3 * k4 * x := mul_le_mul_of_nonneg_left hux hk34
    have e3 : (4 / 3 * k3 * k4 + 4 * k1) * (x + H ^ 2) ≤ c * (x + H ^ 2) := mul_le_mul_of_nonneg_right (by rw [hcd]; linarith) (by linarith)
    have e4 : 0 ≤ k1 * H ^ 2 := by positivity
    linarith
  have hsq : Real.sqrt ((2 * (sc.ns * n) + 1) * (u * big G)) = k5 * Real.sqrt u := by
    rw [hk5, hsc, ← Real.sqrt_mul (by positivity)]
    congr 1
    ring
  have hsu := Real.sqrt_nonneg u
  obtain ⟨τ, hτ⟩ : ∃ τ : ℝ, τ = |A.val Rtol| + H * |A.val xtol| + Real.sqrt u := ⟨_, rfl⟩
  have hRt := abs_nonneg (A.val Rtol)
  have hHxt : 0 ≤ H * |A.val xtol| := by positivity
  have hr2 : Res ≤ c * (x + τ) := by
    have e1 : (q + b') * |A.val xtol| ≤ k3 * (H * |A.val xtol|) + k3 * u := by
      have e : (q + b') * |A.val xtol| ≤ k3 * (H + u) * |A.val xtol| := mul_le_mul_of_nonneg_right hqb (abs_nonneg _)
      have e' : k3 * u * |A.val xtol| ≤ k3 * u * 1 := mul_le_mul_of_nonneg_left hx1 (by positivity)
      linarith
    have e2 : k3 * u ≤ k3 * x := mul_le_mul_of_nonneg_left hux hk30
    rw [hsq] at m4
    have e3 : (1 + k3 + 2 * k5 + 2 * k1) * (x + τ) ≤ c * (x + τ) := mul_le_mul_of_nonneg_right (by rw [hcd]; linarith) (by rw [hτ]; positivity)
    have e4 : 0 ≤ (1 + 2 * k5) * x := by positivity
    have e5 : 0 ≤ k3 * (|A.val Rtol| + Real.sqrt u) := by positivity
    have e6 : 0 ≤ 2 * k5 * (|A.val Rtol| + H * |A.val xtol|) := by positivity
    have e7 : 0 ≤ 2 * k1 * τ := by rw [hτ]; positivity
    have e8 : (1 + k3 + 2 * k5 + 2 * k1) * (x + τ) = (1 + 2 * k5) * x + k3 * x + 2 * (k1 * x) + (1 + k3 + 2 * k5) * τ + 2 * k1 * τ := by ring
    rw [e8] at e3
    rw [hτ] at e3 e7 ⊢
    linarith
  have hr3 : Res ≤ c * (x + newtonLeft u H |A.val xtol| |A.val Rtol|) := by
    unfold newtonLeft
    rw [← hτ]
    rcases min_choice (H ^ 2) τ with h | h <;> rw [h]
    · exact hr1
    · exact hr2
  -- the new value
  have hYhalf : ‖A.vec r.Y‖ ≤ 1 := m2.trans (by linarith)
  have hk6s : 3 * s * P * (u + ε + ρ) ≤ S * (u + ε + ρ) := by
    refine mul_le_mul_of_nonneg_right (le_trans ?_ hk6S) hν0
    rw [hk6]
    have hss : 0 ≤ s * (s * 3 + 2) := by positivity
    exact mul_le_mul_of_nonneg_right (by linarith) (by linarith)
  have hρb : ρ * big G ≤ P * ρ := by rw [mul_comm]; exact mul_le_mul_of_nonneg_right hbP hρ
  have hdwe : ρ * big G + 3 * (u * big G ^ 2) ≤ 3 * P * (u + ρ) := by
    have : 0 ≤ P * ρ := by positivity
    linarith
  have hsdw : s * (ρ * big G + 3 * (u * big G ^ 2)) ≤ s * (3 * P * (u + ρ)) := mul_le_mul_of_nonneg_left hdwe hs0
  have hupd_e : s * (s * (ρ * big G + 3 * (u * big G ^ 2)) + 2 * (u * big G)) + u * big G ≤ k6 * (u + ρ) := by
    have e1 : s * (s * (ρ * big G + 3 * (u * big G ^ 2)) + 2 * (u * big G)) ≤ s * (s * (3 * P * (u + ρ)) + 2 * (P * u)) :=
      mul_le_mul_of_nonneg_left (by linarith) hs0
    have e2 : 0 ≤ (s * 2 + 1) * (P * ρ) := by positivity
    have e3 : 0 ≤ 3 * s * P * (u + ρ) := by positivity
    rw [hk6]
    linarith
  have hk6ν : k6 * (u + ρ) ≤ S * (u + ε + ρ) := mul_le_mul hk6S (by linarith) (by linarith) (by linarith)
  have hupd : ∀ k, Near A (yn k) (A.vec y k + ∑ i : Fin sc.ns, A.vec r.Y (finProdFinEquiv (i, k)) * ∑ j : Fin sc.ns, X j i * sr.bw j) (k6 * (u + ρ)) := by
    intro k
    rw [hyn]
    have := update_near (A := A) (k := k) (Y := r.Y) (y := y) (α := α) hB hu hρ hnt (hia Ai X hAi hinv) hξ hXξ hα1 hαb (by rw [hsc, hG]; linarith) hy
      (fun k => (le_pi (A.vec y) k).trans (hyR.trans (by rw [hG]; linarith))) m1 (fun p => (le_pi (A.vec r.Y) p).trans hYhalf)
      (by have : u + ε + ρ ≤ S * (u + ε + ρ) := le_mul_of_one_le_left hν0 hS1
          linarith)
      (by have := pS hu hPS
          linarith)
      (by rw [hsc]
          have e1 : 3 * s * P * (u + ρ) ≤ 3 * s * P * (u + ε + ρ) := mul_le_mul_of_nonneg_left (by linarith) (by positivity)
          linarith)
      (by rw [hsc]; linarith)
    rw [hsc] at this
    exact this.mono hupd_e
  have hstep := hreal (A.val t) H Res (A.vec y) (A.vec r.Y) hTm.1 hd0 (hdh.trans (min_le_left _ _)) (by linarith) hyU hYhalf hRes1 hRes.ge
  -- the new time
  have htime : Near A (t + dt) (A.val t + H) (P * u) := by
    have h0 := near_add hG1 hB hu (Near.self (A := A) ht) (Near.self (A := A) hdt) ((habs _ hTm).trans (by rw [hG]; linarith))
      (by rw [hH, abs_of_nonneg hd0]; linarith) zero_le_one zero_le_one
    rw [hH] at h0
    exact h0.mono (by linarith)
  have hPuS : P * u ≤ S * u := pS hu (by linarith)
  have q1 := abs_le.mp htime.2
  have htm : A.val (t + dt) ∈ Icc a b := ⟨by linarith, by linarith⟩
  have hTH : A.val t + H ∈ Icc a b := ⟨by linarith, by linarith⟩
  refine ⟨htime.1, htime.2.trans (mul_le_mul_of_nonneg_right (by linarith) hu), fun k => (hupd k).1, ?_⟩
  have g1 : ‖A.vec yn - fun k => A.vec y k + ∑ i : Fin sc.ns, A.vec r.Y (finProdFinEquiv (i, k)) * ∑ j : Fin sc.ns, X j i * sr.bw j‖ ≤ k6 * (u + ρ) :=
    pi_le (by positivity) fun k => (hupd k).2
  have g2 : ‖U (A.val t + H) - U (A.val (t + dt))‖ ≤ V * (P * u) := by
    refine (hUl _ hTH _ htm).trans (mul_le_mul_of_nonneg_left ?_ hV)
    rw [abs_sub_comm]
    exact htime.2
  have g3 : ‖A.vec yn - U (A.val (t + dt))‖ ≤ k6 * (u + ρ) + ((1 + Λ * H) * ‖A.vec y - U (A.val t)‖ + C * H ^ (p + 1) + Γ * Res) + V * (P * u) := by
    have e : A.vec yn - U (A.val (t + dt)) = (A.vec yn - fun k => A.vec y k + ∑ i : Fin sc.ns, A.vec r.Y (finProdFinEquiv (i, k)) * ∑ j : Fin sc.ns, X j i * sr.bw j) +
        ((fun k => A.vec y k + ∑ i : Fin sc.ns, A.vec r.Y (finProdFinEquiv (i, k)) * ∑ j : Fin sc.ns, X j i * sr.bw j) - U (A.val t + H)) +
        (U (A.val t + H) - U (A.val (t + dt))) := by abel
    rw [e]
    exact (norm_add_le _ _).trans (add_le_add ((norm_add_le _ _).trans (add_le_add g1 hstep)) g2)
  have hμ0 : 0 ≤ newtonLeft u H |A.val xtol| |A.val Rtol| := le_min (sq_nonneg H) (by rw [← hτ, hτ]; positivity)
  generalize newtonLeft u H |A.val xtol| |A.val Rtol| = μ at hr3 hμ0 ⊢
  have g4 : Γ * Res ≤ Γ * c * (x + μ) := by
    rw [mul_assoc]; exact mul_le_mul_of_nonneg_left hr3 hΓ
  have g5 : C * H ^ (p + 1) = C * (H * H ^ p) := by rw [pow_succ']
  have g6 : 0 ≤ H * H ^ p := by positivity
  have g7 : H * (H ^ p + (u + ε)) + (u + ρ + μ) = H * H ^ p + H * u + (x + μ) := by rw [hx]; ring
  rw [g7]
  have g8 : 0 ≤ H * u := by positivity
  have g9 : C * (H * H ^ p) ≤ κ * (H * H ^ p) := mul_le_mul_of_nonneg_right (by linarith) g6
  have g10 : u + ρ ≤ x + μ := by rw [hx]; linarith
  have g11 : k6 * (u + ρ) ≤ k6 * (x + μ) := mul_le_mul_of_nonneg_left g10 hk60
  have g12 : V * (P * u) ≤ V * P * (x + μ) := by
    rw [← mul_assoc]; exact mul_le_mul_of_nonneg_left (by linarith) hVP
  have g13 : (k6 + Γ * c + V * P) * (x + μ) ≤ κ * (x + μ) := mul_le_mul_of_nonneg_right (by linarith) (by linarith)
  have g14 : 0 ≤ κ * (H * u) := mul_nonneg (by linarith) g8
  linarith

end Verif
