import Verif.BdfFloat

/-!
# BDF in arithmetic with rounding errors: the error of a run
-/

set_option autoImplicit false

namespace Verif
open Set

/-- times `j` steps apart, up to rounding -/
theorem times_drift {T : ℕ → ℝ} {H ω : ℝ} {N : ℕ} (hs : ∀ i, i + 1 < N → |T (i + 1) - T i - H| ≤ ω) (i j : ℕ)
    (hij : i + j < N) : |T (i + j) - T i - j * H| ≤ j * ω := by
  induction j with
  | zero => simp
  | succ j ih =>
    have h1 := abs_le.mp (ih (by omega))
    have h2 := abs_le.mp (hs (i + j) (by omega))
    rw [show i + (j + 1) = i + j + 1 from rfl]
    push_cast
    exact abs_le.mpr ⟨by linarith, by linarith⟩

/-- the error of a step from its residual -/
theorem bdf_recursion {n : ℕ} {f : ℝ → Vec ℝ n → Vec ℝ n} {U : ℝ → Vec ℝ n} {a b R L Bf K : ℝ} (S : SolFacts f U a b R L Bf K)
    {order : ℤ} (h0 : 0 < order) (h6 : order ≤ 6) {H ω τ : ℝ} {s : ℕ → ℝ} {V : ℕ → Vec ℝ n} {Y : Vec ℝ n} (hH0 : 0 ≤ H) (hω : 0 ≤ ω)
    (hτ : τ ∈ Icc a b) (hs : ∀ j < order.toNat, s j ∈ Icc a b) (hd : ∀ j < order.toNat, |s j - τ + (j + 1) * H| ≤ 6 * ω) (hY : ‖Y‖ ≤ R + 100) :
    ‖(Y - U τ) + ∑ j ∈ Finset.range order.toNat, (bdfC order j : ℝ) • (V j - U (s j))‖ ≤
      ‖bdfReal f order H τ V Y‖ + H * (L * ‖Y - U τ‖) + 11 * (36 * K * (H + ω) ^ 2 + 6 * (Bf * ω)) := by
  have hγ := bdfAbs_le h0 h6
  have hK := S.hK
  have hBf := S.hBf
  obtain ⟨hw0, hw1⟩ := bdfW_bounds h0 h6
  obtain ⟨r, hr⟩ : ∃ r : Vec ℝ n, r = ∑ j ∈ Finset.range order.toNat, (bdfC order j : ℝ) • (U (s j) - U τ + ((j + 1) * H) • f τ (U τ)) := ⟨_, rfl⟩
  have hre : r = U τ + ∑ j ∈ Finset.range order.toNat, (bdfC order j : ℝ) • U (s j) - (H * bdfW order) • f τ (U τ) := by
    have e1 : ∀ j ∈ Finset.range order.toNat, (bdfC order j : ℝ) • (U (s j) - U τ + ((j + 1) * H) • f τ (U τ)) =
        (bdfC order j : ℝ) • U (s j) - (bdfC order j : ℝ) • U τ - ((bdfC order j : ℝ) * (-(j + 1)) * H) • f τ (U τ) := by
      intro j _
      rw [smul_add, smul_sub, smul_smul, sub_eq_add_neg _ (((bdfC order j : ℝ) * (-(j + 1)) * H) • f τ (U τ)), ← neg_smul]
      congr 2
      ring
    rw [hr, Finset.sum_congr rfl e1, Finset.sum_sub_distrib, Finset.sum_sub_distrib, ← Finset.sum_smul, ← Finset.sum_smul,
      ← Finset.sum_mul, bdfC_sum h0 h6, bdfC_moment h0 h6, neg_smul, one_smul, mul_comm (bdfW order) H, sub_neg_eq_add, add_comm (U τ)]
  have hrn : ‖r‖ ≤ 11 * (36 * K * (H + ω) ^ 2 + 6 * (Bf * ω)) := by
    have : ‖r‖ ≤ bdfAbs order * (36 * K * (H + ω) ^ 2 + 6 * (Bf * ω)) := by
      rw [hr, bdfAbs, Finset.sum_mul]
      refine (norm_sum_le _ _).trans (Finset.sum_le_sum fun j hj => ?_)
      have hj' := Finset.mem_range.1 hj
      rw [norm_smul, Real.norm_eq_abs]
      refine mul_le_mul_of_nonneg_left ?_ (abs_nonneg _)
      have e : U (s j) - U τ + ((j + 1) * H) • f τ (U τ) = (U (s j) - U τ - (s j - τ) • f τ (U τ)) + (s j - τ + (j + 1) * H) • f τ (U τ) := by
        rw [add_smul]; abel
      rw [e]
      refine (norm_add_le _ _).trans (add_le_add ((S.hcons _ (hs j hj') _ hτ).trans ?_) ?_)
      · have d := abs_le.mp (hd j hj')
        have j6 : (j : ℝ) + 1 ≤ 6 := by exact_mod_cast (show j + 1 ≤ 6 by omega)
        have j0 : (0 : ℝ) ≤ j := Nat.cast_nonneg _
        have jH : ((j : ℝ) + 1) * H ≤ 6 * H := mul_le_mul_of_nonneg_right j6 hH0
        have jH0 : 0 ≤ ((j : ℝ) + 1) * H := by positivity
        have : (s j - τ) ^ 2 ≤ (6 * (H + ω)) ^ 2 := sq_le_sq' (by linarith) (by linarith)
        have := mul_le_mul_of_nonneg_left this hK
        linarith
      · rw [norm_smul, Real.norm_eq_abs]
        have h1 := mul_le_mul (hd j hj') (S.hbd τ hτ (U τ) (by linarith [S.hub τ hτ])) (norm_nonneg _) (by linarith)
        linarith
    refine this.trans (mul_le_mul_of_nonneg_right hγ ?_)
    positivity
  have hsplit : (Y - U τ) + ∑ j ∈ Finset.range order.toNat, (bdfC order j : ℝ) • (V j - U (s j)) =
      bdfReal f order H τ V Y + (H * (bdfW order : ℝ)) • (f τ Y - f τ (U τ)) - r := by
    rw [bdfReal_eq, hre]
    simp only [smul_sub, Finset.sum_sub_distrib]
    abel
  rw [hsplit]
  have hfl : ‖(H * (bdfW order : ℝ)) • (f τ Y - f τ (U τ))‖ ≤ H * (L * ‖Y - U τ‖) := by
    rw [norm_smul, Real.norm_eq_abs, abs_of_nonneg (mul_nonneg hH0 hw0)]
    exact mul_le_mul (mul_le_of_le_one_right hH0 hw1) (S.hlip _ hτ _ _ hY (by linarith [S.hub _ hτ])) (norm_nonneg _) hH0
  exact (norm_sub_le _ _).trans (add_le_add ((norm_add_le _ _).trans (add_le_add le_rfl hfl)) hrn)

/-- the error made in one step -/
noncomputable def bdfTau (Jb L Bf K H ω ε μ ρ : ℝ) (n : ℕ) : ℝ :=
  236 * (Jb + L) * Bf * (H * (H + ω)) + 396 * K * (H + ω) ^ 2 + 4 * (H * ε) + 66 * (Bf * ω) + (200 + 2 * n) * μ + 4 * ρ

section
variable {F : Type} [Add F] [Sub F] [Mul F] [Div F] [Neg F] [Scalar F] {n : ℕ} {u B : ℝ}

theorem bdf_float_step {A : FloatArith F u B} {la : LinAlg F} {fn : OdeFun F n} {f : ℝ → Vec ℝ n → Vec ℝ n} {U : ℝ → Vec ℝ n} {a b R L Bf K Jb ε ρ G : ℝ}
    (S : SolFacts f U a b R L Bf K) (hu : 0 ≤ u) (hε : 0 ≤ ε) (hρ : 0 ≤ ρ) (hJb : 0 ≤ Jb) (hacc : RhsAccurate A f U a b ε fn.fn)
    (hjac : JacBounded A U a b Jb fn.jac) (hsol : SolveAccurate A la n ρ) (hG : 25 * R + 79 + Bf + Jb ≤ G) (hGB : big G ≤ B) (hBB : 10000 ≤ B)
    {order : ℤ} (h0 : 0 < order) (h6 : order ≤ 6) {h : F} {H ω : ℝ} (hfh : isFin h = true) (hH : A.val h = H) (hH0 : 0 ≤ H) (hH1 : H ≤ 1) (hω : 0 ≤ ω)
    (hc1 : H * (Jb + L) + 5 * n * (u * big G ^ 2) ≤ 1 / 4) (hc2 : 177 * (Bf * (H + ω)) ≤ 1 / 100) (hc3 : H * ε + 50 * (u * big G ^ 2) + ρ ≤ 1 / 100)
    (hc4 : 48 * (u * big G ^ 2) + ε ≤ 1) {tF : ℕ → F} {N : ℕ} {y : ℕ → Vec F n}
    (hT : ∀ i < N, isFin (tF i) = true ∧ A.val (tF i) ∈ Icc a b) (hstep : ∀ i, i + 1 < N → |A.val (tF (i + 1)) - A.val (tF i) - H| ≤ ω)
    {i : ℕ} (hi : order.toNat + 1 ≤ i) (hiN : i < N) (hfin : ∀ l < i, ∀ k, isFin (y l k) = true)
    (hg : ∀ l < i, ‖A.vec (y l) - U (A.val (tF l))‖ ≤ 1 / 1000) {st st' : NewtonStatus F}
    (hn : newtonIterate la (bdfEq fn order h (tF i) fun j => y (i - 1 - j)) (y (i - 1)) bdfNewton st true = some (.ret (y i, st'))) (hconv : st'.conv = 0) :
    (∀ k, isFin (y i k) = true) ∧
      ‖(A.vec (y i) - U (A.val (tF i))) + ∑ j ∈ Finset.range order.toNat, (bdfC order j : ℝ) • (A.vec (y (i - 1 - j)) - U (A.val (tF (i - 1 - j))))‖ ≤
        H * (L + 44 * (Jb + L)) * (‖A.vec (y i) - U (A.val (tF i))‖ + ∑ j ∈ Finset.range order.toNat, ‖A.vec (y (i - 1 - j)) - U (A.val (tF (i - 1 - j)))‖) +
          bdfTau Jb L Bf K H ω ε (u * big G ^ 2) ρ n := by
  have hR := S.hR
  have hL := S.hL
  have hBf := S.hBf
  have hK := S.hK
  have hk6 : order.toNat ≤ 6 := by omega
  obtain ⟨es, hes⟩ : ∃ es, es = ∑ j ∈ Finset.range order.toNat, ‖A.vec (y (i - 1 - j)) - U (A.val (tF (i - 1 - j)))‖ := ⟨_, rfl⟩
  have hes0 : 0 ≤ es := by rw [hes]; exact Finset.sum_nonneg fun _ _ => norm_nonneg _
  have hes1 : es ≤ 1 / 100 := by
    rw [hes]
    refine (Finset.sum_le_sum fun j hj => hg (i - 1 - j) (by have := Finset.mem_range.1 hj; omega)).trans ?_
    rw [Finset.sum_const, Finset.card_range, nsmul_eq_mul]
    have : (order.toNat : ℝ) ≤ 6 := by exact_mod_cast hk6
    linarith
  have hσ : ∀ j < order.toNat, ‖A.vec (y (i - 1 - j)) - U (A.val (tF (i - 1 - j)))‖ ≤ es := by
    intro j hj
    rw [hes]
    exact Finset.single_le_sum (f := fun j => ‖A.vec (y (i - 1 - j)) - U (A.val (tF (i - 1 - j)))‖) (fun _ _ => norm_nonneg _) (Finset.mem_range.2 hj)
  -- the times
  have hd : ∀ j < order.toNat, |A.val (tF (i - 1 - j)) - A.val (tF i) + (j + 1) * H| ≤ 6 * ω := by
    intro j hj
    have := times_drift (T := fun i => A.val (tF i)) hstep (i - 1 - j) (j + 1) (by omega)
    rw [show i - 1 - j + (j + 1) = i by omega] at this
    have j6 : ((j + 1 : ℕ) : ℝ) ≤ 6 := by exact_mod_cast (show j + 1 ≤ 6 by omega)
    have h1 := mul_le_mul_of_nonneg_right j6 hω
    have h2 := abs_le.mp this
    push_cast at h1 h2
    exact abs_le.mpr ⟨by linarith, by linarith⟩
  have hs0 : ∀ j < order.toNat, |A.val (tF (i - 1 - j)) - A.val (tF (i - 1))| ≤ 5 * (H + ω) := by
    intro j hj
    have := times_apart (T := fun i => A.val (tF i)) hH0 hstep (i - 1 - j) j (by omega)
    rw [show i - 1 - j + j = i - 1 by omega] at this
    have j6 : (j : ℝ) ≤ 5 := by exact_mod_cast (show j ≤ 5 by omega)
    rw [abs_sub_comm]
    exact this.trans (mul_le_mul_of_nonneg_right j6 (by linarith))
  have hst : |A.val (tF i) - A.val (tF (i - 1))| ≤ H + ω := by
    have := times_apart (T := fun i => A.val (tF i)) hH0 hstep (i - 1) 1 (by omega)
    rw [show i - 1 + 1 = i by omega] at this
    simpa using this
  obtain ⟨ti, tm⟩ := hT i hiN
  obtain ⟨n1, n2, n3⟩ := bdf_float_newton (v := fun j => y (i - 1 - j)) (s := fun j => A.val (tF (i - 1 - j))) (σ := es) (ω := ω) S hu hε hρ hJb hacc hjac hsol
    hG hGB hBB h0 h6 hfh hH hH0 hH1 hω hc1 hc2 hc3 hc4 ti tm (fun j hj => hfin _ (by omega)) (fun j hj => (hT _ (by omega)).2)
    (fun j hj => by rw [Nat.sub_zero]; exact hs0 j hj) (by rw [Nat.sub_zero]; exact hst) hσ hes1 hn hconv
  refine ⟨n1, ?_⟩
  have hrec := bdf_recursion S h0 h6 (V := fun j => A.vec (y (i - 1 - j))) (s := fun j => A.val (tF (i - 1 - j))) (Y := A.vec (y i)) hH0 hω tm
    (fun j hj => (hT _ (by omega)).2) hd n2
  refine hrec.trans ?_
  rw [← hes]
  obtain ⟨μ, hμ⟩ : ∃ μ, μ = u * big G ^ 2 := ⟨_, rfl⟩
  have hμ0 : 0 ≤ μ := by rw [hμ]; positivity
  rw [← hμ] at n3 ⊢
  obtain ⟨ei, hei⟩ : ∃ ei, ei = ‖A.vec (y i) - U (A.val (tF i))‖ := ⟨_, rfl⟩
  have hei0 : 0 ≤ ei := by rw [hei]; exact norm_nonneg _
  rw [← hei]
  have z1 : 0 ≤ H * (44 * (Jb + L)) * ei := by positivity
  have z2 : 0 ≤ H * L * es := by positivity
  have z3 : 0 ≤ H * (Jb + L) * es := by positivity
  have z4 : 5 * n * μ * (22 * es + 177 * (Bf * (H + ω))) ≤ 5 * n * μ * (1 / 4) := mul_le_mul_of_nonneg_left (by linarith) (by positivity)
  have z5 : 0 ≤ (n : ℝ) * μ := by positivity
  unfold bdfTau
  nlinarith

theorem bdf_errors {A : FloatArith F u B} {la : LinAlg F} {fn : OdeFun F n} {f : ℝ → Vec ℝ n → Vec ℝ n} {U : ℝ → Vec ℝ n} {a b R L Bf K Jb ε ρ G : ℝ}
    (S : SolFacts f U a b R L Bf K) (hu : 0 ≤ u) (hε : 0 ≤ ε) (hρ : 0 ≤ ρ) (hJb : 0 ≤ Jb) (hacc : RhsAccurate A f U a b ε fn.fn)
    (hjac : JacBounded A U a b Jb fn.jac) (hsol : SolveAccurate A la n ρ) (hG : 25 * R + 79 + Bf + Jb ≤ G) (hGB : big G ≤ B) (hBB : 10000 ≤ B)
    {order : ℤ} (h0 : 0 < order) (h6 : order ≤ 6) {h : F} {H ω e0 : ℝ} (hfh : isFin h = true) (hH : A.val h = H) (hH0 : 0 ≤ H) (hH1 : H ≤ 1) (hω : 0 ≤ ω)
    (hc1 : H * (Jb + L) + 5 * n * (u * big G ^ 2) ≤ 1 / 4) (hc2 : 177 * (Bf * (H + ω)) ≤ 1 / 100) (hc3 : H * ε + 50 * (u * big G ^ 2) + ρ ≤ 1 / 100)
    (hc4 : 48 * (u * big G ^ 2) + ε ≤ 1) {tF : ℕ → F} {N : ℕ} {y : ℕ → Vec F n} (hN : order.toNat + 1 ≤ N)
    (hT : ∀ i < N, isFin (tF i) = true ∧ A.val (tF i) ∈ Icc a b) (hstep : ∀ i, i + 1 < N → |A.val (tF (i + 1)) - A.val (tF i) - H| ≤ ω)
    (hfin0 : ∀ k, isFin (y 0 k) = true) (hy0 : ∀ i < order.toNat + 1, y i = y 0) (he0 : ‖A.vec (y 0) - U (A.val (tF 0))‖ ≤ e0)
    (hy : ∀ i, order.toNat + 1 ≤ i → i < N → ∃ st st',
      newtonIterate la (bdfEq fn order h (tF i) fun j => y (i - 1 - j)) (y (i - 1)) bdfNewton st true = some (.ret (y i, st')) ∧ st'.conv = 0)
    {κ bb : List ℝ} {Sc D : ℝ} (hcert : lmul κ (bdfRho order) = lmul (1 :: bb) [1, -1]) (hbb : l1 bb < 1) (hSc : l1 κ / (1 - l1 bb) ≤ Sc)
    (hAw : Sc * (H * (L + 44 * (Jb + L)) * l1 (List.replicate (order.toNat + 1) 1)) ≤ 1 / 2)
    (hD : 2 * (Sc * (l1 (bdfRho order) * (7 * (e0 + 6 * (Bf * (H + ω)))) + N * bdfTau Jb L Bf K H ω ε (u * big G ^ 2) ρ n)) *
      Real.exp (2 * (Sc * (H * (L + 44 * (Jb + L)) * l1 (List.replicate (order.toNat + 1) 1))) * (N - 1 : ℕ)) ≤ D) (hD1 : 1000 * D ≤ 1) :
    ∀ i < N, (∀ k, isFin (y i k) = true) ∧ ‖A.vec (y i) - U (A.val (tF i))‖ ≤ D := by
  have hL := S.hL
  have hBf := S.hBf
  have hK := S.hK
  obtain ⟨e, he⟩ : ∃ e : ℕ → Vec ℝ n, e = fun i => A.vec (y i) - U (A.val (tF i)) := ⟨_, rfl⟩
  have hei : ∀ i, e i = A.vec (y i) - U (A.val (tF i)) := fun i => by rw [he]
  obtain ⟨E, hE⟩ : ∃ E : ℕ → Vec ℝ n, E = fun i => (1000 : ℝ) • e i := ⟨_, rfl⟩
  have hEn : ∀ i, ‖E i‖ = 1000 * ‖e i‖ := by
    intro i
    rw [hE]
    simp only [norm_smul, Real.norm_eq_abs]
    norm_num
  have he1 : ∀ i, ‖E i‖ ≤ 1 → ‖A.vec (y i) - U (A.val (tF i))‖ ≤ 1 / 1000 := by
    intro i h
    rw [hEn, hei] at h
    linarith
  -- finite values as long as the errors are small
  have hfin : ∀ i, i < N → (∀ l < i, ‖E l‖ ≤ 1) → ∀ k, isFin (y i k) = true := by
    intro i
    induction i using Nat.strong_induction_on with
    | _ i ih =>
      intro hi hg
      by_cases hc : i < order.toNat + 1
      · rw [hy0 i hc]; exact hfin0
      · obtain ⟨st, st', hn, hcv⟩ := hy i (by omega) hi
        exact (bdf_float_step S hu hε hρ hJb hacc hjac hsol hG hGB hBB h0 h6 hfh hH hH0 hH1 hω hc1 hc2 hc3 hc4 hT hstep (by omega) hi
          (fun l hl => ih l hl (by omega) fun l' hl' => hg l' (by omega)) (fun l hl => he1 l (hg l hl)) hn hcv).1
  obtain ⟨τ, hτ⟩ : ∃ τ, τ = bdfTau Jb L Bf K H ω ε (u * big G ^ 2) ρ n := ⟨_, rfl⟩
  have hτ0 : 0 ≤ τ := by rw [hτ]; unfold bdfTau; positivity
  obtain ⟨a0, ha0⟩ : ∃ a0, a0 = 7 * (e0 + 6 * (Bf * (H + ω))) := ⟨_, rfl⟩
  rw [← hτ, ← ha0] at hD
  have hcast : ((N - 1 : ℕ) : ℝ) + 1 = N := by
    rw [Nat.cast_sub (by omega), Nat.cast_one]; ring
  have hbound : 2 * (Sc * (l1 (bdfRho order) * (1000 * a0) + (((N - 1 : ℕ) : ℝ) + 1) * (1000 * τ))) *
      Real.exp (2 * (Sc * (H * (L + 44 * (Jb + L)) * l1 (List.replicate (order.toNat + 1) 1))) * (N - 1 : ℕ)) ≤ 1000 * D := by
    rw [hcast]
    refine le_trans (le_of_eq ?_) (mul_le_mul_of_nonneg_left hD (by norm_num))
    ring
  have hmain := multistep_error (e := E) (w := List.replicate (order.toNat + 1) 1) (N0 := order.toNat + 1) (M := N - 1) (a0 := 1000 * a0)
    (A := H * (L + 44 * (Jb + L))) (τ := 1000 * τ) (S := Sc) hcert hbb hSc (by positivity) (by positivity) ?_ ?_ hAw (hbound.trans hD1)
  · have hall : ∀ i < N, ‖E i‖ ≤ 1000 * D := by
      intro i hi
      refine (hmain i (by omega)).trans (le_trans ?_ hbound)
      have hS0 : 0 ≤ Sc := le_trans (div_nonneg (l1_nonneg _) (by linarith)) hSc
      have ha00 : 0 ≤ a0 := by
        rw [ha0]
        have := (norm_nonneg _).trans he0
        positivity
      have hr := l1_nonneg (bdfRho order)
      have hw := l1_nonneg (List.replicate (order.toNat + 1) (1 : ℝ))
      refine mul_le_mul_of_nonneg_left (Real.exp_le_exp.2 ?_) (by positivity)
      exact mul_le_mul_of_nonneg_left (by exact_mod_cast (show i ≤ N - 1 by omega)) (by positivity)
    intro i hi
    refine ⟨hfin i hi fun l hl => (hall l (by omega)).trans hD1, ?_⟩
    have := hall i hi
    rw [hEn, hei] at this
    linarith
  · -- the starting values
    have hle : ∀ i ∈ Finset.range (order.toNat + 1), ‖E i‖ ≤ 1000 * (e0 + 6 * (Bf * (H + ω))) := by
      intro i hi
      have hi' := Finset.mem_range.1 hi
      rw [hEn, hei, hy0 i hi']
      refine mul_le_mul_of_nonneg_left ?_ (by norm_num)
      have e1 : A.vec (y 0) - U (A.val (tF i)) = (A.vec (y 0) - U (A.val (tF 0))) + (U (A.val (tF 0)) - U (A.val (tF i))) := by abel
      rw [e1]
      refine (norm_add_le _ _).trans (add_le_add he0 ((S.hul _ (hT 0 (by omega)).2 _ (hT i (by omega)).2).trans ?_))
      have := times_apart (T := fun i => A.val (tF i)) hH0 hstep 0 i (by omega)
      rw [zero_add] at this
      rw [abs_sub_comm]
      have i6 : (i : ℝ) ≤ 6 := by exact_mod_cast (show i ≤ 6 by omega)
      have h1 := mul_le_mul_of_nonneg_left (this.trans (mul_le_mul_of_nonneg_right i6 (by linarith))) hBf
      linarith
    refine (Finset.sum_le_sum hle).trans ?_
    rw [Finset.sum_const, Finset.card_range, nsmul_eq_mul, ha0]
    have h7 : ((order.toNat + 1 : ℕ) : ℝ) ≤ 7 := by exact_mod_cast (show order.toNat + 1 ≤ 7 by omega)
    have he00 := (norm_nonneg _).trans he0
    have := mul_le_mul_of_nonneg_right h7 (show 0 ≤ 1000 * (e0 + 6 * (Bf * (H + ω))) by positivity)
    linarith
  · -- the steps
    intro i hi hiM hg
    obtain ⟨st, st', hn, hcv⟩ := hy i hi (by omega)
    obtain ⟨-, g2⟩ := bdf_float_step S hu hε hρ hJb hacc hjac hsol hG hGB hBB h0 h6 hfh hH hH0 hH1 hω hc1 hc2 hc3 hc4 hT hstep hi (by omega)
      (fun l hl => hfin l (by omega) fun l' hl' => hg l' (by omega)) (fun l hl => he1 l (hg l hl)) hn hcv
    rw [lconv_bdfRho order _ (by omega), lconv_ones _ _ (by omega)]
    have e1 : E i + ∑ j ∈ Finset.range order.toNat, (bdfC order j : ℝ) • E (i - 1 - j) =
        (1000 : ℝ) • (e i + ∑ j ∈ Finset.range order.toNat, (bdfC order j : ℝ) • e (i - 1 - j)) := by
      rw [hE, smul_add, Finset.smul_sum]
      simp only [smul_comm (1000 : ℝ)]
    rw [e1, norm_smul, Real.norm_eq_abs, show |(1000 : ℝ)| = 1000 by norm_num]
    simp only [hEn, ← Finset.mul_sum]
    simp only [← hei] at g2
    rw [← hτ] at g2
    linarith

end
end Verif
