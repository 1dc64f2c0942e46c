import Verif.IrkSmall

/-!
# The Newton iterates of a stage solve with a small step: they stay near zero and contract
-/

set_option linter.unusedSectionVars false

namespace Verif
open Spec

variable {n : ℕ} {nd : Bool} {la : LinAlg ℝ} {fn : OdeFun ℝ n} {sc : SolverCoeffs ℝ}

/-- a Newton increment is at most twice as large as the residual it is to remove -/
theorem increment_le (hla : la.Exact) (hs : la.Sound) {t h : ℝ} {y : Vec ℝ n} {refresh : ℤ} {xtol Rtol : ℝ}
    {i : ℕ} {Y0 : Vec ℝ (sc.ns * n)} {count : IrkCounters} {log : CallLog ℝ n} {k : ℕ} {r : StageResult ℝ (sc.ns * n) n} {m : ℕ}
    {Ys dYs : ℕ → Vec ℝ (sc.ns * n)}
    (H : StageRun nd la fn sc t h y refresh xtol Rtol i Y0 count log k r m Ys dYs) {j : ℕ} (hj : j < m)
    (hh : 0 ≤ h) {Jb B : ℝ} (hJ : ∀ q, ∑ l, |fn.jac t y q l| ≤ Jb) (hB : 0 ≤ B) (hsmall : h * absA sc * Jb ≤ 1 / 2)
    (hR : ∀ p, |constructR fn.fn sc t h y (Ys j) p| ≤ B) (p : Fin (sc.ns * n)) : |dYs j p| ≤ 2 * B := by
  have hA := absA_nonneg sc
  refine half_bound (dYs j) hB (fun D hD hb p => ?_) p
  obtain ⟨⟨p, q⟩, rfl⟩ := finProdFinEquiv.surjective p
  have heq := C36_newton_equation hla hs H hj p q
  have hJb : 0 ≤ Jb := (Finset.sum_nonneg fun _ _ => abs_nonneg _).trans (hJ q)
  have b1 : |∑ u : Fin sc.ns, sc.a p u * ∑ l, fn.jac t y q l * dYs j (finProdFinEquiv (u, l))| ≤ absA sc * (Jb * D) :=
    abs_sum_mul_le _ _ (row_le_absA sc p) (fun u => abs_sum_mul_le _ _ (hJ q) (fun l => hb _) hD) (by positivity)
  have heq' : dYs j (finProdFinEquiv (p, q)) =
      h * (∑ u : Fin sc.ns, sc.a p u * ∑ l, fn.jac t y q l * dYs j (finProdFinEquiv (u, l))) +
      - constructR fn.fn sc t h y (Ys j) (finProdFinEquiv (p, q)) := by linarith
  rw [heq']
  refine (abs_add_le _ _).trans ?_
  rw [abs_mul, abs_of_nonneg hh, abs_neg]
  have c1 := mul_le_mul_of_nonneg_left b1 hh
  have c2 := hR (finProdFinEquiv (p, q))
  have c3 : h * absA sc * Jb * D ≤ 1 / 2 * D := mul_le_mul_of_nonneg_right hsmall hD
  nlinarith

/-- Lipschitz condition at the stage times for arguments within `ρ` of `y` -/
def LipNear (fn : OdeFun ℝ n) (sc : SolverCoeffs ℝ) (t h : ℝ) (y : Vec ℝ n) (ρ L : ℝ) : Prop :=
  ∀ (j : Fin sc.ns) (z w : Vec ℝ n) (D : ℝ), (∀ l, |z l| ≤ ρ) → (∀ l, |w l| ≤ ρ) → (∀ l, |z l - w l| ≤ D) →
    ∀ q, |fn.fn (t + sc.cn j * h) (y + z) q - fn.fn (t + sc.cn j * h) (y + w) q| ≤ L * D

/-- the residual after an increment of size at most `D` -/
theorem residual_next (hla : la.Exact) (hs : la.Sound) {t h : ℝ} {y : Vec ℝ n} {refresh : ℤ} {xtol Rtol : ℝ}
    {i : ℕ} {Y0 : Vec ℝ (sc.ns * n)} {count : IrkCounters} {log : CallLog ℝ n} {k : ℕ} {r : StageResult ℝ (sc.ns * n) n} {m : ℕ}
    {Ys dYs : ℕ → Vec ℝ (sc.ns * n)}
    (H : StageRun nd la fn sc t h y refresh xtol Rtol i Y0 count log k r m Ys dYs) {j : ℕ} (hj : j < m)
    (hh : 0 ≤ h) {Jb L ρ D : ℝ} (hJ : ∀ q, ∑ l, |fn.jac t y q l| ≤ Jb) (hL0 : 0 ≤ L) (hL : LipNear fn sc t h y ρ L)
    (hD : 0 ≤ D) (hd : ∀ p, |dYs j p| ≤ D) (h1 : ∀ p, |Ys j p| ≤ ρ) (h2 : ∀ p, |Ys (j + 1) p| ≤ ρ) (p : Fin (sc.ns * n)) :
    |constructR fn.fn sc t h y (Ys (j + 1)) p| ≤ h * absA sc * (Jb + L) * D := by
  have hA := absA_nonneg sc
  obtain ⟨⟨p, q⟩, rfl⟩ := finProdFinEquiv.surjective p
  have hJb : 0 ≤ Jb := (Finset.sum_nonneg fun _ _ => abs_nonneg _).trans (hJ q)
  have heq := C36_newton_equation hla hs H hj p q
  rw [constructR_real] at heq
  rw [constructR_real]
  have hup : ∀ a, Ys (j + 1) a = Ys j a + dYs j a := fun a => by
    rw [H.upd j hj]; simp
  have b1 : |∑ u : Fin sc.ns, sc.a p u * ∑ l, fn.jac t y q l * dYs j (finProdFinEquiv (u, l))| ≤ absA sc * (Jb * D) :=
    abs_sum_mul_le _ _ (row_le_absA sc p) (fun u => abs_sum_mul_le _ _ (hJ q) (fun l => hd _) hD) (by positivity)
  have b2 : |∑ u : Fin sc.ns, sc.a p u * (fn.fn (t + sc.cn u * h) (y + fun l => Ys (j + 1) (finProdFinEquiv (u, l))) q -
      fn.fn (t + sc.cn u * h) (y + fun l => Ys j (finProdFinEquiv (u, l))) q)| ≤ absA sc * (L * D) := by
    refine abs_sum_mul_le _ _ (row_le_absA sc p) (fun u => ?_) (by positivity)
    refine hL u _ _ D (fun l => h2 _) (fun l => h1 _) (fun l => ?_) q
    rw [hup, add_sub_cancel_left]
    exact hd _
  have e : Ys (j + 1) (finProdFinEquiv (p, q)) - h * ∑ u : Fin sc.ns, sc.a p u *
        fn.fn (t + sc.cn u * h) (y + fun l => Ys (j + 1) (finProdFinEquiv (u, l))) q =
      h * (∑ u : Fin sc.ns, sc.a p u * ∑ l, fn.jac t y q l * dYs j (finProdFinEquiv (u, l))) -
      h * ∑ u : Fin sc.ns, sc.a p u * (fn.fn (t + sc.cn u * h) (y + fun l => Ys (j + 1) (finProdFinEquiv (u, l))) q -
      fn.fn (t + sc.cn u * h) (y + fun l => Ys j (finProdFinEquiv (u, l))) q) := by
    simp only [mul_sub (sc.a p _), Finset.sum_sub_distrib, hup (finProdFinEquiv (p, q))]
    linarith
  rw [e]
  refine (abs_sub _ _).trans ?_
  rw [abs_mul, abs_mul, abs_of_nonneg hh]
  have c1 := mul_le_mul_of_nonneg_left b1 hh
  have c2 := mul_le_mul_of_nonneg_left b2 hh
  nlinarith

/-- **the iterates**: with a small step they stay within `4 h |A| M` of zero, and the increments halve -/
theorem newton_iterates (hla : la.Exact) (hs : la.Sound) {t h : ℝ} {y : Vec ℝ n} {refresh : ℤ} {xtol Rtol : ℝ}
    {i : ℕ} {count : IrkCounters} {log : CallLog ℝ n} {k : ℕ} {r : StageResult ℝ (sc.ns * n) n} {m : ℕ}
    {Ys dYs : ℕ → Vec ℝ (sc.ns * n)}
    (H : StageRun nd la fn sc t h y refresh xtol Rtol i (fun _ => lit 0) count log k r m Ys dYs)
    (hh : 0 ≤ h) {Jb M L ρ : ℝ} (hJ : ∀ q, ∑ l, |fn.jac t y q l| ≤ Jb) (hM0 : 0 ≤ M)
    (hM : ∀ (j : Fin sc.ns) q, |fn.fn (t + sc.cn j * h) y q| ≤ M) (hL0 : 0 ≤ L) (hL : LipNear fn sc t h y ρ L)
    (hsmall : h * absA sc * Jb ≤ 1 / 2) (hsmall2 : h * absA sc * (Jb + L) ≤ 1 / 4) (hρ : 4 * (h * absA sc * M) ≤ ρ) :
    (∀ j ≤ m, ∀ p, |Ys j p| ≤ 4 * (h * absA sc * M)) ∧ ∀ j < m, ∀ p, |dYs j p| ≤ 2 * (h * absA sc * M) * (1 / 2) ^ j := by
  have hA := absA_nonneg sc
  set X := h * absA sc * M with hX
  have hX0 : 0 ≤ X := by positivity
  have key : ∀ j, j ≤ m → (∀ p, |Ys j p| ≤ 4 * X * (1 - (1 / 2) ^ j)) ∧ (j < m → ∀ p, |dYs j p| ≤ 2 * X * (1 / 2) ^ j) := by
    intro j
    induction j with
    | zero =>
      intro _
      refine ⟨fun p => by rw [H.start]; simp, fun hm p => ?_⟩
      obtain ⟨e1, e2⟩ := first_pass hla hs H hm hh hJ hM0 hM hsmall p
      rw [← e1]
      simpa using e2
    | succ j ih =>
      intro hj
      obtain ⟨i1, i2⟩ := ih (by omega)
      have i2 := i2 (by omega)
      have hpow : (0 : ℝ) < (1 / 2) ^ j := by positivity
      have hpow1 : (1 / 2 : ℝ) ^ j ≤ 1 := pow_le_one₀ (by norm_num) (by norm_num)
      have hY : ∀ p, |Ys (j + 1) p| ≤ 4 * X * (1 - (1 / 2) ^ (j + 1)) := by
        intro p
        have hup : Ys (j + 1) p = Ys j p + dYs j p := by rw [H.upd j (by omega)]; simp
        rw [hup]
        refine (abs_add_le _ _).trans ?_
        have := i1 p
        have := i2 p
        rw [pow_succ]
        linarith
      refine ⟨hY, fun hj' => ?_⟩
      have g1 : ∀ p, |Ys j p| ≤ ρ := fun p => (i1 p).trans (by nlinarith)
      have g2 : ∀ p, |Ys (j + 1) p| ≤ ρ := fun p => (hY p).trans (by
        have : (0 : ℝ) < (1 / 2) ^ (j + 1) := by positivity
        nlinarith)
      have hres := residual_next hla hs H (j := j) (by omega) hh hJ hL0 hL (by positivity) i2 g1 g2
      intro p
      refine (increment_le hla hs H hj' hh hJ (by positivity) hsmall (B := 1 / 4 * (2 * X * (1 / 2) ^ j)) (fun p => ?_) p).trans ?_
      · exact (hres p).trans (mul_le_mul_of_nonneg_right hsmall2 (by positivity))
      · rw [pow_succ]; linarith
  refine ⟨fun j hj p => ((key j hj).1 p).trans ?_, fun j hj => (key j hj.le).2 hj⟩
  have : (0 : ℝ) < (1 / 2) ^ j := by positivity
  nlinarith

/-- **the accepted stage values** of a stage solve with a small step: they are small, and their residual is below the residual
tolerance or below `h |A| (‖J‖ + L)` times the increment tolerance -/
theorem stage_values (hla : la.Exact) (hs : la.Sound) {t h : ℝ} {y : Vec ℝ n} {maxit refresh : ℤ} {xtol Rtol : ℝ}
    {count : IrkCounters} {log : CallLog ℝ n} {r : StageResult ℝ (sc.ns * n) n}
    (hr : newtonSolveStages nd la fn sc t h y maxit refresh xtol Rtol count log = .ret r) (hst : r.status = 0)
    (hh : 0 ≤ h) {Jb M L ρ : ℝ} (hJ : ∀ q, ∑ l, |fn.jac t y q l| ≤ Jb) (hM0 : 0 ≤ M)
    (hM : ∀ (j : Fin sc.ns) q, |fn.fn (t + sc.cn j * h) y q| ≤ M) (hL0 : 0 ≤ L) (hL : LipNear fn sc t h y ρ L)
    (hsmall : h * absA sc * Jb ≤ 1 / 2) (hsmall2 : h * absA sc * (Jb + L) ≤ 1 / 4) (hρ : 4 * (h * absA sc * M) ≤ ρ) :
    (∀ p, |r.Y p| ≤ 4 * (h * absA sc * M)) ∧
    ∀ p, |constructR fn.fn sc t h y r.Y p| ≤ max |Rtol| (h * absA sc * (Jb + L) * |xtol|) := by
  have hA := absA_nonneg sc
  obtain ⟨-, m, Ys, dYs, S⟩ := stage_run hr
  obtain ⟨k1, k2⟩ := newton_iterates hla hs S hh hJ hM0 hM hL0 hL hsmall hsmall2 hρ
  rw [S.final]
  refine ⟨k1 m le_rfl, fun p => ?_⟩
  rcases S.stop with ⟨-, s2, -, s4, -⟩ | ⟨s1, -⟩
  · have hcomp : ∀ {N : ℕ} (v : Vec ℝ N) {a : ℝ}, ltb (dot v v) (a * a) = true → ∀ p, |v p| ≤ |a| := by
      intro N v a hv p
      rw [ltb_real, dot_real] at hv
      have h1 : v p * v p ≤ ∑ i, v i * v i :=
        Finset.single_le_sum (f := fun i => v i * v i) (fun i _ => mul_self_nonneg _) (Finset.mem_univ p)
      exact sq_le_sq.mp (by nlinarith)
    rcases s4 with s4 | s4
    · exact (hcomp _ s4 p).trans (le_max_left _ _)
    · refine le_trans ?_ (le_max_right _ _)
      have := residual_next hla hs S (j := m - 1) (by omega) hh hJ hL0 hL (abs_nonneg xtol) (hcomp _ s4)
        (fun p => (k1 _ (by omega) p).trans hρ) (fun p => (k1 _ (by omega) p).trans hρ) p
      rwa [show m - 1 + 1 = m by omega] at this
  · omega

end Verif
