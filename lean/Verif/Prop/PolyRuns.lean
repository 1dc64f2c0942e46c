import Verif.Prop.PolyRhs
import Verif.Prop.IrkFP
import Verif.Prop.AbFloat
import Verif.Prop.BdfFloat

/-!
# Property C133, continued: the other integrators on the shipped test equations in binary64

No hypothesis on the right-hand side or on the Jacobi matrix remains.
-/

set_option autoImplicit false

namespace Verif
open Spec Set TestEq FP

section
variable {n p : ℕ} {eq : ∀ (F : Type) [Add F] [Sub F] [Mul F] [Div F] [Neg F] [Scalar F], (Fin p → F) → OdeFun F n} {ok : (Fin p → ℝ) → Prop}

/-- a constant times the roundoff unit that is at most 1 is small compared with the largest number -/
theorem const_le_range {C : ℝ} (h : C * (1 / 2 ^ 53) ≤ 1) : C ≤ 2 ^ 1023 := by
  have h1 : C ≤ 2 ^ 53 := by
    rw [mul_one_div, div_le_one (by positivity)] at h
    exact h
  exact h1.trans (pow_le_pow_right₀ (by norm_num) (by norm_num))

/-- **C133, adaptive explicit runs.**  Whatever the tolerances and limits, an explicit run in binary64 with `max_dt` and the initial step at most `h ≤ h₀` that returns `N` samples has all
of them within `X = C (h^q + e₀ + (N+1) 2^-53)` of the solution, if `X ≤ 1`. -/
theorem C133_adaptive (he : Elementary eq ok) {P : Fin p → FP} (hPf : ∀ j, (P j).isFinite = true) (hok : ok fun j => ((P j).val : ℝ)) {m : ℤ} {q : ℕ}
    (hm : m ∈ erkImplemented) (hp : (erkCoeffs m : SolverCoeffs ℝ).order = some (q : ℤ)) {U : ℝ → Vec ℝ n} {a b δ : ℝ} (hδ : 0 < δ)
    (hU : ∀ t ∈ Icc a b, HasDerivWithinAt U ((eq ℝ fun j => ((P j).val : ℝ)).fn t (U t)) (Icc a b) t) :
    ∃ C h0 : ℝ, 0 < C ∧ 0 < h0 ∧
      ∀ (_ : Libm) (_ : ∀ x y, x ≠ negZero → lt x (fin 0) = false → lt (Libm.pow x y) (fin 0) = false) (nd : Bool) (o : ErkOpts FP) (oo : OutOpts)
        (t0 t1 : FP) (y0 : Vec FP n) (dt : FP) (fuel : ℕ) (out : ErkOutput FP n) (h e0 : ℝ), t0.isFinite = true → t1.isFinite = true → dt.isFinite = true →
        (∀ k, (y0 k).isFinite = true) → a + δ ≤ t0.val → (t0.val : ℝ) ≤ t1.val → (t1.val : ℝ) ≤ b - δ → (∀ k, |((y0 k).val : ℝ) - U t0.val k| ≤ e0) → 0 ≤ e0 →
        (0 : ℝ) ≤ dt.val → (dt.val : ℝ) ≤ h → h ≤ h0 →
        (o.adaptive = true → (erkCoeffs m : SolverCoeffs FP).b2 ≠ [] → o.maxDt.isFinite = true ∧ (0 : ℝ) < o.maxDt.val ∧ (o.maxDt.val : ℝ) ≤ h) →
        erkOdeint nd (eq FP P).fn t0 t1 y0 o oo m dt fuel = some (.ret out) →
        ∀ X : ℝ, X = C * (h ^ q + e0 + (out.tVals.length + 1) * (1 / 2 ^ 53)) → X ≤ 1 →
          ∀ (i : ℕ) (t : FP) (y : Vec FP n), out.tVals[i]? = some t → out.yVals[i]? = some y →
            t.isFinite = true ∧ ∀ k, (y k).isFinite = true ∧ |((y k).val : ℝ) - U t.val k| ≤ X := by
  obtain ⟨K, hK, hrhs⟩ := C133_rhs he hok (U := U) (a := a) (b := b) fun t ht => (hU t ht).continuousWithinAt
  obtain ⟨C, h0, hC, hh0, key⟩ := C91_convergence hm hp (elementary_smooth he _) hδ hU
  refine ⟨C * (1 + K) + K, h0, by positivity, hh0, ?_⟩
  intro _ hpow nd o oo t0 t1 y0 dt fuel out h e0 f0 f1 fd fy0 ha hlt hb hy0 he0 hd0 hdh hh hmx hrun X hX hX1
  have hh' : 0 ≤ h := hd0.trans hdh
  obtain ⟨N, hN⟩ : ∃ N : ℝ, N = out.tVals.length := ⟨_, rfl⟩
  have hN0 : 0 ≤ N := by rw [hN]; positivity
  rw [← hN] at hX
  have hq : 0 ≤ h ^ q := by positivity
  have hCK : 0 ≤ C * (1 + K) := by positivity
  have hCle : C ≤ C * (1 + K) := le_mul_of_one_le_right hC.le (by linarith)
  have hsmall : (C * (1 + K) + K) * (1 / 2 ^ 53) ≤ 1 := by
    refine le_trans (mul_le_mul_of_nonneg_left ?_ (by linarith)) (hX ▸ hX1)
    nlinarith [show (0 : ℝ) ≤ N * (1 / 2 ^ 53) by positivity]
  have hs1 : K * (1 / 2 ^ 53) ≤ 1 := le_trans (mul_le_mul_of_nonneg_right (by linarith) (by positivity)) hsmall
  have hs2 : C * (1 / 2 ^ 53) ≤ 1 := le_trans (mul_le_mul_of_nonneg_right (by linarith) (by positivity)) hsmall
  have hacc := hrhs FP (1 / 2 ^ 53) (2 ^ 1023) (fpArith hpow) P (by positivity) hs1 (const_le_range hs1) hPf (fun j => rfl)
  have hle : C * (h ^ q + K * (1 / 2 ^ 53) + e0 + N * (1 / 2 ^ 53)) ≤ X := by
    have h1 : h ^ q + K * (1 / 2 ^ 53) + e0 + N * (1 / 2 ^ 53) ≤ (1 + K) * (h ^ q + e0 + (N + 1) * (1 / 2 ^ 53)) := by
      have g1 : 0 ≤ K * (h ^ q + e0 + N * (1 / 2 ^ 53)) := by positivity
      nlinarith
    have h2 := mul_le_mul_of_nonneg_left h1 hC.le
    have h3 : 0 ≤ K * (h ^ q + e0 + (N + 1) * (1 / 2 ^ 53)) := by positivity
    rw [hX]
    nlinarith
  rw [hN] at hle
  have hfin := key FP (1 / 2 ^ 53) (2 ^ 1023) (K * (1 / 2 ^ 53)) (fpArith hpow) (eq FP P).fn (by positivity) (by positivity) (const_le_range hs2) hacc nd o oo t0 t1 y0 dt
    fuel out h e0 f0 f1 fy0 fd ha hlt hb hy0 he0 hd0 hdh hh hmx hrun (hle.trans hX1)
  intro i t y ht hy
  obtain ⟨r1, r2⟩ := hfin i t y ht hy
  exact ⟨r1, fun k => ⟨(r2 k).1, (r2 k).2.trans hle⟩⟩

/-- **C133, `adams_bashforth`.** -/
theorem C133_adams_bashforth (he : Elementary eq ok) {P : Fin p → FP} (hPf : ∀ j, (P j).isFinite = true) (hok : ok fun j => ((P j).val : ℝ))
    {U : ℝ → Vec ℝ n} {a b δ : ℝ} (hδ : 0 < δ) (hU : ∀ t ∈ Icc a b, HasDerivWithinAt U ((eq ℝ fun j => ((P j).val : ℝ)).fn t (U t)) (Icc a b) t) :
    ∃ C : ℝ, 0 < C ∧
      ∀ (_ : Libm) (_ : ∀ x y, x ≠ negZero → lt x (fin 0) = false → lt (Libm.pow x y) (fin 0) = false) (nd : Bool) (la : LinAlg FP) (order : ℤ)
        (t0 t1 : FP) (y0 : Vec FP n) (dt : FP) (st0 : NewtonStatus FP) (fuelB fuel : ℕ) (out : MsOutput FP n) (e0 : ℝ), order ≤ 5 → t0.isFinite = true →
        t1.isFinite = true → dt.isFinite = true → (∀ k, (y0 k).isFinite = true) → a + δ ≤ t0.val → (t0.val : ℝ) ≤ t1.val → (t1.val : ℝ) ≤ b - δ →
        (∀ k, |((y0 k).val : ℝ) - U t0.val k| ≤ e0) → 0 ≤ e0 → (0 : ℝ) ≤ dt.val →
        adamsBashforth nd la (eq FP P) t0 t1 y0 order dt st0 fuelB fuel = some (.ret out) →
        ∀ X : ℝ, X = C * (dt.val + e0 + (out.tVals.length + 1) * (1 / 2 ^ 53)) → X ≤ 1 →
          ∀ (i : ℕ) (t : FP) (y : Vec FP n), out.tVals[i]? = some t → out.yVals[i]? = some y →
            t.isFinite = true ∧ ∀ k, (y k).isFinite = true ∧ |((y k).val : ℝ) - U t.val k| ≤ X := by
  obtain ⟨K, hK, hrhs⟩ := C133_rhs he hok (U := U) (a := a) (b := b) fun t ht => (hU t ht).continuousWithinAt
  obtain ⟨C, hC, key⟩ := C127_convergence (elementary_smooth he _) hδ hU
  refine ⟨C * (1 + K) + K, by positivity, ?_⟩
  intro _ hpow nd la order t0 t1 y0 dt st0 fuelB fuel out e0 h5 f0 f1 fd fy0 ha hlt hb hy0 he0 hd0 hrun X hX hX1
  obtain ⟨N, hN⟩ : ∃ N : ℝ, N = out.tVals.length := ⟨_, rfl⟩
  have hN0 : 0 ≤ N := by rw [hN]; positivity
  rw [← hN] at hX
  have hCK : 0 ≤ C * (1 + K) := by positivity
  have hCle : C ≤ C * (1 + K) := le_mul_of_one_le_right hC.le (by linarith)
  have hsmall : (C * (1 + K) + K) * (1 / 2 ^ 53) ≤ 1 := by
    refine le_trans (mul_le_mul_of_nonneg_left ?_ (by linarith)) (hX ▸ hX1)
    nlinarith [show (0 : ℝ) ≤ N * (1 / 2 ^ 53) by positivity]
  have hs1 : K * (1 / 2 ^ 53) ≤ 1 := le_trans (mul_le_mul_of_nonneg_right (by linarith) (by positivity)) hsmall
  have hs2 : C * (1 / 2 ^ 53) ≤ 1 := le_trans (mul_le_mul_of_nonneg_right (by linarith) (by positivity)) hsmall
  have hacc := hrhs FP (1 / 2 ^ 53) (2 ^ 1023) (fpArith hpow) P (by positivity) hs1 (const_le_range hs1) hPf (fun j => rfl)
  have hle : C * ((dt.val : ℝ) + K * (1 / 2 ^ 53) + e0 + N * (1 / 2 ^ 53)) ≤ X := by
    have h1 : (dt.val : ℝ) + K * (1 / 2 ^ 53) + e0 + N * (1 / 2 ^ 53) ≤ (1 + K) * (dt.val + e0 + (N + 1) * (1 / 2 ^ 53)) := by
      have g1 : 0 ≤ K * ((dt.val : ℝ) + e0 + N * (1 / 2 ^ 53)) := by positivity
      nlinarith
    have h2 := mul_le_mul_of_nonneg_left h1 hC.le
    have h3 : 0 ≤ K * ((dt.val : ℝ) + e0 + (N + 1) * (1 / 2 ^ 53)) := by positivity
    rw [hX]
    nlinarith
  rw [hN] at hle
  have hfin := key FP (1 / 2 ^ 53) (2 ^ 1023) (K * (1 / 2 ^ 53)) (fpArith hpow) (eq FP P) (by positivity) (by positivity) (const_le_range hs2) hacc nd la order t0 t1 y0 dt
    st0 fuelB fuel out e0 h5 f0 f1 fy0 fd ha hlt hb hy0 he0 hd0 hrun (hle.trans hX1)
  intro i t y ht hy
  obtain ⟨r1, r2⟩ := hfin i t y ht hy
  exact ⟨r1, fun k => ⟨(r2 k).1, (r2 k).2.trans hle⟩⟩

/-- **C133, `bdf`.**  `ρ` is the accuracy of the linear algebra. -/
theorem C133_bdf (he : Elementary eq ok) {P : Fin p → FP} (hPf : ∀ j, (P j).isFinite = true) (hok : ok fun j => ((P j).val : ℝ)) {order : ℤ}
    (ho : 0 < order) (h6 : order ≤ 6) {U : ℝ → Vec ℝ n} {a b δ : ℝ} (hδ : 0 < δ)
    (hU : ∀ t ∈ Icc a b, HasDerivWithinAt U ((eq ℝ fun j => ((P j).val : ℝ)).fn t (U t)) (Icc a b) t) :
    ∃ C : ℝ, 0 < C ∧
      ∀ (_ : Libm) (hpow : ∀ x y, x ≠ negZero → lt x (fin 0) = false → lt (Libm.pow x y) (fin 0) = false) (nd : Bool) (la : LinAlg FP) (ρ : ℝ)
        (t0 t1 : FP) (y0 : Vec FP n) (dt : FP) (st0 : NewtonStatus FP) (fuelB fuel : ℕ) (out : MsOutput FP n) (e0 : ℝ), 0 ≤ ρ →
        SolveAccurate (fpArith hpow) la n ρ → t0.isFinite = true →
        t1.isFinite = true → dt.isFinite = true → (∀ k, (y0 k).isFinite = true) → a + δ ≤ t0.val → (t0.val : ℝ) ≤ t1.val → (t1.val : ℝ) ≤ b - δ →
        (∀ k, |((y0 k).val : ℝ) - U t0.val k| ≤ e0) → 0 ≤ e0 → (0 : ℝ) ≤ dt.val →
        bdf nd la (eq FP P) t0 t1 y0 order dt st0 fuelB fuel = some (.ret out) →
        ∀ X : ℝ, X = C * (dt.val + e0 + (out.tVals.length + 1) * (1 / 2 ^ 53 + ρ)) → X ≤ 1 →
          ∀ (i : ℕ) (t : FP) (y : Vec FP n), out.tVals[i]? = some t → out.yVals[i]? = some y →
            t.isFinite = true ∧ ∀ k, (y k).isFinite = true ∧ |((y k).val : ℝ) - U t.val k| ≤ X := by
  have hc : ContinuousOn U (Icc a b) := fun t ht => (hU t ht).continuousWithinAt
  obtain ⟨K, hK, hrhs⟩ := C133_rhs he hok hc
  obtain ⟨L, Jb, hL, hJb, hjac⟩ := C133_jac he hok hc
  obtain ⟨C, hC, key⟩ := C128_convergence ho h6 hJb (elementary_smooth he _) hδ hU
  refine ⟨C * (1 + K) + K + L, by positivity, ?_⟩
  intro _ hpow nd la ρ t0 t1 y0 dt st0 fuelB fuel out e0 hρ hla f0 f1 fd fy0 ha hlt hb hy0 he0 hd0 hrun X hX hX1
  obtain ⟨N, hN⟩ : ∃ N : ℝ, N = out.tVals.length := ⟨_, rfl⟩
  have hN0 : 0 ≤ N := by rw [hN]; positivity
  rw [← hN] at hX
  have hCK : 0 ≤ C * (1 + K) := by positivity
  have hCle : C ≤ C * (1 + K) := le_mul_of_one_le_right hC.le (by linarith)
  have hsmall : (C * (1 + K) + K + L) * (1 / 2 ^ 53) ≤ 1 := by
    refine le_trans (mul_le_mul_of_nonneg_left ?_ (by linarith)) (hX ▸ hX1)
    nlinarith [show (0 : ℝ) ≤ N * (1 / 2 ^ 53) by positivity, mul_nonneg hN0 hρ]
  have hs1 : K * (1 / 2 ^ 53) ≤ 1 := le_trans (mul_le_mul_of_nonneg_right (by linarith) (by positivity)) hsmall
  have hs2 : C * (1 / 2 ^ 53) ≤ 1 := le_trans (mul_le_mul_of_nonneg_right (by linarith) (by positivity)) hsmall
  have hs3 : L * (1 / 2 ^ 53) ≤ 1 := le_trans (mul_le_mul_of_nonneg_right (by linarith) (by positivity)) hsmall
  have hacc := hrhs FP (1 / 2 ^ 53) (2 ^ 1023) (fpArith hpow) P (by positivity) hs1 (const_le_range hs1) hPf (fun j => rfl)
  have hja := (hjac FP (1 / 2 ^ 53) (2 ^ 1023) (fpArith hpow) P (by positivity) hs3 (const_le_range hs3) hPf (fun j => rfl)).1
  have hle : C * ((dt.val : ℝ) + K * (1 / 2 ^ 53) + e0 + N * (1 / 2 ^ 53 + ρ)) ≤ X := by
    have h1 : (dt.val : ℝ) + K * (1 / 2 ^ 53) + e0 + N * (1 / 2 ^ 53 + ρ) ≤ (1 + K) * (dt.val + e0 + (N + 1) * (1 / 2 ^ 53 + ρ)) := by
      have g1 : 0 ≤ K * ((dt.val : ℝ) + e0 + N * (1 / 2 ^ 53 + ρ) + ρ) := by positivity
      nlinarith
    have h2 := mul_le_mul_of_nonneg_left h1 hC.le
    have h3 : 0 ≤ (K + L) * ((dt.val : ℝ) + e0 + (N + 1) * (1 / 2 ^ 53 + ρ)) := by positivity
    rw [hX]
    nlinarith
  rw [hN] at hle
  have hfin := key FP (1 / 2 ^ 53) (2 ^ 1023) (K * (1 / 2 ^ 53)) ρ (fpArith hpow) (eq FP P) la (by positivity) (by positivity) hρ (const_le_range hs2) hacc hja hla nd
    t0 t1 y0 dt st0 fuelB fuel out e0 f0 f1 fy0 fd ha hlt hb hy0 he0 hd0 hrun (hle.trans hX1)
  intro i t y ht hy
  obtain ⟨r1, r2⟩ := hfin i t y ht hy
  exact ⟨r1, fun k => ⟨(r2 k).1, (r2 k).2.trans hle⟩⟩

/-- **C133, the implicit Runge-Kutta integrators.**  `ρ` is the accuracy of the linear algebra. -/
theorem C133_implicit (he : Elementary eq ok) {P : Fin p → FP} (hPf : ∀ j, (P j).isFinite = true) (hok : ok fun j => ((P j).val : ℝ)) {m : ℤ} {q : ℕ}
    (hm : m ∈ ([210, 211, 230, 231, 232] : List ℤ)) (hp : (irkCoeffs m : SolverCoeffs ℝ).order = some (q : ℤ)) {U : ℝ → Vec ℝ n} {a b δ : ℝ} (hδ : 0 < δ)
    (hU : ∀ t ∈ Icc a b, HasDerivWithinAt U ((eq ℝ fun j => ((P j).val : ℝ)).fn t (U t)) (Icc a b) t) :
    ∃ C h0 : ℝ, 0 < C ∧ 0 < h0 ∧
      ∀ (_ : Libm) (hpow : ∀ x y, x.isNeg = false → (Libm.pow x y).isNeg = false) (ρ : ℝ) (la : LinAlg FP), 0 ≤ ρ →
        LuAccurate (fpArith (hpow_of_sign hpow)) la ((irkCoeffs m : SolverCoeffs FP).ns * n) ρ →
        InvAccurate (fpArith (hpow_of_sign hpow)) la (irkCoeffs m) (irkCoeffs m) ρ →
        ∀ (nd : Bool) (o : IrkOpts FP) (no : NewtonOpts FP) (oo : OutOpts) (t0 t1 : FP) (y0 : Vec FP n) (dt : FP) (fuel : ℕ)
          (out : IrkOutput FP ((irkCoeffs m : SolverCoeffs FP).ns * n) n) (h e0 : ℝ), t0.IsDouble → t0.isFinite = true → t1.IsDouble → t1.isFinite = true →
          (t1 - t0).isFinite = true → lt t0 t1 = true → (∀ k, (y0 k).isFinite = true) → a + δ ≤ t0.val → (t1.val : ℝ) ≤ b - δ →
          ‖(fun k => ((y0 k).val : ℝ)) - U t0.val‖ ≤ e0 → h ≤ h0 → o.newtonOpts = some no → no.dxDelta.isFinite = true → no.tol.isFinite = true →
          |(no.dxDelta.val : ℝ)| ≤ 1 → |(no.tol.val : ℝ)| ≤ 1 → o.maxDt.IsDouble → o.maxDt.isFinite = true → lt (fin 0) o.maxDt = true →
          (o.maxDt.val : ℝ) ≤ h → dt.IsDouble → dt.isFinite = true → dt.isNeg = false → (dt.val : ℝ) ≤ h →
          irkOdeint nd la (eq FP P) t0 t1 y0 o oo m dt fuel = some (.ret out) →
          ∀ X : ℝ, X = C * (h ^ q + e0 + ((out.count.newtonSuccess - out.count.rejectErr + 1 : ℕ) : ℝ) *
              (1 / 2 ^ 53 + ρ + min (h ^ 2) (|(no.tol.val : ℝ)| + h * |(no.dxDelta.val : ℝ)| + Real.sqrt (1 / 2 ^ 53)))) → X ≤ 1 →
          List.Forall₂ (fun t y => t.isFinite = true ∧ (∀ k, (y k).isFinite = true) ∧ ‖(fun k => ((y k).val : ℝ)) - U t.val‖ ≤ X) out.tVals out.yVals ∧
          out.tVals.Pairwise (fun a b => le a b = true) := by
  have hc : ContinuousOn U (Icc a b) := fun t ht => (hU t ht).continuousWithinAt
  obtain ⟨K, hK, hrhs⟩ := C133_rhs he hok hc
  obtain ⟨L, Jb, hL, hJb, hjac⟩ := C133_jac he hok hc
  obtain ⟨C, h0, hC, hh0, key⟩ := C130_convergence hm hp (elementary_smooth he _) hδ hJb hU
  refine ⟨C * (1 + K) + K + L, h0, by positivity, hh0, ?_⟩
  intro _ hpow ρ la hρ hlu hinv nd o no oo t0 t1 y0 dt fuel out h e0 d0 f0 d1 f1 hspan hlt fy0 ha hb hy0 hh hno hxf hRf hx1 hR1 md mf mp mh dd df ds dh hrun X hX hX1
  obtain ⟨N, hN⟩ : ∃ N : ℝ, N = ((out.count.newtonSuccess - out.count.rejectErr + 1 : ℕ) : ℝ) := ⟨_, rfl⟩
  have hN1 : 1 ≤ N := by rw [hN]; push_cast; linarith [(Nat.cast_nonneg (out.count.newtonSuccess - out.count.rejectErr) : (0 : ℝ) ≤ _)]
  obtain ⟨w, hw⟩ : ∃ w : ℝ, w = min (h ^ 2) (|(no.tol.val : ℝ)| + h * |(no.dxDelta.val : ℝ)| + Real.sqrt (1 / 2 ^ 53)) := ⟨_, rfl⟩
  have hh' : 0 ≤ h := by
    have h1 : (0 : ℝ) ≤ (dt.val : ℝ) := by exact_mod_cast val_nonneg ds
    exact h1.trans dh
  have hw0 : 0 ≤ w := by rw [hw]; exact le_min (by positivity) (by positivity)
  have he0 : 0 ≤ e0 := (norm_nonneg _).trans hy0
  rw [← hN, ← hw] at hX
  have hq : 0 ≤ h ^ q := by positivity
  have hCK : 0 ≤ C * (1 + K) := by positivity
  have hCle : C ≤ C * (1 + K) := le_mul_of_one_le_right hC.le (by linarith)
  have hNu : (1 : ℝ) / 2 ^ 53 ≤ N * (1 / 2 ^ 53 + ρ + w) := by
    have := le_mul_of_one_le_left (by positivity : (0 : ℝ) ≤ 1 / 2 ^ 53 + ρ + w) hN1
    linarith
  have hNn : 0 ≤ N * (1 / 2 ^ 53 + ρ + w) := le_trans (by positivity) hNu
  have hsmall : (C * (1 + K) + K + L) * (1 / 2 ^ 53) ≤ 1 :=
    le_trans (mul_le_mul_of_nonneg_left (by linarith) (by linarith)) (hX ▸ hX1)
  have hs1 : K * (1 / 2 ^ 53) ≤ 1 := le_trans (mul_le_mul_of_nonneg_right (by linarith) (by positivity)) hsmall
  have hs2 : C * (1 / 2 ^ 53) ≤ 1 := le_trans (mul_le_mul_of_nonneg_right (by linarith) (by positivity)) hsmall
  have hs3 : L * (1 / 2 ^ 53) ≤ 1 := le_trans (mul_le_mul_of_nonneg_right (by linarith) (by positivity)) hsmall
  have hacc := hrhs FP (1 / 2 ^ 53) (2 ^ 1023) (fpArith (hpow_of_sign hpow)) P (by positivity) hs1 (const_le_range hs1) hPf (fun j => rfl)
  have hja := (hjac FP (1 / 2 ^ 53) (2 ^ 1023) (fpArith (hpow_of_sign hpow)) P (by positivity) hs3 (const_le_range hs3) hPf (fun j => rfl)).1
  have hle : C * (h ^ q + K * (1 / 2 ^ 53) + e0 + N * (1 / 2 ^ 53 + ρ + w)) ≤ X := by
    have h1 : h ^ q + K * (1 / 2 ^ 53) + e0 + N * (1 / 2 ^ 53 + ρ + w) ≤ (1 + K) * (h ^ q + e0 + N * (1 / 2 ^ 53 + ρ + w)) := by
      have g1 : 0 ≤ K * (h ^ q + e0) := by positivity
      have g2 := mul_le_mul_of_nonneg_left hNu hK.le
      nlinarith
    have h2 := mul_le_mul_of_nonneg_left h1 hC.le
    have h3 : 0 ≤ (K + L) * (h ^ q + e0 + N * (1 / 2 ^ 53 + ρ + w)) := by positivity
    rw [hX]
    nlinarith
  have hfin := key _ hpow (K * (1 / 2 ^ 53)) ρ (eq FP P) la (by positivity) hρ (const_le_range hs2) hacc hja hlu hinv nd o no oo t0 t1 y0 dt fuel out h e0 d0 f0 d1 f1 hspan
    hlt fy0 ha hb hy0 hh hno hxf hRf hx1 hR1 md mf mp mh dd df ds dh hrun _ rfl (by rw [← hN, ← hw]; exact hle.trans hX1)
  rw [← hN, ← hw] at hfin
  exact ⟨hfin.1.imp fun t y h => ⟨h.1, h.2.1, h.2.2.trans hle⟩, hfin.2⟩

end

/-! ### concrete cases -/

/-- a solution of the Lorenz system with the parameters 10, 28 and 1/2 -/
theorem lorenz_axis (t : ℝ) (s : Set ℝ) : HasDerivWithinAt (fun t => (![0, 0, Real.exp (-t / 2)] : Vec ℝ 3))
    ((lorenz ((fin 10).val : ℝ) ((fin 28).val : ℝ) ((fin (1 / 2)).val : ℝ)).fn t ![0, 0, Real.exp (-t / 2)]) s t := by
  refine hasDerivWithinAt_pi.mpr fun k => ?_
  fin_cases k
  · exact (hasDerivWithinAt_const t s (0 : ℝ)).congr_deriv (by simp [lorenz])
  · exact (hasDerivWithinAt_const t s (0 : ℝ)).congr_deriv (by simp [lorenz])
  · have h1 : HasDerivAt (fun t : ℝ => -t / 2) (-1 / 2) t := ((hasDerivAt_id t).neg).div_const 2
    refine (h1.exp.hasDerivWithinAt (s := s)).congr_deriv ?_
    show Real.exp (-t / 2) * (-1 / 2) = 0 * 0 - (((1 / 2 : ℚ) : ℝ)) * Real.exp (-t / 2)
    push_cast; ring

/-- the hypotheses on equation, parameters and solution hold for the Lorenz system and this solution, for all integrators -/
example : (∀ j : Fin 3, ((![fin 10, fin 28, fin (1 / 2)] : Fin 3 → FP) j).isFinite = true) ∧
    Elementary (n := 3) (p := 3) (fun _ _ _ _ _ _ _ P => lorenz (P 0) (P 1) (P 2)) (fun _ => True) ∧
    ∃ C h0 : ℝ, 0 < C ∧ 0 < h0 ∧ ∀ (_ : Libm) (_ : ∀ x y, x ≠ negZero → lt x (fin 0) = false → lt (Libm.pow x y) (fin 0) = false) (nd : Bool) (la : LinAlg FP)
      (dt : FP) (st0 : NewtonStatus FP) (fuelB fuel : ℕ) (out : MsOutput FP 3), dt.isFinite = true → (0 : ℝ) ≤ dt.val →
      adamsBashforth nd la (lorenz (fin 10) (fin 28) (fin (1 / 2))) (fin 0) (fin 1) ![fin 0, fin 0, fin 1] 4 dt st0 fuelB fuel = some (.ret out) →
      C * (dt.val + 0 + (out.tVals.length + 1) * (1 / 2 ^ 53)) ≤ 1 →
      ∀ (i : ℕ) (t : FP) (y : Vec FP 3), out.tVals[i]? = some t → out.yVals[i]? = some y →
        |((y 2).val : ℝ) - Real.exp (-(t.val : ℝ) / 2)| ≤ C * (dt.val + 0 + (out.tVals.length + 1) * (1 / 2 ^ 53)) := by
  have hP : ∀ j : Fin 3, ((![fin 10, fin 28, fin (1 / 2)] : Fin 3 → FP) j).isFinite = true := by intro j; fin_cases j <;> rfl
  refine ⟨hP, C133_equations.2.2.2.2.2.2.2.2, ?_⟩
  obtain ⟨C, hC, key⟩ := C133_adams_bashforth (a := -1) (b := 2) (δ := 1) C133_equations.2.2.2.2.2.2.2.2 hP trivial one_pos (fun t _ => lorenz_axis t _)
  refine ⟨C, 1, hC, one_pos, ?_⟩
  intro _ hpow nd la dt st0 fuelB fuel out d1 d2 hrun hX i t y ht hy
  have r := key _ hpow nd la 4 (fin 0) (fin 1) ![fin 0, fin 0, fin 1] dt st0 fuelB fuel out 0 (by norm_num) rfl rfl d1 (by intro k; fin_cases k <;> rfl) (by simp [val])
    (by simp [val]) (by norm_num [val]) (by intro k; fin_cases k <;> simp [val]) le_rfl d2 hrun _ rfl hX i t y ht hy
  exact (r.2 2).2

/-- the hypotheses of the theorems on the other integrators outside the runs, for RADAU_IIA_53 -/
example : Elementary (n := 3) (p := 3) (fun _ _ _ _ _ _ _ P => lorenz (P 0) (P 1) (P 2)) (fun _ => True) ∧
    (∀ j : Fin 3, ((![fin 10, fin 28, fin (1 / 2)] : Fin 3 → FP) j).isFinite = true) ∧ (211 : ℤ) ∈ ([210, 211, 230, 231, 232] : List ℤ) ∧
    (irkCoeffs 211 : SolverCoeffs ℝ).order = some ((5 : ℕ) : ℤ) ∧
    ∀ t ∈ Icc (-1 : ℝ) 2, HasDerivWithinAt (fun t => (![0, 0, Real.exp (-t / 2)] : Vec ℝ 3))
      ((lorenz ((fin 10).val : ℝ) ((fin 28).val : ℝ) ((fin (1 / 2)).val : ℝ)).fn t ![0, 0, Real.exp (-t / 2)]) (Icc (-1) 2) t :=
  ⟨C133_equations.2.2.2.2.2.2.2.2, by intro j; fin_cases j <;> rfl, by decide, rfl, fun t _ => lorenz_axis t _⟩

end Verif
