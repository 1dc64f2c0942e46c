import Verif.ErkDrift
import Verif.AbDrift
import Verif.Prop.PolyRhs
import Verif.Prop.TestEq
import Verif.Prop.EqExamples

/-!
# C134: conservation of linear invariants with rounding errors

In exact arithmetic every explicit run keeps `w·y` if `w·f = 0` (C24).  Here: in arithmetic with rounding errors the change is of the size of the
rounding errors only.  Neither the step size nor the order of the method nor the error of the initial value enters the bound.
-/

set_option autoImplicit false

namespace Verif
open Spec Set TestEq

/-- **C134, all arithmetics.**  `U` solves `y' = f(t,y)` on `[a,b]`, and `w·f = 0` identically.  There are `C`, `C'` and `h₀ > 0` such that in every
arithmetic with unit roundoff `u` and range `B ≥ C`, for every computed right-hand side within `ε` of `f` near the solution and every run of a shipped explicit
method, fixed or adaptive, with steps at most `h ≤ h₀`, started within `e₀` of the solution and recording `N` samples: if `C (h^p + ε + e₀ + N u) ≤ 1`,
then `w·y` of every recorded sample differs from that of the initial value by at most `C' (N u + ε)`. -/
theorem C134_drift {n p : ℕ} {f : ℝ → Vec ℝ n → Vec ℝ n} {U : ℝ → Vec ℝ n} {a b δ : ℝ} {m : ℤ} (hm : m ∈ erkImplemented)
    (hp : (erkCoeffs m : SolverCoeffs ℝ).order = some (p : ℤ)) (hf : ContDiff ℝ p fun q : ℝ × (Fin n → ℝ) => f q.1 q.2) (hδ : 0 < δ)
    (hU : ∀ t ∈ Icc a b, HasDerivWithinAt U (f t (U t)) (Icc a b) t) {w : Fin n → ℝ} (hw : ∀ t y, ∑ k, w k * f t y k = 0) :
    ∃ C C' h0 : ℝ, 0 < C ∧ 0 < C' ∧ 0 < h0 ∧
      ∀ (F : Type) [Add F] [Sub F] [Mul F] [Div F] [Neg F] [Scalar F] (u B ε : ℝ) (A : FloatArith F u B) (fF : F → Vec F n → Vec F n),
        0 ≤ u → 0 ≤ ε → C ≤ B → RhsAccurate A f U a b ε fF →
        ∀ (nd : Bool) (o : ErkOpts F) (oo : OutOpts) (t0 t1 : F) (y0 : Vec F n) (dt : F) (fuel : ℕ) (out : ErkOutput F n) (h e0 : ℝ),
          isFin t0 = true → isFin t1 = true → (∀ k, isFin (y0 k) = true) → isFin dt = true →
          a + δ ≤ A.val t0 → A.val t0 ≤ A.val t1 → A.val t1 ≤ b - δ → (∀ k, |A.val (y0 k) - U (A.val t0) k| ≤ e0) → 0 ≤ e0 →
          0 ≤ A.val dt → A.val dt ≤ h → h ≤ h0 →
          (o.adaptive = true → (erkCoeffs m : SolverCoeffs F).b2 ≠ [] → isFin o.maxDt = true ∧ 0 < A.val o.maxDt ∧ A.val o.maxDt ≤ h) →
          erkOdeint nd fF t0 t1 y0 o oo m dt fuel = some (.ret out) → C * (h ^ p + ε + e0 + out.tVals.length * u) ≤ 1 →
          ∀ y ∈ out.yVals, |∑ k, w k * A.val (y k) - ∑ k, w k * A.val (y0 k)| ≤ C' * (out.tVals.length * u + ε) := by
  obtain ⟨C, C', h0, hC, hC', hh0, key⟩ := float_drift (shipped_order_pos hm hp) hf hδ hU hm hw (shipped_hasOrder hm hp)
  refine ⟨C, C', h0, hC, hC', hh0, ?_⟩
  intro F _ _ _ _ _ _ u B ε A fF hu hε hCB hacc nd o oo t0 t1 y0 dt fuel out h e0 q1 q2 q3 q4 q5 q6 q7 q8 q9 q10 q11 q12 q13 q14 q15
  exact key F u B ε A fF hu hε hCB hacc nd o oo t0 t1 y0 dt fuel out h e0 q1 q2 q3 q4 q5 q6 q7 ((pi_norm_le_iff_of_nonneg q9).mpr q8) q10 q11 q12 q13 q14 q15

/-- **C134, `adams_bashforth`, all arithmetics.**  The same for every run of `adams_bashforth` of order 1 to 5 that returns `N` samples: if
`C (dt + ε + e₀ + N u) ≤ 1`, the change of `w·y` is at most `C' (N u + ε)`. -/
theorem C134_adams_bashforth {n : ℕ} {f : ℝ → Vec ℝ n → Vec ℝ n} {U : ℝ → Vec ℝ n} {a b δ : ℝ}
    (hf : ContDiff ℝ 1 fun q : ℝ × (Fin n → ℝ) => f q.1 q.2) (hδ : 0 < δ)
    (hU : ∀ t ∈ Icc a b, HasDerivWithinAt U (f t (U t)) (Icc a b) t) {w : Fin n → ℝ} (hw : ∀ t y, ∑ k, w k * f t y k = 0) :
    ∃ C C' : ℝ, 0 < C ∧ 0 < C' ∧
      ∀ (F : Type) [Add F] [Sub F] [Mul F] [Div F] [Neg F] [Scalar F] (u B ε : ℝ) (A : FloatArith F u B) (fn : OdeFun F n),
        0 ≤ u → 0 ≤ ε → C ≤ B → RhsAccurate A f U a b ε fn.fn →
        ∀ (nd : Bool) (la : LinAlg F) (order : ℤ) (t0 t1 : F) (y0 : Vec F n) (dt : F) (st0 : NewtonStatus F) (fuelB fuel : ℕ) (out : MsOutput F n)
          (e0 : ℝ), order ≤ 5 →
          isFin t0 = true → isFin t1 = true → (∀ k, isFin (y0 k) = true) → isFin dt = true →
          a + δ ≤ A.val t0 → A.val t0 ≤ A.val t1 → A.val t1 ≤ b - δ → (∀ k, |A.val (y0 k) - U (A.val t0) k| ≤ e0) → 0 ≤ e0 → 0 ≤ A.val dt →
          adamsBashforth nd la fn t0 t1 y0 order dt st0 fuelB fuel = some (.ret out) → C * (A.val dt + ε + e0 + out.tVals.length * u) ≤ 1 →
          ∀ y ∈ out.yVals, |∑ k, w k * A.val (y k) - ∑ k, w k * A.val (y0 k)| ≤ C' * (out.tVals.length * u + ε) := by
  obtain ⟨C, C', hC, hC', key⟩ := ab_drift hf hδ hU hw
  refine ⟨C, C', hC, hC', ?_⟩
  intro F _ _ _ _ _ _ u B ε A fn hu hε hCB hacc nd la order t0 t1 y0 dt st0 fuelB fuel out e0 h5 q1 q2 q3 q4 q5 q6 q7 q8 q9 q10 q11 q12
  exact key F u B ε A fn hu hε hCB hacc nd la order t0 t1 y0 dt st0 fuelB fuel out e0 h5 q1 q2 q3 q4 q5 q6 q7 ((pi_norm_le_iff_of_nonneg q9).mpr q8) q10 q11 q12

section
variable {n p : ℕ} {eq : ∀ (F : Type) [Add F] [Sub F] [Mul F] [Div F] [Neg F] [Scalar F], (Fin p → F) → OdeFun F n} {ok : (Fin p → ℝ) → Prop}

open FP in
/-- **C134, the chemical equations in binary64.**  `rober`, `dimer` or `kinetic_4` with double precision parameters, `U` being a solution for these
parameters on `[a,b]`: with constants depending on the problem and the method only, in every explicit run in binary64 with steps at most `h ≤ h₀` that
records `N` samples the mass differs from that of the initial value by at most `C' N 2^-53`, provided that `C (h^q + e₀ + N 2^-53) ≤ 1`. -/
theorem C134_mass (he : Elementary eq ok) {P : Fin p → FP} (hPf : ∀ j, (P j).isFinite = true) (hok : ok fun j => ((P j).val : ℝ)) {w : Fin n → ℝ}
    (hw : MassWeights n (eq ℝ fun j => ((P j).val : ℝ)) w) {m : ℤ} {q : ℕ}
    (hm : m ∈ erkImplemented) (hp : (erkCoeffs m : SolverCoeffs ℝ).order = some (q : ℤ)) {U : ℝ → Vec ℝ n} {a b δ : ℝ} (hδ : 0 < δ)
    (hU : ∀ t ∈ Icc a b, HasDerivWithinAt U ((eq ℝ fun j => ((P j).val : ℝ)).fn t (U t)) (Icc a b) t) :
    ∃ C C' h0 : ℝ, 0 < C ∧ 0 < C' ∧ 0 < h0 ∧
      ∀ (_ : Libm) (_ : ∀ x y, x ≠ negZero → lt x (fin 0) = false → lt (Libm.pow x y) (fin 0) = false) (nd : Bool) (o : ErkOpts FP) (oo : OutOpts)
        (t0 t1 : FP) (y0 : Vec FP n) (dt : FP) (fuel : ℕ) (out : ErkOutput FP n) (h e0 : ℝ),
        t0.isFinite = true → t1.isFinite = true → (∀ k, (y0 k).isFinite = true) → dt.isFinite = true →
        a + δ ≤ t0.val → t0.val ≤ t1.val → (t1.val : ℝ) ≤ b - δ → (∀ k, |((y0 k).val : ℝ) - U t0.val k| ≤ e0) → 0 ≤ e0 →
        0 ≤ dt.val → (dt.val : ℝ) ≤ h → h ≤ h0 →
        (o.adaptive = true → (erkCoeffs m : SolverCoeffs FP).b2 ≠ [] → o.maxDt.isFinite = true ∧ 0 < o.maxDt.val ∧ (o.maxDt.val : ℝ) ≤ h) →
        erkOdeint nd (eq FP P).fn t0 t1 y0 o oo m dt fuel = some (.ret out) → C * (h ^ q + e0 + out.tVals.length * (1 / 2 ^ 53)) ≤ 1 →
        ∀ y ∈ out.yVals, |∑ k, w k * ((y k).val : ℝ) - ∑ k, w k * ((y0 k).val : ℝ)| ≤ C' * (out.tVals.length * (1 / 2 ^ 53)) := by
  obtain ⟨K, hK, hrhs⟩ := C133_rhs he hok (U := U) (a := a) (b := b) fun t ht => (hU t ht).continuousWithinAt
  obtain ⟨C, C', h0, hC, hC', hh0, key⟩ := C134_drift hm hp (elementary_smooth he _) hδ hU (fun t y => C57_orthogonal hw t y)
  refine ⟨C * (1 + K) + K, C' * (1 + K), h0, by positivity, by positivity, hh0, ?_⟩
  intro _ hpow nd o oo t0 t1 y0 dt fuel out h e0 f0 f1 fy0 fd ha hlt hb hy0 he0 hd0 hdh hh hopt hrun hX
  have hlen : (1 : ℝ) ≤ out.tVals.length := by
    have := (C10_odeint hrun).2.2.2.2.1
    have h1 : 0 < out.tVals.length := by
      rcases hl : out.tVals with _ | ⟨x, l⟩
      · rw [hl] at this; simp at this
      · simp
    exact_mod_cast h1
  obtain ⟨v, hv⟩ : ∃ v : ℝ, v = 1 / 2 ^ 53 := ⟨_, rfl⟩
  have hv0 : 0 < v := by rw [hv]; positivity
  rw [← hv] at hX ⊢
  have hh' : 0 ≤ h := by have : (0 : ℝ) ≤ dt.val := by exact_mod_cast hd0
                         linarith
  have hpow0 : 0 ≤ h ^ q := pow_nonneg hh' _
  have hNv : v ≤ out.tVals.length * v := le_mul_of_one_le_left hv0.le hlen
  obtain ⟨x, hx⟩ : ∃ x : ℝ, x = out.tVals.length * v := ⟨_, rfl⟩
  rw [← hx] at hX hNv ⊢
  have hx0 : 0 < x := by linarith
  have hCK : 0 ≤ C * (1 + K) := by positivity
  have hsmall : (C * (1 + K) + K) * v ≤ 1 := le_trans (mul_le_mul_of_nonneg_left (by linarith) (by linarith)) hX
  have hbig : C * (1 + K) + K ≤ 2 ^ 53 := by
    rw [hv, mul_one_div, div_le_one (by positivity)] at hsmall
    exact hsmall
  have hCle : C ≤ C * (1 + K) := le_mul_of_one_le_right hC.le (by linarith)
  have h53 : (2 : ℝ) ^ 53 ≤ 2 ^ 1023 := pow_le_pow_right₀ (by norm_num) (by norm_num)
  have hKv : K * v ≤ 1 := le_trans (mul_le_mul_of_nonneg_right (by linarith) hv0.le) hsmall
  have hacc := hrhs FP (1 / 2 ^ 53) (2 ^ 1023) (fpArith hpow) P (by positivity) (by rw [← hv]; exact hKv) ((by linarith : K ≤ 2 ^ 53).trans h53) hPf (fun j => rfl)
  have hKx : K * v ≤ K * x := mul_le_mul_of_nonneg_left hNv hK.le
  have hle : C * (h ^ q + K * v + e0 + x) ≤ 1 := by
    refine le_trans ?_ hX
    have h1 : h ^ q + K * v + e0 + x ≤ (1 + K) * (h ^ q + e0 + x) := by
      have : 0 ≤ K * (h ^ q + e0) := by positivity
      linarith
    have h2 := mul_le_mul_of_nonneg_left h1 hC.le
    have h3 : 0 ≤ K * (h ^ q + e0 + x) := by positivity
    linarith
  have hfin := key FP (1 / 2 ^ 53) (2 ^ 1023) (K * (1 / 2 ^ 53)) (fpArith hpow) (eq FP P).fn (by positivity) (by positivity) ((by linarith : C ≤ 2 ^ 53).trans h53) hacc
    nd o oo t0 t1 y0 dt fuel out h e0 f0 f1 fy0 fd ha (by have := (Rat.cast_le (K := ℝ)).2 hlt; exact this) hb hy0 he0
    (by have := (Rat.cast_le (K := ℝ)).2 hd0; push_cast at this; exact this) hdh hh
    (fun h1 h2 => ⟨(hopt h1 h2).1, by have := (Rat.cast_lt (K := ℝ)).2 (hopt h1 h2).2.1; push_cast at this; exact this, (hopt h1 h2).2.2⟩) hrun
    (by rw [← hv, ← hx]; exact hle)
  intro y hy
  refine (hfin y hy).trans ?_
  rw [← hv, ← hx]
  have : x + K * v ≤ (1 + K) * x := by linarith
  have := mul_le_mul_of_nonneg_left this hC'.le
  linarith

open FP in
/-- **C134, the chemical equations with `adams_bashforth` in binary64.**  If `C (dt + e₀ + N 2^-53) ≤ 1`, the mass changes by at most `C' N 2^-53`. -/
theorem C134_mass_adams_bashforth (he : Elementary eq ok) {P : Fin p → FP} (hPf : ∀ j, (P j).isFinite = true) (hok : ok fun j => ((P j).val : ℝ))
    {w : Fin n → ℝ} (hw : MassWeights n (eq ℝ fun j => ((P j).val : ℝ)) w) {U : ℝ → Vec ℝ n} {a b δ : ℝ} (hδ : 0 < δ)
    (hU : ∀ t ∈ Icc a b, HasDerivWithinAt U ((eq ℝ fun j => ((P j).val : ℝ)).fn t (U t)) (Icc a b) t) :
    ∃ C C' : ℝ, 0 < C ∧ 0 < C' ∧
      ∀ (_ : Libm) (_ : ∀ x y, x ≠ negZero → lt x (fin 0) = false → lt (Libm.pow x y) (fin 0) = false) (nd : Bool) (la : LinAlg FP) (order : ℤ)
        (t0 t1 : FP) (y0 : Vec FP n) (dt : FP) (st0 : NewtonStatus FP) (fuelB fuel : ℕ) (out : MsOutput FP n) (e0 : ℝ), order ≤ 5 →
        t0.isFinite = true → t1.isFinite = true → (∀ k, (y0 k).isFinite = true) → dt.isFinite = true →
        a + δ ≤ t0.val → t0.val ≤ t1.val → (t1.val : ℝ) ≤ b - δ → (∀ k, |((y0 k).val : ℝ) - U t0.val k| ≤ e0) → 0 ≤ e0 → 0 ≤ dt.val →
        adamsBashforth nd la (eq FP P) t0 t1 y0 order dt st0 fuelB fuel = some (.ret out) → C * (dt.val + e0 + out.tVals.length * (1 / 2 ^ 53)) ≤ 1 →
        ∀ y ∈ out.yVals, |∑ k, w k * ((y k).val : ℝ) - ∑ k, w k * ((y0 k).val : ℝ)| ≤ C' * (out.tVals.length * (1 / 2 ^ 53)) := by
  obtain ⟨K, hK, hrhs⟩ := C133_rhs he hok (U := U) (a := a) (b := b) fun t ht => (hU t ht).continuousWithinAt
  obtain ⟨C, C', hC, hC', key⟩ := C134_adams_bashforth (elementary_smooth he _) hδ hU (fun t y => C57_orthogonal hw t y)
  refine ⟨C * (1 + K) + K, C' * (1 + K), by positivity, by positivity, ?_⟩
  intro _ hpow nd la order t0 t1 y0 dt st0 fuelB fuel out e0 h5 f0 f1 fy0 fd ha hlt hb hy0 he0 hd0 hrun hX
  have hlen : (1 : ℝ) ≤ out.tVals.length := by
    obtain ⟨N, -, hN1, -, ho, hoN, -⟩ := C53_ab_grid hrun
    rw [hN1]
    exact_mod_cast (show 1 ≤ N by omega)
  obtain ⟨v, hv⟩ : ∃ v : ℝ, v = 1 / 2 ^ 53 := ⟨_, rfl⟩
  have hv0 : 0 < v := by rw [hv]; positivity
  rw [← hv] at hX ⊢
  have hdt : (0 : ℝ) ≤ dt.val := by exact_mod_cast hd0
  have hNv : v ≤ out.tVals.length * v := le_mul_of_one_le_left hv0.le hlen
  obtain ⟨x, hx⟩ : ∃ x : ℝ, x = out.tVals.length * v := ⟨_, rfl⟩
  rw [← hx] at hX hNv ⊢
  have hCK : 0 ≤ C * (1 + K) := by positivity
  have hsmall : (C * (1 + K) + K) * v ≤ 1 := le_trans (mul_le_mul_of_nonneg_left (by linarith) (by linarith)) hX
  have hbig : C * (1 + K) + K ≤ 2 ^ 53 := by
    rw [hv, mul_one_div, div_le_one (by positivity)] at hsmall
    exact hsmall
  have hCle : C ≤ C * (1 + K) := le_mul_of_one_le_right hC.le (by linarith)
  have h53 : (2 : ℝ) ^ 53 ≤ 2 ^ 1023 := pow_le_pow_right₀ (by norm_num) (by norm_num)
  have hKv : K * v ≤ 1 := le_trans (mul_le_mul_of_nonneg_right (by linarith) hv0.le) hsmall
  have hacc := hrhs FP (1 / 2 ^ 53) (2 ^ 1023) (fpArith hpow) P (by positivity) (by rw [← hv]; exact hKv) ((by linarith : K ≤ 2 ^ 53).trans h53) hPf (fun j => rfl)
  have hKx : K * v ≤ K * x := mul_le_mul_of_nonneg_left hNv hK.le
  have hle : C * (dt.val + K * v + e0 + x) ≤ 1 := by
    refine le_trans ?_ hX
    have h1 : dt.val + K * v + e0 + x ≤ (1 + K) * (dt.val + e0 + x) := by
      have : 0 ≤ K * ((dt.val : ℝ) + e0) := by positivity
      linarith
    have h2 := mul_le_mul_of_nonneg_left h1 hC.le
    have h3 : 0 ≤ K * (dt.val + e0 + x) := by have : 0 ≤ x := by linarith
                                              positivity
    linarith
  have hfin := key FP (1 / 2 ^ 53) (2 ^ 1023) (K * (1 / 2 ^ 53)) (fpArith hpow) (eq FP P) (by positivity) (by positivity) ((by linarith : C ≤ 2 ^ 53).trans h53) hacc
    nd la order t0 t1 y0 dt st0 fuelB fuel out e0 h5 f0 f1 fy0 fd ha (by have := (Rat.cast_le (K := ℝ)).2 hlt; exact this) hb hy0 he0 hdt hrun
    (by
      have e1 : C * ((dt.val : ℝ) + K * (1 / 2 ^ 53) + e0 + out.tVals.length * (1 / 2 ^ 53)) ≤ 1 := by rw [← hv, ← hx]; exact hle
      exact e1)
  intro y hy
  refine (hfin y hy).trans ?_
  rw [← hv, ← hx]
  have : x + K * v ≤ (1 + K) * x := by linarith
  have := mul_le_mul_of_nonneg_left this hC'.le
  linarith

end

/-! ### concrete cases -/

open FP in
/-- the classical Runge-Kutta method for the dimer equation on `[1, 10]`, started within `e₀` of the exact solution -/
example : ∃ C C' h0 : ℝ, 0 < C ∧ 0 < C' ∧ 0 < h0 ∧
    ∀ (_ : Libm) (_ : ∀ x y, x ≠ negZero → lt x (fin 0) = false → lt (Libm.pow x y) (fin 0) = false) (y0 : Vec FP 2) (dt : FP) (fuel : ℕ)
      (out : ErkOutput FP 2) (e0 : ℝ), (∀ k, (y0 k).isFinite = true) → dt.isFinite = true → (∀ k, |((y0 k).val : ℝ) - dimerSol 1 k| ≤ e0) → 0 ≤ e0 →
      0 ≤ dt.val → (dt.val : ℝ) ≤ h0 →
      erkOdeint true (dimer (fin 1)).fn (fin 1) (fin 10) y0 { (ErkOpts.dflt : ErkOpts FP) with adaptive := false } OutOpts.dflt 110 dt fuel = some (.ret out) →
      C * ((dt.val : ℝ) ^ 4 + e0 + out.tVals.length * (1 / 2 ^ 53)) ≤ 1 →
      ∀ y ∈ out.yVals, |((y 0).val + 2 * (y 1).val : ℝ) - ((y0 0).val + 2 * (y0 1).val)| ≤ C' * (out.tVals.length * (1 / 2 ^ 53)) := by
  obtain ⟨C, C', h0, hC, hC', hh0, key⟩ := C134_mass (P := fun _ => fin 1) (m := 110) (q := 4) (a := 0) (b := 11) (δ := 1) (U := dimerSol)
    C133_equations.2.2.2.2.2.1 (fun _ => rfl) (by simp [val]) (MassWeights.dimer _) (by decide) rfl one_pos (by
      intro t ht
      have : ((fin 1).val : ℝ) = 1 := by simp [val]
      simp only [this]
      exact (dimerSol_deriv ht.1).hasDerivWithinAt)
  refine ⟨C, C', h0, hC, hC', hh0, ?_⟩
  intro _ hpow y0 dt fuel out e0 fy fd hy0 he0 hd0 hdh hrun hX y hy
  have h1 : ((fin 1).val : ℝ) = 1 := by simp [val]
  have := key _ hpow true _ _ (fin 1) (fin 10) y0 dt fuel out dt.val e0 rfl rfl fy fd (by rw [h1]; norm_num) (by norm_num [val]) (by norm_num [val])
    (by rw [h1]; exact hy0) he0 hd0 le_rfl hdh (fun h => by cases h) hrun hX y hy
  simpa [Fin.sum_univ_two] using this

open FP in
/-- `adams_bashforth` of order 4 for the same problem -/
example : ∃ C C' : ℝ, 0 < C ∧ 0 < C' ∧
    ∀ (_ : Libm) (_ : ∀ x y, x ≠ negZero → lt x (fin 0) = false → lt (Libm.pow x y) (fin 0) = false) (la : LinAlg FP) (y0 : Vec FP 2) (dt : FP)
      (st0 : NewtonStatus FP) (fuelB fuel : ℕ) (out : MsOutput FP 2) (e0 : ℝ), (∀ k, (y0 k).isFinite = true) → dt.isFinite = true →
      (∀ k, |((y0 k).val : ℝ) - dimerSol 1 k| ≤ e0) → 0 ≤ e0 → 0 ≤ dt.val →
      adamsBashforth true la (dimer (fin 1)) (fin 1) (fin 10) y0 4 dt st0 fuelB fuel = some (.ret out) →
      C * ((dt.val : ℝ) + e0 + out.tVals.length * (1 / 2 ^ 53)) ≤ 1 →
      ∀ y ∈ out.yVals, |((y 0).val + 2 * (y 1).val : ℝ) - ((y0 0).val + 2 * (y0 1).val)| ≤ C' * (out.tVals.length * (1 / 2 ^ 53)) := by
  obtain ⟨C, C', hC, hC', key⟩ := C134_mass_adams_bashforth (P := fun _ => fin 1) (a := 0) (b := 11) (δ := 1) (U := dimerSol)
    C133_equations.2.2.2.2.2.1 (fun _ => rfl) (by simp [val]) (MassWeights.dimer _) one_pos (by
      intro t ht
      have : ((fin 1).val : ℝ) = 1 := by simp [val]
      simp only [this]
      exact (dimerSol_deriv ht.1).hasDerivWithinAt)
  refine ⟨C, C', hC, hC', ?_⟩
  intro _ hpow la y0 dt st0 fuelB fuel out e0 fy fd hy0 he0 hd0 hrun hX y hy
  have h1 : ((fin 1).val : ℝ) = 1 := by simp [val]
  have := key _ hpow true la 4 (fin 1) (fin 10) y0 dt st0 fuelB fuel out e0 (by norm_num) rfl rfl fy fd (by rw [h1]; norm_num) (by norm_num [val])
    (by norm_num [val]) (by rw [h1]; exact hy0) he0 hd0 hrun hX y hy
  simpa [Fin.sum_univ_two] using this

/-- the status and the mass of the last sample of a run for three species -/
def lastMass (r : Option (Outcome (ErkOutput FP 3))) : Option (ℤ × ℚ) :=
  match r with
  | some (.ret out) => out.yVals.getLast?.map fun y => (out.status, (y 0).val + (y 1).val + (y 2).val)
  | _ => none

theorem lastMass_spec {r : Option (Outcome (ErkOutput FP 3))} {st : ℤ} {x : ℚ} (h : lastMass r = some (st, x)) :
    ∃ out y, r = some (.ret out) ∧ out.status = st ∧ out.yVals.getLast? = some y ∧ (y 0).val + (y 1).val + (y 2).val = x := by
  rcases r with _ | (out | _ | _ | _) <;> simp only [lastMass] at h
  · cases h
  · obtain ⟨y, hy, he⟩ := Option.map_eq_some_iff.mp h
    rw [Prod.mk.injEq] at he
    exact ⟨out, y, rfl, he.1, hy, he.2⟩
  all_goals cases h

open FP in
/-- **C134, rounding does change the mass.**  One step of EULER with `dt = 1/2` for the ROBER problem from `(1, 0, 0)` loses the mass `5 / 2^58`, whereas
it loses nothing in exact arithmetic (C57). -/
theorem C134_sharp : letI : Libm := powOne
    ∃ fuel out y, erkOdeint false (rober (F := FP)).fn (fin 0) (fin (1 / 2)) ![fin 1, fin 0, fin 0] { (ErkOpts.dflt : ErkOpts FP) with adaptive := false }
      OutOpts.dflt 100 (fin (1 / 2)) fuel = some (.ret out) ∧ out.status = 0 ∧ out.yVals.getLast? = some y ∧
      (y 0).val + (y 1).val + (y 2).val = 1 - 5 / 2 ^ 58 := by
  let : Libm := powOne
  obtain ⟨out, y, h1, h2, h3, h4⟩ := lastMass_spec (st := 0) (x := 1 - 5 / 2 ^ 58)
    (r := erkOdeint false (rober (F := FP)).fn (fin 0) (fin (1 / 2)) ![fin 1, fin 0, fin 0] { (ErkOpts.dflt : ErkOpts FP) with adaptive := false }
      OutOpts.dflt 100 (fin (1 / 2)) 10) (by decide +kernel)
  exact ⟨10, out, y, h1, h2, h3, h4⟩

end Verif
