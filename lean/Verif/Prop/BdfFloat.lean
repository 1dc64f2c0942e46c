import Verif.BdfFloatRun
import Verif.Prop.AbFloat
import Verif.Prop.MsConverge

/-!
# Property C128: `bdf` in arithmetic with rounding errors
-/

set_option autoImplicit false

namespace Verif
open Set

set_option maxHeartbeats 1000000 in
/-- **C128.**  Let `U` solve `U' = f(t,U)` on `[a,b]`, `f` being continuously differentiable, let `δ > 0` and `1 ≤ order ≤ 6`.  For every bound
`Jb` there is a constant `C` such that: in an arithmetic with unit roundoff `u` on numbers up to `B ≥ C`, with a computed right-hand side
accurate to `ε`, any "Jacobi matrix" with row sums up to `Jb`, linear systems solved up to a residual of `ρ` and an initial value accurate to
`e₀`, every run of `bdf` over an interval within `[a+δ, b-δ]` that returns `N` samples with `C (dt + ε + e₀ + N (u + ρ)) ≤ 1` has all its
samples finite and within `C (dt + ε + e₀ + N (u + ρ))` of the solution at the recorded times, whether or not it ends with SUCCESS. -/
theorem C128_convergence {n : ℕ} {f : ℝ → Vec ℝ n → Vec ℝ n} {U : ℝ → Vec ℝ n} {a b δ Jb : ℝ} {order : ℤ} (h0 : 0 < order) (h6 : order ≤ 6) (hJb : 0 ≤ Jb)
    (hf : ContDiff ℝ 1 fun q : ℝ × (Fin n → ℝ) => f q.1 q.2) (hδ : 0 < δ)
    (hU : ∀ t ∈ Icc a b, HasDerivWithinAt U (f t (U t)) (Icc a b) t) :
    ∃ C : ℝ, 0 < C ∧
      ∀ (F : Type) [Add F] [Sub F] [Mul F] [Div F] [Neg F] [Scalar F] (u B ε ρ : ℝ) (A : FloatArith F u B) (fn : OdeFun F n) (la : LinAlg F),
        0 ≤ u → 0 ≤ ε → 0 ≤ ρ → C ≤ B → RhsAccurate A f U a b ε fn.fn → JacBounded A U a b Jb fn.jac → SolveAccurate A la n ρ →
        ∀ (nd : Bool) (t0 t1 : F) (y0 : Vec F n) (dt : F) (st0 : NewtonStatus F) (fuelB fuel : ℕ) (out : MsOutput F n) (e0 : ℝ),
          isFin t0 = true → isFin t1 = true → (∀ k, isFin (y0 k) = true) → isFin dt = true →
          a + δ ≤ A.val t0 → A.val t0 ≤ A.val t1 → A.val t1 ≤ b - δ → (∀ k, |A.val (y0 k) - U (A.val t0) k| ≤ e0) → 0 ≤ e0 → 0 ≤ A.val dt →
          bdf nd la fn t0 t1 y0 order dt st0 fuelB fuel = some (.ret out) → C * (A.val dt + ε + e0 + out.tVals.length * (u + ρ)) ≤ 1 →
          ∀ (i : ℕ) (t : F) (y : Vec F n), out.tVals[i]? = some t → out.yVals[i]? = some y →
            isFin t = true ∧ ∀ k, isFin (y k) = true ∧
              |A.val (y k) - U (A.val t) k| ≤ C * (A.val dt + ε + e0 + out.tVals.length * (u + ρ)) := by
  obtain ⟨R, L, Bf, K, hR, hL, hBf, hK, hub, hlip, hbd, hul, hcons⟩ := solution_facts hf hU
  have S : SolFacts f U a b R L Bf K := ⟨hR, hL, hBf, hK, hub, hlip, hbd, hul, hcons⟩
  obtain ⟨κ, bb, hcert, hbb⟩ := bdf_certificate h0 h6
  obtain ⟨Sc, hSc⟩ : ∃ Sc, Sc = l1 κ / (1 - l1 bb) := ⟨_, rfl⟩
  have hSc0 : 0 ≤ Sc := by rw [hSc]; exact div_nonneg (l1_nonneg _) (by linarith)
  obtain ⟨w1, hw1⟩ : ∃ w1, w1 = l1 (List.replicate (order.toNat + 1) (1 : ℝ)) := ⟨_, rfl⟩
  have hw10 : 0 ≤ w1 := by rw [hw1]; exact l1_nonneg _
  obtain ⟨r1, hr1⟩ : ∃ r1, r1 = l1 (bdfRho order) := ⟨_, rfl⟩
  have hr10 : 0 ≤ r1 := by rw [hr1]; exact l1_nonneg _
  obtain ⟨W, hW⟩ : ∃ W, W = |a| + |b| + 1 := ⟨_, rfl⟩
  have hW1 : 1 ≤ W := by rw [hW]; linarith [abs_nonneg a, abs_nonneg b]
  have haW : |a| ≤ W := by rw [hW]; linarith [abs_nonneg b]
  have hbW : |b| ≤ W := by rw [hW]; linarith [abs_nonneg a]
  obtain ⟨G, hG⟩ : ∃ G, G = 25 * R + 79 + Bf + Jb := ⟨_, rfl⟩
  have hG1 : 1 ≤ G := by rw [hG]; linarith
  obtain ⟨b1, -⟩ := big_facts hG1
  obtain ⟨g, hg⟩ : ∃ g, g = big G ^ 2 := ⟨_, rfl⟩
  have hg0 : 0 ≤ g := by rw [hg]; positivity
  -- `q` bounds the step and the rounding of a time
  obtain ⟨q, hq⟩ : ∃ q, q = 1 + 2 * (2 * W + 3) + (W + 2) := ⟨_, rfl⟩
  have hq1 : 1 ≤ q := by rw [hq]; linarith
  obtain ⟨Tt, hTt⟩ : ∃ Tt, Tt = 2 * W + δ := ⟨_, rfl⟩
  have hTt0 : 0 ≤ Tt := by rw [hTt]; linarith
  obtain ⟨A1, hA1⟩ : ∃ A1, A1 = L + 44 * (Jb + L) := ⟨_, rfl⟩
  have hA10 : 0 ≤ A1 := by rw [hA1]; positivity
  obtain ⟨Q, hQ⟩ : ∃ Q, Q = 236 * (Jb + L) * Bf * ((Tt + 1) * q) + 396 * K * ((Tt + 2) * q) + 4 * (Tt + 1) + 66 * (Bf * q) + (200 + 2 * n) * g + 4 := ⟨_, rfl⟩
  have hQ0 : 0 ≤ Q := by rw [hQ]; positivity
  obtain ⟨M, hM⟩ : ∃ M, M = 2 * (Sc * (r1 * (7 * (1 + 6 * (Bf * q))) + Q)) * Real.exp (2 * (Sc * (A1 * w1)) * Tt) := ⟨_, rfl⟩
  have hM0 : 0 ≤ M := by rw [hM]; positivity
  obtain ⟨C, hC⟩ : ∃ C, C = 1000 * M + 11 * q / δ + q + 4 * ((Jb + L) * q + 5 * n * g) + 17700 * (Bf * q) + 100 * (2 + 50 * g) + 2 * (Sc * (q * A1 * w1)) +
      (2 * W + 3) + big G + 10000 := ⟨_, rfl⟩
  have hqd : 0 ≤ 11 * q / δ := by positivity
  have c1' : 0 ≤ 4 * ((Jb + L) * q + 5 * n * g) := by positivity
  have c2' : 0 ≤ 17700 * (Bf * q) := by positivity
  have c3' : 0 ≤ 2 * (Sc * (q * A1 * w1)) := by positivity
  refine ⟨C, by rw [hC]; linarith, ?_⟩
  intro F _ _ _ _ _ _ u B ε ρ A fn la hu hε hρ hCB hacc hjac hsol nd t0 t1 y0 dt st0 fuelB fuel out e0 f0 f1 fy fdt ha h01 hb he he0 hdt h hsm
  obtain ⟨N, hN1, hN2, hoN, htimes, -, hbef⟩ := C53_bdf_grid h0 h6 h
  obtain ⟨y, hy1, hy2, hy3⟩ := bdf_sequence h0 h6 h
  rw [hN1] at hsm ⊢
  rw [hN2] at hy3
  have hN : (1 : ℝ) ≤ N := by exact_mod_cast (show 1 ≤ N by omega)
  have huN : u ≤ N * u := le_mul_of_one_le_left hu hN
  have hρN : ρ ≤ N * ρ := le_mul_of_one_le_left hρ hN
  obtain ⟨ξ, hξ⟩ : ∃ ξ, ξ = A.val dt + ε + e0 + N * (u + ρ) := ⟨_, rfl⟩
  rw [← hξ] at hsm ⊢
  have hNu0 : 0 ≤ N * u := by positivity
  have hNρ0 : 0 ≤ N * ρ := by positivity
  rw [mul_add] at hξ
  have hξ0 : 0 ≤ ξ := by rw [hξ]; positivity
  have x1 : A.val dt ≤ ξ := by rw [hξ]; linarith
  have x2 : ε ≤ ξ := by rw [hξ]; linarith
  have x3 : e0 ≤ ξ := by rw [hξ]; linarith
  have x4 : N * u ≤ ξ := by rw [hξ]; linarith
  have x5 : u ≤ ξ := huN.trans x4
  have x6 : N * ρ ≤ ξ := by rw [hξ]; linarith
  have x7 : ρ ≤ ξ := hρN.trans x6
  have part : ∀ z, z ≤ C → z * ξ ≤ 1 := fun z hz => (mul_le_mul_of_nonneg_right hz hξ0).trans hsm
  have p1 : q * ξ ≤ 1 := part q (by rw [hC]; linarith)
  have p2 : 11 * q / δ * ξ ≤ 1 := part _ (by rw [hC]; linarith)
  have p3 : 4 * ((Jb + L) * q + 5 * n * g) * ξ ≤ 1 := part _ (by rw [hC]; linarith)
  have p4 : 17700 * (Bf * q) * ξ ≤ 1 := part _ (by rw [hC]; linarith)
  have p5 : 100 * (2 + 50 * g) * ξ ≤ 1 := part _ (by rw [hC]; linarith)
  have p6 : 2 * (Sc * (q * A1 * w1)) * ξ ≤ 1 := part _ (by rw [hC]; linarith)
  have p7 : (2 * W + 3) * ξ ≤ 1 := part _ (by rw [hC]; linarith)
  have p8 : 1000 * M * ξ ≤ 1 := part _ (by rw [hC]; linarith)
  have p9 : 1 * ξ ≤ 1 := part 1 (by rw [hC]; linarith)
  have v0 : |A.val t0| ≤ W := abs_le.mpr ⟨by linarith [(abs_le.mp haW).1], by linarith [(abs_le.mp hbW).2]⟩
  have v1 : |A.val t1| ≤ W := abs_le.mpr ⟨by linarith [(abs_le.mp haW).1], by linarith [(abs_le.mp hbW).2]⟩
  obtain ⟨c1, c2, c3, -⟩ := clip_float (A := A) (dt := dt) hu hW1 (by rw [hC] at hCB; linarith)
    ((mul_comm u _).le.trans ((mul_le_mul_of_nonneg_left x5 (by linarith)).trans p7)) f0 f1 fdt h01 v0 v1 hdt (by linarith)
  obtain ⟨H, hH⟩ : ∃ H, A.val (clipDt t0 t1 dt) = H := ⟨_, rfl⟩
  rw [hH] at c2 c3
  obtain ⟨ω, hω⟩ : ∃ ω, ω = u * (W + 2) := ⟨_, rfl⟩
  have hω0 : 0 ≤ ω := by rw [hω]; positivity
  have hHq : H + ω ≤ q * ξ := by
    have z1 : (2 * (2 * W + 3)) * u ≤ (2 * (2 * W + 3)) * ξ := mul_le_mul_of_nonneg_left x5 (by linarith)
    have z2 : u * (W + 2) ≤ ξ * (W + 2) := mul_le_mul_of_nonneg_right x5 (by linarith)
    rw [hω, hq]
    linarith
  have hH1 : H ≤ 1 := by linarith
  have hHq' : H ≤ q * ξ := by linarith
  have hNω : N * ω ≤ q * ξ := by
    have z1 : N * u * (W + 2) ≤ ξ * (W + 2) := mul_le_mul_of_nonneg_right x4 (by linarith)
    have z2 : (1 + 2 * (2 * W + 3)) * ξ ≥ 0 := mul_nonneg (by linarith) hξ0
    rw [hω, hq]
    linarith
  have hqδ : 11 * (q * ξ) ≤ δ := by
    rw [div_mul_eq_mul_div, div_le_iff₀ hδ] at p2
    linarith
  have hqξ0 : 0 ≤ q * ξ := by positivity
  obtain ⟨T1, T2⟩ := ab_times (A := A) (first := order.toNat + 1) (N := N) (δ := δ) (a := a) (b := b) (W := W) hu f0 f1 c1 hH c2 hH1 haW hbW
    (by rw [hC] at hCB; linarith) ha h01 hb (by rw [← hω]; linarith) (by rw [← hω]; linarith) (by omega)
    (fun i h1 h2 => hbef i (by omega) h2)
  rw [← hω] at T1 T2
  have hlast : ((N - 1 : ℕ) : ℝ) * H ≤ Tt := by
    obtain ⟨-, -, s3, s4⟩ := T1 (N - 1) (by omega)
    have s5 := abs_le.mp s4
    have s6 : ((N - 1 : ℕ) : ℝ) * ω ≤ N * ω := mul_le_mul_of_nonneg_right (by exact_mod_cast (show N - 1 ≤ N by omega)) hω0
    rw [hTt]
    linarith [(abs_le.mp haW).1, (abs_le.mp hbW).2, s5.1]
  have hNH : N * H ≤ Tt + 1 := by
    have e : (N : ℝ) = ((N - 1 : ℕ) : ℝ) + 1 := by rw [Nat.cast_sub (by omega)]; push_cast; ring
    rw [e, add_mul, one_mul]
    linarith
  have hNH0 : 0 ≤ N * H := by positivity
  -- the error of the steps
  have hτ : N * bdfTau Jb L Bf K H ω ε (u * big G ^ 2) ρ n ≤ Q * ξ := by
    have z1 : N * H * (H + ω) ≤ (Tt + 1) * (q * ξ) := mul_le_mul hNH hHq (by linarith) (by linarith)
    have z2 : (N * H + N * ω) * (H + ω) ≤ (Tt + 2) * (q * ξ) := mul_le_mul (by linarith) hHq (by linarith) (by linarith)
    have z3 : N * H * ε ≤ (Tt + 1) * ξ := mul_le_mul hNH x2 hε (by linarith)
    have z4 : Bf * (N * ω) ≤ Bf * (q * ξ) := mul_le_mul_of_nonneg_left hNω hBf
    have z5 : (200 + 2 * (n : ℝ)) * g * (N * u) ≤ (200 + 2 * n) * g * ξ := mul_le_mul_of_nonneg_left x4 (by positivity)
    have z6 : 236 * (Jb + L) * Bf * (N * H * (H + ω)) ≤ 236 * (Jb + L) * Bf * ((Tt + 1) * (q * ξ)) := mul_le_mul_of_nonneg_left z1 (by positivity)
    have z7 : 396 * K * ((N * H + N * ω) * (H + ω)) ≤ 396 * K * ((Tt + 2) * (q * ξ)) := mul_le_mul_of_nonneg_left z2 (by positivity)
    have e : N * bdfTau Jb L Bf K H ω ε (u * big G ^ 2) ρ n = 236 * (Jb + L) * Bf * (N * H * (H + ω)) + 396 * K * ((N * H + N * ω) * (H + ω)) +
        4 * (N * H * ε) + 66 * (Bf * (N * ω)) + (200 + 2 * n) * g * (N * u) + 4 * (N * ρ) := by
      rw [hg]; unfold bdfTau; ring
    have e2 : Q * ξ = 236 * (Jb + L) * Bf * ((Tt + 1) * (q * ξ)) + 396 * K * ((Tt + 2) * (q * ξ)) + 4 * ((Tt + 1) * ξ) + 66 * (Bf * (q * ξ)) +
        (200 + 2 * n) * g * ξ + 4 * ξ := by
      rw [hQ]; ring
    rw [e, e2]
    linarith
  have hstart : 7 * (e0 + 6 * (Bf * (H + ω))) ≤ 7 * (1 + 6 * (Bf * q)) * ξ := by
    have := mul_le_mul_of_nonneg_left hHq hBf
    linarith
  have hmul : u * g ≤ ξ * g := mul_le_mul_of_nonneg_right x5 hg0
  have hD : 2 * (Sc * (l1 (bdfRho order) * (7 * (e0 + 6 * (Bf * (H + ω)))) + N * bdfTau Jb L Bf K H ω ε (u * big G ^ 2) ρ n)) *
      Real.exp (2 * (Sc * (H * (L + 44 * (Jb + L)) * l1 (List.replicate (order.toNat + 1) 1))) * (N - 1 : ℕ)) ≤ M * ξ := by
    rw [← hr1, ← hw1, ← hA1]
    have e1 : r1 * (7 * (e0 + 6 * (Bf * (H + ω)))) + N * bdfTau Jb L Bf K H ω ε (u * big G ^ 2) ρ n ≤ (r1 * (7 * (1 + 6 * (Bf * q))) + Q) * ξ := by
      have := mul_le_mul_of_nonneg_left hstart hr10
      linarith
    have e2 : 2 * (Sc * (H * A1 * w1)) * (N - 1 : ℕ) ≤ 2 * (Sc * (A1 * w1)) * Tt := by
      have e3 : 2 * (Sc * (H * A1 * w1)) * (N - 1 : ℕ) = 2 * (Sc * (A1 * w1)) * (((N - 1 : ℕ) : ℝ) * H) := by ring
      rw [e3]
      exact mul_le_mul_of_nonneg_left hlast (by positivity)
    have e4 : M * ξ = 2 * (Sc * ((r1 * (7 * (1 + 6 * (Bf * q))) + Q) * ξ)) * Real.exp (2 * (Sc * (A1 * w1)) * Tt) := by rw [hM]; ring
    rw [e4]
    refine mul_le_mul ?_ (Real.exp_le_exp.2 e2) (Real.exp_nonneg _) (by positivity)
    have := mul_le_mul_of_nonneg_left e1 hSc0
    linarith
  have hall := bdf_errors (N := N) (tF := fun i => gridPt (clipDt t0 t1 dt) t0 i) (y := y) (D := M * ξ) (e0 := e0) (ω := ω) S hu hε hρ hJb hacc hjac hsol
    hG.ge (by rw [hC] at hCB; linarith) (by rw [hC] at hCB; linarith) h0 h6 c1 hH c2 hH1 hω0
    (by
      rw [← hg]
      have z1 := mul_le_mul_of_nonneg_right hHq' (show 0 ≤ Jb + L by positivity)
      have z2 : 5 * (n : ℝ) * (u * g) ≤ 5 * n * (ξ * g) := mul_le_mul_of_nonneg_left hmul (by positivity)
      linarith)
    (by
      have := mul_le_mul_of_nonneg_left hHq hBf
      linarith)
    (by
      rw [← hg]
      have : H * ε ≤ ε := mul_le_of_le_one_left hε hH1
      linarith)
    (by
      rw [← hg]
      have : 0 ≤ ξ * g := by positivity
      linarith)
    (by omega) (fun i hi => ⟨(T1 i hi).1, (T1 i hi).2.1, (T1 i hi).2.2.1⟩) T2 (by rw [hy2 0 (by omega)]; exact fy)
    (fun i hi => by rw [hy2 i hi, hy2 0 (by omega)]) (by
      rw [hy2 0 (by omega), pi_norm_le_iff_of_nonneg he0]
      exact he) hy3 hcert hbb hSc.ge (by
      rw [← hw1, ← hA1]
      have z1 : Sc * (H * A1 * w1) ≤ Sc * (q * ξ * A1 * w1) := by
        have := mul_le_mul_of_nonneg_left hHq' (show 0 ≤ Sc * (A1 * w1) by positivity)
        linarith
      linarith) hD (by linarith)
  intro i t yi hti hyi
  have hiN : i < N := by rw [← hN1]; exact (List.getElem?_eq_some_iff.1 hti).1
  have ht : t = gridPt (clipDt t0 t1 dt) t0 i := by
    have := htimes i hiN
    rw [hti] at this
    simpa using this
  obtain ⟨g1, g2⟩ := hall i hiN
  rw [hy1 i yi hyi, ht]
  refine ⟨(T1 i hiN).1, fun k => ⟨g1 k, ?_⟩⟩
  refine ((norm_le_pi_norm _ k).trans g2).trans (mul_le_mul_of_nonneg_right ?_ hξ0)
  rw [hC]
  linarith

/-- **C128, exact arithmetic.**  With exact arithmetic, but an inexact right-hand side, an arbitrary bounded "Jacobi matrix" and an inexact
linear solver the error is at most `C (dt + ε + e₀ + N ρ)`. -/
theorem C128_perturbed {n : ℕ} {f : ℝ → Vec ℝ n → Vec ℝ n} {U : ℝ → Vec ℝ n} {a b δ Jb : ℝ} {order : ℤ} (h0 : 0 < order) (h6 : order ≤ 6) (hJb : 0 ≤ Jb)
    (hf : ContDiff ℝ 1 fun q : ℝ × (Fin n → ℝ) => f q.1 q.2) (hδ : 0 < δ)
    (hU : ∀ t ∈ Icc a b, HasDerivWithinAt U (f t (U t)) (Icc a b) t) :
    ∃ C : ℝ, 0 < C ∧
      ∀ (fn : OdeFun ℝ n) (la : LinAlg ℝ) (ε ρ : ℝ), 0 ≤ ε → 0 ≤ ρ →
        (∀ t y, a ≤ t → t ≤ b → ‖y - U t‖ ≤ 2 → ∀ k, |fn.fn t y k - f t y k| ≤ ε ∧ ∑ l, |fn.jac t y k l| ≤ Jb) →
        (∀ (J : Mat ℝ n) (r z : Vec ℝ n), (∀ i, ∑ l, |J i l - if i = l then 1 else 0| ≤ 1 / 4) → (∀ i, |r i| ≤ 1) → la.solve J r = some z →
          ∀ i, |∑ l, J i l * z l - r i| ≤ ρ) →
        ∀ (nd : Bool) (t0 t1 : ℝ) (y0 : Vec ℝ n) (dt : ℝ) (st0 : NewtonStatus ℝ) (fuelB fuel : ℕ) (out : MsOutput ℝ n)
          (e0 : ℝ), a + δ ≤ t0 → t0 ≤ t1 → t1 ≤ b - δ → (∀ k, |y0 k - U t0 k| ≤ e0) → 0 ≤ e0 → 0 ≤ dt →
          bdf nd la fn t0 t1 y0 order dt st0 fuelB fuel = some (.ret out) → C * (dt + ε + e0 + out.tVals.length * ρ) ≤ 1 →
          ∀ (i : ℕ) (t : ℝ) (y : Vec ℝ n), out.tVals[i]? = some t → out.yVals[i]? = some y →
            ∀ k, |y k - U t k| ≤ C * (dt + ε + e0 + out.tVals.length * ρ) := by
  obtain ⟨C, hC, key⟩ := C128_convergence (Jb := Jb) h0 h6 hJb hf hδ hU
  refine ⟨C, hC, ?_⟩
  intro fn la ε ρ hε hρ hfn hla nd t0 t1 y0 dt st0 fuelB fuel out e0 ha h01 hb he he0 hdt h hsm i t y ht hy k
  have := key ℝ 0 C ε ρ (realArith C) fn la le_rfl hε hρ le_rfl (fun t y _ _ h1 h2 h3 k => ⟨rfl, (hfn t y h1 h2 h3 k).1⟩)
    (fun t y _ _ h1 h2 h3 k => ⟨fun _ => rfl, (hfn t y h1 h2 h3 k).2⟩) (fun J r z _ h1 _ h2 h3 => ⟨fun _ => rfl, hla J r z h1 h2 h3⟩) nd t0 t1 y0 dt st0
    fuelB fuel out e0 rfl rfl (fun _ => rfl) rfl ha h01 hb he he0 hdt h (by rw [zero_add]; exact hsm) i t y ht hy
  have e : C * (dt + ε + e0 + out.tVals.length * (0 + ρ)) = C * (dt + ε + e0 + out.tVals.length * ρ) := by rw [zero_add]
  rw [← e]
  exact (this.2 k).2

/-! ### the hypotheses can be met -/

/-- exact linear algebra has no residual -/
theorem laReal_solveAccurate (B : ℝ) (n : ℕ) : SolveAccurate (realArith B) laReal n 0 := by
  intro J r z _ _ _ _ h
  refine ⟨fun _ => rfl, fun i => ?_⟩
  unfold laReal at h
  simp only at h
  split_ifs at h with hd
  simp only [Option.some.injEq] at h
  have e : (Matrix.of J).mulVec z = r := by
    rw [← h, Matrix.mulVec_mulVec, Matrix.mul_nonsing_inv _ hd, Matrix.one_mulVec]
  have e2 : ∑ l, J i l * z l = r i := congrFun e i
  show |∑ l, J i l * z l - r i| ≤ 0
  rw [e2, sub_self, abs_zero]

/-- linear algebra for one equation in any arithmetic: one division -/
def laOne (F : Type) [Div F] : LinAlg F where
  solve M v := some fun i => v i / M i i
  inv _ := none
  lu _ := none
  solveL _ _ := none
  solveU _ _ := none

/-- one division has a residual of at most three units -/
theorem laOne_solveAccurate {F : Type} [Add F] [Sub F] [Mul F] [Div F] [Neg F] [Scalar F] {u B : ℝ} (A : FloatArith F u B) (hu : 0 ≤ u) (hB : 2 ≤ B) :
    SolveAccurate A (laOne F) 1 (3 * u) := by
  intro J r z hJ hrow hr hr1 h
  simp only [laOne, Option.some.injEq] at h
  subst h
  have h1 : ∀ i, |A.val (J i i) - 1| ≤ 1 / 4 := by
    intro i
    have := hrow i
    fin_cases i
    simpa using this
  have h2 : ∀ i, isFin (r i / J i i) = true ∧ |A.val (J i i) * A.val (r i / J i i) - A.val (r i)| ≤ 3 * u := by
    intro i
    have b := abs_le.mp (h1 i)
    have hpos : 0 < A.val (J i i) := by linarith
    have hq : |A.val (r i) / A.val (J i i)| ≤ 4 / 3 := by
      rw [abs_div, abs_of_pos hpos, div_le_iff₀ hpos]
      linarith [hr1 i]
    obtain ⟨d1, d2⟩ := A.div _ _ (hr i) (hJ i i) hpos.ne' (hq.trans (by linarith))
    refine ⟨d1, ?_⟩
    have e : A.val (J i i) * A.val (r i / J i i) - A.val (r i) = A.val (J i i) * (A.val (r i / J i i) - A.val (r i) / A.val (J i i)) := by
      field_simp
    rw [e, abs_mul, abs_of_pos hpos]
    calc _ ≤ 5 / 4 * (u * (1 + 4 / 3)) :=
          mul_le_mul (by linarith) (d2.trans (mul_le_mul_of_nonneg_left (by linarith) hu)) (abs_nonneg _) (by norm_num)
      _ ≤ 3 * u := by linarith
  refine ⟨fun i => (h2 i).1, fun i => ?_⟩
  have := (h2 i).2
  fin_cases i
  simpa using this

/-- **The hypotheses of C128 can be met with rounding errors**: for `y' = y²` on `[0, 9/10]`, in every binary arithmetic with a precision of at
least 20 bits, the computed square, the (wrong) zero Jacobi matrix and a division as the linear solver. -/
example (q : ℕ) (hq : 20 ≤ q) (B : ℝ) (hB : 145 ≤ B) :
    RhsAccurate (BF.arith hq B) (fun (_ : ℝ) (y : Vec ℝ 1) (i : Fin 1) => y i ^ 2) (fun (t : ℝ) (_ : Fin 1) => 1 / (1 - t)) 0 (9 / 10)
      (145 * (1 / 2 ^ (q + 1))) (squareOde (BF q)).fn ∧
    JacBounded (BF.arith hq B) (fun (t : ℝ) (_ : Fin 1) => 1 / (1 - t)) 0 (9 / 10) 0 (squareOde (BF q)).jac ∧
    SolveAccurate (BF.arith hq B) (laOne (BF q)) 1 (3 * (1 / 2 ^ (q + 1))) := by
  refine ⟨square_accurate _ (by positivity) hB, ?_, laOne_solveAccurate _ (by positivity) (by linarith)⟩
  intro t y _ _ _ _ _ i
  obtain ⟨k1, k2⟩ := (BF.arith hq B).int 0 (by norm_num)
  rw [Nat.cast_zero] at k1 k2
  rw [Nat.cast_zero] at k2
  refine ⟨fun l => k1, ?_⟩
  show ∑ l : Fin 1, |(BF.arith hq B).val (lit 0)| ≤ 0
  simp [k2]

/-- **Runs covered by C128 exist**: for `y' = v` from `t = 1` to `2` there is a step size for which the run of `bdf` of order 3 returns
samples within `1/100` of the solution. -/
theorem C128_example : ∃ v h : ℝ, 0 < v ∧ 0 < h ∧ ∃ fuel out,
    bdf false laReal (constFun fun _ : Fin 1 => v) 1 2 (fun _ => v) 3 h nStat 2 fuel = some (.ret out) ∧
      ∀ (i : ℕ) (t : ℝ) (y : Vec ℝ 1), out.tVals[i]? = some t → out.yVals[i]? = some y → ∀ k, |y k - t * v| ≤ 1 / 100 := by
  obtain ⟨v, hv0, hv⟩ := slope_exists
  obtain ⟨C, hC, key⟩ := C128_perturbed (n := 1) (f := fun _ _ _ => v) (U := fun t _ => t * v) (a := 0) (b := 3) (δ := 1) (Jb := 0) (order := 3)
    (by norm_num) (by norm_num) le_rfl contDiff_const one_pos (by
      intro t _
      rw [hasDerivWithinAt_pi]
      intro i
      simpa using ((hasDerivAt_id t).mul_const v).hasDerivWithinAt)
  obtain ⟨h, hh⟩ : ∃ h, h = min (1 / 10 ^ 6) (1 / (100 * C)) := ⟨_, rfl⟩
  have hpos : 0 < h := by rw [hh]; positivity
  have hle6 : h ≤ 1 / 10 ^ 6 := by rw [hh]; exact min_le_left _ _
  have h1 : h ≤ 1 := hle6.trans (by norm_num)
  have hCh : C * h ≤ 1 / 100 := by
    have : h ≤ 1 / (100 * C) := by rw [hh]; exact min_le_right _ _
    rw [le_div_iff₀ (by positivity)] at this
    linarith
  have hmin : min h (2 - 1) = h := by norm_num; exact h1
  obtain ⟨l, hl⟩ := bootstrap_const (n := 1) (by norm_num) (fun _ => v) (fun _ => hv) (dt := h) hpos hle6 (3 + 1) 1 (fun _ => v)
  obtain ⟨fuel, out, ho⟩ := C53_bdf_returns (st0 := nStat) (order := 3) (by norm_num) (by norm_num) hpos (t0 := 1) (t1 := 2) (by norm_num) (by rw [hmin]; exact hl)
  refine ⟨v, h, hv0, hpos, fuel, out, ho, ?_⟩
  intro i t y ht hy k
  have e : C * (h + 0 + 0 + out.tVals.length * 0) = C * h := by ring
  have := key (constFun fun _ => v) laReal 0 0 le_rfl le_rfl (fun t y _ _ _ k => ⟨by simp [constFun], by simp [constFun]⟩)
    (fun J r z h1 h2 h3 => (laReal_solveAccurate 1 1 J r z (fun _ _ => rfl) h1 (fun _ => rfl) h2 h3).2) false 1 2 (fun _ => v) h nStat 2 fuel out 0
    (by norm_num) (by norm_num) (by norm_num) (fun _ => by simp) le_rfl hpos.le ho (by rw [e]; linarith) i t y ht hy k
  rw [e] at this
  exact this.trans hCh

end Verif
