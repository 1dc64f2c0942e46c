import Verif.ErkFloat
import Verif.FloatInst
import Verif.Prop.ErkConverge

/-!
# Property C91: the explicit integrators converge in arithmetic with rounding errors
-/

set_option autoImplicit false

namespace Verif
open Spec Set

/-- **C91.**  Let `U` solve `U' = f(t,U)` on `[a,b]`, `f` being `p` times continuously differentiable, where `p` is the declared order of
the explicit method, and let `δ > 0`.  There are constants `C` and `h₀ > 0`, the same for every arithmetic, such that: in an arithmetic
with unit roundoff `u` on numbers up to `B ≥ C`, with a computed right-hand side accurate to `ε`, an initial value accurate to `e₀`, an
initial step and (if the method adapts) a `max_dt` of at most `h ≤ h₀`, every run over an interval within `[a+δ, b-δ]` that returns `N`
samples with `C (h^p + ε + e₀ + N u) ≤ 1` has all its samples finite and within `C (h^p + ε + e₀ + N u)` of the solution at the recorded
times.  The tolerances, the output options and the step limit are arbitrary. -/
theorem C91_convergence {n p : ℕ} {f : ℝ → Vec ℝ n → Vec ℝ n} {U : ℝ → Vec ℝ n} {a b δ : ℝ} {m : ℤ} (hm : m ∈ erkImplemented)
    (hp : (erkCoeffs m : SolverCoeffs ℝ).order = some (p : ℤ)) (hf : ContDiff ℝ p fun q : ℝ × (Fin n → ℝ) => f q.1 q.2) (hδ : 0 < δ)
    (hU : ∀ t ∈ Icc a b, HasDerivWithinAt U (f t (U t)) (Icc a b) t) :
    ∃ C h0 : ℝ, 0 < C ∧ 0 < h0 ∧
      ∀ (F : Type) [Add F] [Sub F] [Mul F] [Div F] [Neg F] [Scalar F] (u B ε : ℝ) (A : FloatArith F u B) (fF : F → Vec F n → Vec F n),
        0 ≤ u → 0 ≤ ε → C ≤ B → RhsAccurate A f U a b ε fF →
        ∀ (nd : Bool) (o : ErkOpts F) (oo : OutOpts) (t0 t1 : F) (y0 : Vec F n) (dt : F) (fuel : ℕ) (out : ErkOutput F n) (h e0 : ℝ),
          isFin t0 = true → isFin t1 = true → (∀ k, isFin (y0 k) = true) → isFin dt = true →
          a + δ ≤ A.val t0 → A.val t0 ≤ A.val t1 → A.val t1 ≤ b - δ → (∀ k, |A.val (y0 k) - U (A.val t0) k| ≤ e0) → 0 ≤ e0 →
          0 ≤ A.val dt → A.val dt ≤ h → h ≤ h0 →
          (o.adaptive = true → (erkCoeffs m : SolverCoeffs F).b2 ≠ [] → isFin o.maxDt = true ∧ 0 < A.val o.maxDt ∧ A.val o.maxDt ≤ h) →
          erkOdeint nd fF t0 t1 y0 o oo m dt fuel = some (.ret out) → C * (h ^ p + ε + e0 + out.tVals.length * u) ≤ 1 →
          ∀ (i : ℕ) (t : F) (y : Vec F n), out.tVals[i]? = some t → out.yVals[i]? = some y →
            isFin t = true ∧ ∀ k, isFin (y k) = true ∧ |A.val (y k) - U (A.val t) k| ≤ C * (h ^ p + ε + e0 + out.tVals.length * u) := by
  obtain ⟨C, h0, hC, hh0, key⟩ := float_converges (shipped_order_pos hm hp) hf hδ hU hm (shipped_hasOrder hm hp)
  refine ⟨C, h0, hC, hh0, ?_⟩
  intro F _ _ _ _ _ _ u B ε A fF hu hε hCB hacc nd o oo t0 t1 y0 dt fuel out h e0 q1 q2 q3 q4 q5 q6 q7 q8 q9 q10 q11 q12 q13 q14 q15
  have := key F u B ε A fF hu hε hCB hacc nd o oo t0 t1 y0 dt fuel out h e0 q1 q2 q3 q4 q5 q6 q7
    ((pi_norm_le_iff_of_nonneg q9).mpr q8) q10 q11 q12 q13 q14 q15
  intro i t y ht hy
  obtain ⟨hi, rfl⟩ := List.getElem?_eq_some_iff.mp ht
  obtain ⟨hi', rfl⟩ := List.getElem?_eq_some_iff.mp hy
  obtain ⟨g1, g2, g3⟩ := this.get hi hi'
  exact ⟨g1, fun k => ⟨g2 k, (norm_le_pi_norm _ k).trans g3⟩⟩

/-! ### runs with a step limit -/

section
variable {F : Type} [Add F] [Sub F] [Mul F] [Div F] [Neg F] [Scalar F] {n : ℕ} {nd : Bool} {f : F → Vec F n → Vec F n} {t1 : F}
  {o : ErkOpts F} {oo : OutOpts} {sc : SolverCoeffs F} {mo : ℕ}

theorem runLoop_one {S R : Type} {body : S → LoopStep S R} {s : S} {r : Outcome R} (h : body s = .done r) : runLoop body 1 s = some r := by
  simp [runLoop, h]

/-- a loop with fixed steps and a step limit returns, with at most two samples more than the limit -/
theorem limited_loop (hs : StreamOK oo) (had : o.adaptive = false) (hms : 0 ≤ o.maxSteps) (k : ℕ) :
    ∀ s : ErkState F n, o.maxSteps + 1 - s.step ≤ k → (s.step : ℤ) ≤ o.maxSteps + 1 → s.sol.tVals.length = s.step + 1 →
      ∃ fuel out, runLoop (erkBody nd f t1 o oo sc mo) fuel s = some (.ret out) ∧ (out.tVals.length : ℤ) ≤ o.maxSteps + 2 := by
  induction k with
  | zero =>
    intro s h1 h2 h3
    refine ⟨1, ?_⟩
    have hc := bodyCase nd f t1 o oo sc mo s
    generalize hb : erkBody nd f t1 o oo sc mo s = x at hc
    cases hc with
    | finished h => exact ⟨_, runLoop_one hb, by show (s.sol.tVals.length : ℤ) ≤ _; omega⟩
    | maxSteps h h0 h1 => exact ⟨_, runLoop_one hb, by show (s.sol.tVals.length : ℤ) ≤ _; omega⟩
    | throws h ha => rw [had] at ha; cases ha
    | assertFail h ha => rw [had] at ha; cases ha
    | ub h hw hs' => rw [hs hw] at hs'; cases hs'
    | accepted h hm => exact absurd ⟨hms, by push_cast at h1; omega⟩ hm
    | rejected h hm => exact absurd ⟨hms, by push_cast at h1; omega⟩ hm
  | succ k ih =>
    intro s h1 h2 h3
    have hc := bodyCase nd f t1 o oo sc mo s
    generalize hb : erkBody nd f t1 o oo sc mo s = x at hc
    cases hc with
    | finished h => exact ⟨1, _, runLoop_one hb, by show (s.sol.tVals.length : ℤ) ≤ _; omega⟩
    | maxSteps h h0 h1 => exact ⟨1, _, runLoop_one hb, by show (s.sol.tVals.length : ℤ) ≤ _; omega⟩
    | throws h ha => rw [had] at ha; cases ha
    | assertFail h ha => rw [had] at ha; cases ha
    | ub h hw hs' => rw [hs hw] at hs'; cases hs'
    | accepted h hm _ q hA =>
      have hlen := erk_len h3 (.tail .refl hb)
      obtain ⟨fuel, out, e, hl⟩ := ih _ (by
        show o.maxSteps + 1 - ((s.step + 1 : ℕ) : ℤ) ≤ k
        push_cast at h1 ⊢; omega) (by
        show ((s.step + 1 : ℕ) : ℤ) ≤ o.maxSteps + 1
        by_contra hcc
        exact hm ⟨hms, by push_cast at hcc; omega⟩) hlen
      exact ⟨fuel + 1, out, by rw [runLoop_next hb]; exact e, hl⟩
    | rejected _ _ _ _ _ _ had' => rw [had] at had'; cases had'

omit [Add F] [Sub F] [Mul F] in
/-- `minOrder` of a shipped method -/
theorem shipped_minOrder {m : ℤ} (hm : m ∈ erkImplemented) : ∃ mo, minOrder (erkCoeffs m : SolverCoeffs F) = some mo := by
  simp only [erkImplemented, List.mem_cons, List.not_mem_nil, or_false] at hm
  rcases hm with rfl | rfl | rfl | rfl | rfl | rfl <;> exact ⟨_, rfl⟩

/-- **a run with fixed steps and a step limit returns**, in any arithmetic -/
theorem limited_run {m : ℤ} (hm : m ∈ erkImplemented) (hs : StreamOK oo) (had : o.adaptive = false ∨ (erkCoeffs m : SolverCoeffs F).b2 = [])
    (hms : 0 ≤ o.maxSteps) (t0 : F) (y0 : Vec F n) (dt : F) :
    ∃ fuel out, erkOdeint true f t0 t1 y0 o oo m dt fuel = some (.ret out) ∧ (out.tVals.length : ℤ) ≤ o.maxSteps + 2 := by
  obtain ⟨mo, hmo⟩ := shipped_minOrder (F := F) hm
  have hf : (effOpts o (erkCoeffs m : SolverCoeffs F)).adaptive = false := by
    by_contra hc
    obtain ⟨h1, h2⟩ := effOpts_adaptive.mp (show (effOpts o (erkCoeffs m : SolverCoeffs F)).adaptive = true by simpa using hc)
    rcases had with h | h
    · rw [h1] at h; cases h
    · exact h2 (by rw [h]; rfl)
  have hmx : (effOpts o (erkCoeffs m : SolverCoeffs F)).maxSteps = o.maxSteps := (effOpts_fields o _).2.2.2
  obtain ⟨-, -, -, z4, z5, -⟩ := erkInit_flds f (erkCoeffs m : SolverCoeffs F) t0 (clipDt t0 t1 dt) y0
  obtain ⟨fuel, out, e, hl⟩ := limited_loop (nd := true) (f := f) (t1 := t1) (sc := erkCoeffs m) (mo := mo) hs hf (by rw [hmx]; exact hms)
    (o.maxSteps + 1).toNat (erkInit f t0 y0 (clipDt t0 t1 dt) (erkCoeffs m)) (by rw [z4, hmx]; push_cast; omega) (by rw [z4, hmx]; push_cast; omega)
    (by rw [z5, z4]; rfl)
  refine ⟨fuel, out, ?_, by rw [← hmx]; exact hl⟩
  have e1 : erkOdeint true f t0 t1 y0 o oo m dt fuel = erkGuts true f t0 t1 y0 (effOpts o (erkCoeffs m)) dt (erkCoeffs m) oo fuel := rfl
  rw [e1]
  unfold erkGuts
  simp only [Bool.not_true, Bool.false_and, Bool.false_eq_true, if_false, hmo]
  exact e

end
/-- **C91, fixed steps.**  With fixed steps (option off, or a method without embedded weights) and a step limit `K` the run returns, and
all its samples are within `C (h^p + ε + e₀ + (K+2) u)` of the solution. -/
theorem C91_fixed_step {n p : ℕ} {f : ℝ → Vec ℝ n → Vec ℝ n} {U : ℝ → Vec ℝ n} {a b δ : ℝ} {m : ℤ} (hm : m ∈ erkImplemented)
    (hp : (erkCoeffs m : SolverCoeffs ℝ).order = some (p : ℤ)) (hf : ContDiff ℝ p fun q : ℝ × (Fin n → ℝ) => f q.1 q.2) (hδ : 0 < δ)
    (hU : ∀ t ∈ Icc a b, HasDerivWithinAt U (f t (U t)) (Icc a b) t) :
    ∃ C h0 : ℝ, 0 < C ∧ 0 < h0 ∧
      ∀ (F : Type) [Add F] [Sub F] [Mul F] [Div F] [Neg F] [Scalar F] (u B ε : ℝ) (A : FloatArith F u B) (fF : F → Vec F n → Vec F n),
        0 ≤ u → 0 ≤ ε → C ≤ B → RhsAccurate A f U a b ε fF →
        ∀ (o : ErkOpts F) (oo : OutOpts) (t0 t1 : F) (y0 : Vec F n) (dt : F) (e0 : ℝ) (K : ℕ), StreamOK oo →
          (o.adaptive = false ∨ (erkCoeffs m : SolverCoeffs F).b2 = []) → o.maxSteps = K →
          isFin t0 = true → isFin t1 = true → (∀ k, isFin (y0 k) = true) → isFin dt = true →
          a + δ ≤ A.val t0 → A.val t0 ≤ A.val t1 → A.val t1 ≤ b - δ → (∀ k, |A.val (y0 k) - U (A.val t0) k| ≤ e0) → 0 ≤ e0 →
          0 ≤ A.val dt → A.val dt ≤ h0 → C * (A.val dt ^ p + ε + e0 + (K + 2) * u) ≤ 1 →
          ∃ fuel out, erkOdeint true fF t0 t1 y0 o oo m dt fuel = some (.ret out) ∧
            ∀ (i : ℕ) (t : F) (y : Vec F n), out.tVals[i]? = some t → out.yVals[i]? = some y →
              isFin t = true ∧ ∀ k, isFin (y k) = true ∧ |A.val (y k) - U (A.val t) k| ≤ C * (A.val dt ^ p + ε + e0 + (K + 2) * u) := by
  obtain ⟨C, h0, hC, hh0, key⟩ := C91_convergence hm hp hf hδ hU
  refine ⟨C, h0, hC, hh0, ?_⟩
  intro F _ _ _ _ _ _ u B ε A fF hu hε hCB hacc o oo t0 t1 y0 dt e0 K hs had hK q1 q2 q3 q4 q5 q6 q7 q8 q9 q10 q11 q12
  obtain ⟨fuel, out, e, hl⟩ := limited_run (f := fF) (t1 := t1) hm hs had (by omega) t0 y0 dt
  have hl' : (out.tVals.length : ℝ) ≤ K + 2 := by
    rw [hK] at hl
    exact_mod_cast hl
  have hle : C * (A.val dt ^ p + ε + e0 + out.tVals.length * u) ≤ C * (A.val dt ^ p + ε + e0 + (K + 2) * u) := by
    have := mul_le_mul_of_nonneg_right hl' hu
    exact mul_le_mul_of_nonneg_left (by linarith) hC.le
  refine ⟨fuel, out, e, fun i t y ht hy => ?_⟩
  have hopt : o.adaptive = true → (erkCoeffs m : SolverCoeffs F).b2 ≠ [] →
      isFin o.maxDt = true ∧ 0 < A.val o.maxDt ∧ A.val o.maxDt ≤ A.val dt := by
    intro h1 h2
    rcases had with h | h
    · rw [h1] at h; cases h
    · exact absurd h h2
  obtain ⟨g1, g2⟩ := key F u B ε A fF hu hε hCB hacc true o oo t0 t1 y0 dt fuel out (A.val dt) e0 q1 q2 q3 q4 q5 q6 q7 q8 q9 q10 le_rfl q11
    hopt e (hle.trans q12) i t y ht hy
  exact ⟨g1, fun k => ⟨(g2 k).1, (g2 k).2.trans hle⟩⟩

/-- **C91, exact arithmetic with an inexact right-hand side.**  In exact arithmetic a right-hand side known to `ε` and an initial value
known to `e₀` cost no more than `C (ε + e₀)`. -/
theorem C91_perturbed {n p : ℕ} {f : ℝ → Vec ℝ n → Vec ℝ n} {U : ℝ → Vec ℝ n} {a b δ : ℝ} {m : ℤ} (hm : m ∈ erkImplemented)
    (hp : (erkCoeffs m : SolverCoeffs ℝ).order = some (p : ℤ)) (hf : ContDiff ℝ p fun q : ℝ × (Fin n → ℝ) => f q.1 q.2) (hδ : 0 < δ)
    (hU : ∀ t ∈ Icc a b, HasDerivWithinAt U (f t (U t)) (Icc a b) t) :
    ∃ C h0 : ℝ, 0 < C ∧ 0 < h0 ∧
      ∀ (g : ℝ → Vec ℝ n → Vec ℝ n) (ε : ℝ), 0 ≤ ε → (∀ t y, a ≤ t → t ≤ b → ‖y - U t‖ ≤ 2 → ∀ k, |g t y k - f t y k| ≤ ε) →
        ∀ (nd : Bool) (o : ErkOpts ℝ) (oo : OutOpts) (t0 t1 : ℝ) (y0 : Vec ℝ n) (dt : ℝ) (fuel : ℕ) (out : ErkOutput ℝ n) (h e0 : ℝ),
          a + δ ≤ t0 → t0 ≤ t1 → t1 ≤ b - δ → (∀ k, |y0 k - U t0 k| ≤ e0) → 0 ≤ e0 → 0 ≤ dt → dt ≤ h → h ≤ h0 →
          (o.adaptive = true → (erkCoeffs m : SolverCoeffs ℝ).b2 ≠ [] → 0 < o.maxDt ∧ o.maxDt ≤ h) →
          erkOdeint nd g t0 t1 y0 o oo m dt fuel = some (.ret out) → C * (h ^ p + ε + e0) ≤ 1 →
          ∀ (i : ℕ) (t : ℝ) (y : Vec ℝ n), out.tVals[i]? = some t → out.yVals[i]? = some y →
            ∀ k, |y k - U t k| ≤ C * (h ^ p + ε + e0) := by
  obtain ⟨C, h0, hC, hh0, key⟩ := C91_convergence hm hp hf hδ hU
  refine ⟨C, h0, hC, hh0, ?_⟩
  intro g ε hε hacc nd o oo t0 t1 y0 dt fuel out h e0 q5 q6 q7 q8 q9 q10 q11 q12 q13 q14 q15 i t y ht hy k
  have := key ℝ 0 C ε (realArith C) g le_rfl hε le_rfl (fun t y _ _ h1 h2 h3 k => ⟨rfl, hacc t y h1 h2 h3 k⟩) nd o oo t0 t1 y0 dt fuel out h e0
    rfl rfl (fun _ => rfl) rfl q5 q6 q7 q8 q9 q10 q11 q12 (fun h1 h2 => ⟨rfl, q13 h1 h2⟩) q14 (by simpa using q15) i t y ht hy
  have e : C * (h ^ p + ε + e0 + out.tVals.length * 0) = C * (h ^ p + ε + e0) := by ring
  rw [← e]
  exact (this.2 k).2

/-- The square computed in an arithmetic is an accurate right-hand side for the problem `y' = y²`. -/
theorem square_accurate {F : Type} [Add F] [Sub F] [Mul F] [Div F] [Neg F] [Scalar F] {u B : ℝ} (A : FloatArith F u B) (hu : 0 ≤ u) (hB : 145 ≤ B) :
    RhsAccurate A (fun (_ : ℝ) (y : Vec ℝ 1) (i : Fin 1) => y i ^ 2) (fun (t : ℝ) (_ : Fin 1) => 1 / (1 - t)) 0 (9 / 10) (145 * u)
      (fun _ y i => y i * y i) := by
  intro t y ht hy h0 h1 h2 k
  have h3 : |A.val (y k) - 1 / (1 - A.val t)| ≤ 2 := (norm_le_pi_norm _ k).trans h2
  have h4 : 1 / (1 - A.val t) ≤ 10 := by rw [div_le_iff₀ (by linarith)]; linarith
  have h5 : 0 ≤ 1 / (1 - A.val t) := div_nonneg zero_le_one (by linarith)
  have h6 : |A.val (y k)| ≤ 12 := by
    have := abs_le.mp h3
    exact abs_le.mpr ⟨by linarith, by linarith⟩
  have h7 : |A.val (y k) * A.val (y k)| ≤ 144 := by
    rw [abs_mul]; nlinarith [abs_nonneg (A.val (y k))]
  obtain ⟨g1, g2⟩ := A.mul _ _ (hy k) (hy k) (by linarith)
  refine ⟨g1, ?_⟩
  show |A.val (y k * y k) - A.val (y k) ^ 2| ≤ 145 * u
  rw [sq]
  exact g2.trans (by rw [mul_comm]; exact mul_le_mul_of_nonneg_right (by linarith) hu)

/-- **The hypotheses can be met with rounding errors**: for the problem `y' = y²` from `t = 1/10` there are a precision and a step size
for which ten steps of CASH_KARP_54 in binary arithmetic return samples within `1/100` of the solution. -/
theorem C91_example : ∃ (q : ℕ) (h : ℚ), 20 ≤ q ∧ 0 < h ∧ ∃ fuel out,
    erkOdeint (F := BF q) (n := 1) true (fun _ y i => y i * y i) ⟨1 / 10⟩ ⟨4 / 5⟩ (fun _ => ⟨10 / 9⟩)
      { adaptive := false, relTol := ⟨1⟩, absTol := ⟨1⟩, maxDt := ⟨0⟩, maxSteps := 10 } OutOpts.dflt 130 ⟨h⟩ fuel = some (.ret out) ∧
    ∀ (i : ℕ) (t : BF q) (y : Vec (BF q) 1), out.tVals[i]? = some t → out.yVals[i]? = some y →
      ∀ k, |((y k).v : ℝ) - 1 / (1 - t.v)| ≤ 1 / 100 := by
  obtain ⟨p, hp⟩ : ∃ p : ℕ, (erkCoeffs 130 : SolverCoeffs ℝ).order = some (p : ℤ) := ⟨5, rfl⟩
  have hm : (130 : ℤ) ∈ erkImplemented := by decide
  have hp1 := shipped_order_pos hm hp
  obtain ⟨C, h0, hC, hh0, key⟩ := C91_fixed_step (p := p) (n := 1) (δ := 1 / 10) hm hp
    (f := fun _ y i => y i ^ 2) (by fun_prop) (by norm_num) blowup_solution
  -- the step size
  obtain ⟨h, hh, hhC⟩ : ∃ h : ℚ, (0 : ℝ) < h ∧ (h : ℝ) < min h0 (min 1 (1 / (200 * C))) := exists_rat_btwn (lt_min hh0 (lt_min one_pos (by positivity)))
  have hh1 : (h : ℝ) ≤ h0 := (hhC.trans_le (min_le_left _ _)).le
  have hh2 : (h : ℝ) ≤ 1 := (hhC.trans_le ((min_le_right _ _).trans (min_le_left _ _))).le
  have hh3 : (h : ℝ) * (200 * C) ≤ 1 := by
    have := (hhC.trans_le ((min_le_right _ _).trans (min_le_right _ _))).le
    rwa [le_div_iff₀ (by positivity)] at this
  have hhp : (h : ℝ) ^ p ≤ h := by
    calc (h : ℝ) ^ p ≤ (h : ℝ) ^ 1 := pow_le_pow_of_le_one hh.le hh2 hp1
      _ = h := pow_one _
  -- the precision
  obtain ⟨q0, hq0⟩ := exists_pow_lt_of_lt_one (show (0 : ℝ) < 1 / (200 * 157 * C) by positivity) (show (1 / 2 : ℝ) < 1 by norm_num)
  obtain ⟨q, hq⟩ : ∃ q : ℕ, q = q0 + 20 := ⟨_, rfl⟩
  obtain ⟨u, hu⟩ : ∃ u : ℝ, u = 1 / 2 ^ (q + 1) := ⟨_, rfl⟩
  have hu0 : 0 ≤ u := by rw [hu]; positivity
  have hu1 : u * (200 * 157 * C) ≤ 1 := by
    rw [← le_div_iff₀ (by positivity)]
    refine le_trans ?_ hq0.le
    rw [hu, one_div_pow]
    exact one_div_le_one_div_of_le (by positivity) (pow_le_pow_right₀ (by norm_num) (by omega))
  refine ⟨q, h, by omega, by exact_mod_cast hh, ?_⟩
  obtain ⟨A, hA⟩ : ∃ A : FloatArith (BF q) u (C + 145), ∀ x, A.val x = x.v := by
    rw [hu]; exact ⟨BF.arith (by omega) _, fun _ => rfl⟩
  have hb : C * (A.val ⟨h⟩ ^ p + 145 * u + 0 + ((10 : ℕ) + 2) * u) ≤ 1 / 100 := by
    rw [hA]
    have := mul_le_mul_of_nonneg_left hhp hC.le
    push_cast
    linarith
  obtain ⟨fuel, out, e, hall⟩ := key (BF q) u (C + 145) (145 * u) A (fun _ y i => y i * y i) hu0 (by positivity) (by linarith)
    (square_accurate A hu0 (by linarith)) { adaptive := false, relTol := ⟨1⟩, absTol := ⟨1⟩, maxDt := ⟨0⟩, maxSteps := 10 } OutOpts.dflt
    ⟨1 / 10⟩ ⟨4 / 5⟩ (fun _ => ⟨10 / 9⟩) ⟨h⟩ 0 10 (fun h => by revert h; decide) (Or.inl rfl) rfl rfl rfl (fun _ => rfl) rfl
    (by rw [hA]; norm_num) (by rw [hA, hA]; norm_num) (by rw [hA]; norm_num) (fun _ => by rw [hA, hA]; norm_num) le_rfl
    (by rw [hA]; exact hh.le) (by rw [hA]; exact hh1) (hb.trans (by norm_num))
  refine ⟨fuel, out, e, fun i t y ht hy k => ?_⟩
  have := ((hall i t y ht hy).2 k).2.trans hb
  rw [hA, hA] at this
  exact this

/-- binary64 is an arithmetic to which C91 applies, with `u = 2^-53` and `B = 2^1023` -/
noncomputable example [FP.Libm] (hpow : ∀ x y, x ≠ .negZero → FP.lt x (.fin 0) = false → FP.lt (FP.Libm.pow x y) (.fin 0) = false) : FloatArith FP (1 / 2 ^ 53) (2 ^ 1023) :=
  fpArith hpow

end Verif
