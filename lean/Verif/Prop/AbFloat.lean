import Verif.AbFloat
import Verif.Prop.ErkFloat

/-!
# Property C127: `adams_bashforth` in arithmetic with rounding errors
-/

set_option autoImplicit false

namespace Verif
open Set

/-- **C127.**  Let `U` solve `U' = f(t,U)` on `[a,b]`, `f` being continuously differentiable, and let `δ > 0`.  There is a constant `C`, the
same for every arithmetic and every order, such that: in an arithmetic with unit roundoff `u` on numbers up to `B ≥ C`, with a computed
right-hand side accurate to `ε` and an initial value accurate to `e₀`, every run of `adams_bashforth` of order at most 5 over an interval
within `[a+δ, b-δ]` that returns `N` samples with `C (dt + ε + e₀ + N u) ≤ 1` has all its samples finite and within
`C (dt + ε + e₀ + N u)` of the solution at the recorded times. -/
theorem C127_convergence {n : ℕ} {f : ℝ → Vec ℝ n → Vec ℝ n} {U : ℝ → Vec ℝ n} {a b δ : ℝ}
    (hf : ContDiff ℝ 1 fun q : ℝ × (Fin n → ℝ) => f q.1 q.2) (hδ : 0 < δ)
    (hU : ∀ t ∈ Icc a b, HasDerivWithinAt U (f t (U t)) (Icc a b) t) :
    ∃ C : ℝ, 0 < C ∧
      ∀ (F : Type) [Add F] [Sub F] [Mul F] [Div F] [Neg F] [Scalar F] (u B ε : ℝ) (A : FloatArith F u B) (fn : OdeFun F n),
        0 ≤ u → 0 ≤ ε → C ≤ B → RhsAccurate A f U a b ε fn.fn →
        ∀ (nd : Bool) (la : LinAlg F) (order : ℤ) (t0 t1 : F) (y0 : Vec F n) (dt : F) (st0 : NewtonStatus F) (fuelB fuel : ℕ) (out : MsOutput F n)
          (e0 : ℝ), order ≤ 5 →
          isFin t0 = true → isFin t1 = true → (∀ k, isFin (y0 k) = true) → isFin dt = true →
          a + δ ≤ A.val t0 → A.val t0 ≤ A.val t1 → A.val t1 ≤ b - δ → (∀ k, |A.val (y0 k) - U (A.val t0) k| ≤ e0) → 0 ≤ e0 → 0 ≤ A.val dt →
          adamsBashforth nd la fn t0 t1 y0 order dt st0 fuelB fuel = some (.ret out) → C * (A.val dt + ε + e0 + out.tVals.length * u) ≤ 1 →
          ∀ (i : ℕ) (t : F) (y : Vec F n), out.tVals[i]? = some t → out.yVals[i]? = some y →
            isFin t = true ∧ ∀ k, isFin (y k) = true ∧ |A.val (y k) - U (A.val t) k| ≤ C * (A.val dt + ε + e0 + out.tVals.length * u) := by
  obtain ⟨C, hC, key⟩ := ab_float_converges hf hδ hU
  refine ⟨C, hC, ?_⟩
  intro F _ _ _ _ _ _ u B ε A fn hu hε hCB hacc nd la order t0 t1 y0 dt st0 fuelB fuel out e0 h5 f0 f1 fy fdt ha h01 hb he he0 hdt h hsm i t y ht hy
  obtain ⟨g1, g2, g3⟩ := key F u B ε A fn hu hε hCB hacc nd la order t0 t1 y0 dt st0 fuelB fuel out e0 h5 f0 f1 fy fdt ha h01 hb
    ((pi_norm_le_iff_of_nonneg he0).mpr he) hdt h hsm i t y ht hy
  exact ⟨g1, fun k => ⟨g2 k, (norm_le_pi_norm _ k).trans g3⟩⟩

/-- **C127, exact arithmetic with an inexact right-hand side.** -/
theorem C127_perturbed {n : ℕ} {f : ℝ → Vec ℝ n → Vec ℝ n} {U : ℝ → Vec ℝ n} {a b δ : ℝ}
    (hf : ContDiff ℝ 1 fun q : ℝ × (Fin n → ℝ) => f q.1 q.2) (hδ : 0 < δ)
    (hU : ∀ t ∈ Icc a b, HasDerivWithinAt U (f t (U t)) (Icc a b) t) :
    ∃ C : ℝ, 0 < C ∧
      ∀ (fn : OdeFun ℝ n) (ε : ℝ), 0 ≤ ε → (∀ t y, a ≤ t → t ≤ b → ‖y - U t‖ ≤ 2 → ∀ k, |fn.fn t y k - f t y k| ≤ ε) →
        ∀ (nd : Bool) (la : LinAlg ℝ) (order : ℤ) (t0 t1 : ℝ) (y0 : Vec ℝ n) (dt : ℝ) (st0 : NewtonStatus ℝ) (fuelB fuel : ℕ) (out : MsOutput ℝ n)
          (e0 : ℝ), order ≤ 5 → a + δ ≤ t0 → t0 ≤ t1 → t1 ≤ b - δ → (∀ k, |y0 k - U t0 k| ≤ e0) → 0 ≤ e0 → 0 ≤ dt →
          adamsBashforth nd la fn t0 t1 y0 order dt st0 fuelB fuel = some (.ret out) → C * (dt + ε + e0) ≤ 1 →
          ∀ (i : ℕ) (t : ℝ) (y : Vec ℝ n), out.tVals[i]? = some t → out.yVals[i]? = some y →
            ∀ k, |y k - U t k| ≤ C * (dt + ε + e0) := by
  obtain ⟨C, hC, key⟩ := C127_convergence hf hδ hU
  refine ⟨C, hC, ?_⟩
  intro fn ε hε hacc nd la order t0 t1 y0 dt st0 fuelB fuel out e0 h5 ha h01 hb he he0 hdt h hsm i t y ht hy k
  have := key ℝ 0 C ε (realArith C) fn le_rfl hε le_rfl (fun t y _ _ h1 h2 h3 k => ⟨rfl, hacc t y h1 h2 h3 k⟩) nd la order t0 t1 y0 dt st0
    fuelB fuel out e0 h5 rfl rfl (fun _ => rfl) rfl ha h01 hb he he0 hdt h (by rw [mul_zero, add_zero]; exact hsm) i t y ht hy
  have e : C * (dt + ε + e0 + out.tVals.length * 0) = C * (dt + ε + e0) := by ring
  rw [← e]
  exact (this.2 k).2

/-! ### the run returns -/

section
variable {F : Type} [Add F] [Sub F] [Mul F] [Div F] [Neg F] [Scalar F] {n : ℕ} {u B : ℝ} {A : FloatArith F u B}

/-- a step that is large against the rounding errors advances the time by at least half of it -/
theorem step_advances {t h : F} {W : ℝ} (hu : 0 ≤ u) (ht : isFin t = true) (hh : isFin h = true) (hW : |A.val t| ≤ W) (h0 : 0 ≤ A.val h)
    (h1 : A.val h ≤ 1) (hB : W + 1 ≤ B) (hbig : 2 * (u * (W + 2)) ≤ A.val h) :
    isFin (t + h) = true ∧ A.val t + A.val h / 2 ≤ A.val (t + h) ∧ A.val (t + h) ≤ A.val t + 2 * A.val h := by
  have b := abs_le.mp hW
  have e : |A.val t + A.val h| ≤ W + 1 := abs_le.mpr ⟨by linarith, by linarith⟩
  obtain ⟨g1, g2⟩ := A.add t h ht hh (by linarith)
  have g3 : |A.val (t + h) - (A.val t + A.val h)| ≤ u * (W + 2) := g2.trans (mul_le_mul_of_nonneg_left (by linarith) hu)
  have g4 := abs_le.mp g3
  exact ⟨g1, by linarith, by linarith⟩

/-- the first points of the grid -/
theorem grid_advances {t0 h : F} {W : ℝ} (hu : 0 ≤ u) (ht : isFin t0 = true) (hh : isFin h = true) (hW : |A.val t0| + 20 ≤ W) (h0 : 0 ≤ A.val h)
    (h1 : A.val h ≤ 1) (hB : W + 1 ≤ B) (hbig : 2 * (u * (W + 2)) ≤ A.val h) (i : ℕ) (hi : i ≤ 10) :
    isFin (gridPt h t0 i) = true ∧ A.val t0 ≤ A.val (gridPt h t0 i) ∧ A.val (gridPt h t0 i) ≤ A.val t0 + 2 * i := by
  have b := abs_le.mp (le_refl |A.val t0|)
  induction i with
  | zero => exact ⟨ht, le_refl _, by simp [gridPt]⟩
  | succ i ih =>
    obtain ⟨g1, g2, g3⟩ := ih (by omega)
    have hi' : (i : ℝ) ≤ 9 := by exact_mod_cast (show i ≤ 9 by omega)
    have g4 : |A.val (gridPt h t0 i)| ≤ W := abs_le.mpr ⟨by linarith, by linarith⟩
    obtain ⟨k1, k2, k3⟩ := step_advances hu g1 hh g4 h0 h1 hB hbig
    refine ⟨k1, ?_, ?_⟩
    · show _ ≤ A.val (gridPt h t0 i + h); linarith
    · show A.val (gridPt h t0 i + h) ≤ _; push_cast; linarith

/-- **C127, termination.**  A step that is large against the rounding errors of the times takes the run to the end, in at most
`2 (t1 - t0)/h + 7` samples. -/
theorem C127_returns {nd : Bool} {la : LinAlg F} {fn : OdeFun F n} {t0 t1 : F} {y0 : Vec F n} {order : ℤ} {dt : F} {st0 : NewtonStatus F} {fuelB : ℕ}
    {W : ℝ} (h0 : 0 < order) (h5 : order ≤ 5) (hu : 0 ≤ u) (ft : isFin t0 = true) (ft1 : isFin t1 = true) (fh : isFin (clipDt t0 t1 dt) = true)
    (hW : |A.val t0| + 20 ≤ W) (hW1 : A.val t1 ≤ W) (h01 : A.val t0 ≤ A.val t1) (hpos : 0 < A.val (clipDt t0 t1 dt)) (hle : A.val (clipDt t0 t1 dt) ≤ 1)
    (hB : W + 1 ≤ B) (hbig : 2 * (u * (W + 2)) ≤ A.val (clipDt t0 t1 dt)) {l : List (F × Vec F n)}
    (hl : bootstrap nd la fn fuelB order y0 t0 (clipDt t0 t1 dt) = some (.ret l)) :
    ∃ fuel out, adamsBashforth nd la fn t0 t1 y0 order dt st0 fuelB fuel = some (.ret out) ∧
      (out.tVals.length : ℝ) * A.val (clipDt t0 t1 dt) ≤ 2 * (A.val t1 - A.val t0) + 7 := by
  have hb0 := abs_le.mp (le_refl |A.val t0|)
  obtain ⟨hlf, hlit⟩ := A.int 0 (by norm_num)
  rw [Nat.cast_zero] at hlf hlit
  rw [Nat.cast_zero] at hlit
  obtain ⟨s, hI, he⟩ := adamsBashforth_start (st0 := st0) h0 (Or.inr ((A.lt _ _ hlf fh).mpr (by rw [hlit]; exact hpos))) hl
  have hl' := bootstrap_ret hl
  have hk : (order - 1).toNat + 1 = order.toNat := by omega
  rw [hk] at hl'
  let Inv : MsState F n → Prop := fun s => (∃ acc, MsInv order.toNat acc s ∧
      MsRun (clipDt t0 t1 dt) t0 t1 order.toNat (fun a y => order ≤ 5 → AbNext fn.fn order (clipDt t0 t1 dt) a y) acc) ∧
      isFin s.t = true ∧ A.val t0 ≤ A.val s.t
  have hs0 : Inv s := by
    have hR : MsRun (clipDt t0 t1 dt) t0 t1 order.toNat (fun a y => order ≤ 5 → AbNext fn.fn order (clipDt t0 t1 dt) a y) l := by
      rw [hl']; exact msRun_boot _ _
    have hg := hR.last hI.last
    have hlen : l.length = order.toNat := by rw [hl', List.length_map, List.length_range]
    obtain ⟨a1, a2, -⟩ := grid_advances hu ft fh hW hpos.le hle hB hbig (l.length - 1) (by omega)
    exact ⟨⟨l, hI, hR⟩, by rw [hg]; exact a1, by rw [hg]; exact a2⟩
  have hstep : ∀ a b, Inv a → abBody nd fn.fn t1 order (clipDt t0 t1 dt) a = .next b →
      Inv b ∧ ⌈(A.val t1 - A.val b.t) / (A.val (clipDt t0 t1 dt) / 2)⌉₊ < ⌈(A.val t1 - A.val a.t) / (A.val (clipDt t0 t1 dt) / 2)⌉₊ := by
    rintro a b ⟨⟨acc, h1, h2⟩, h4, h5'⟩ hb
    obtain ⟨g1, g2, y', g3, g4⟩ := abBody_next h0 h1 h2 hb
    have hlt := (A.lt _ _ h4 ft1).mp g1
    obtain ⟨k1, k2, -⟩ := step_advances hu h4 fh (W := W) (abs_le.mpr ⟨by linarith, by linarith⟩) hpos.le hle hB hbig
    refine ⟨⟨⟨_, g3, g4⟩, by rw [g2]; exact k1, by rw [g2]; linarith⟩, ?_⟩
    rw [g2]
    have hp2 : 0 < A.val (clipDt t0 t1 dt) / 2 := by linarith
    have e1 : (A.val t1 - A.val (a.t + clipDt t0 t1 dt)) / (A.val (clipDt t0 t1 dt) / 2) ≤
        (A.val t1 - A.val a.t) / (A.val (clipDt t0 t1 dt) / 2) - 1 := by
      rw [div_le_iff₀ hp2, sub_mul, div_mul_cancel₀ _ hp2.ne']
      linarith
    have e2 : 0 < (A.val t1 - A.val a.t) / (A.val (clipDt t0 t1 dt) / 2) := div_pos (by linarith) hp2
    rw [Nat.lt_ceil]
    by_cases hneg : (A.val t1 - A.val (a.t + clipDt t0 t1 dt)) / (A.val (clipDt t0 t1 dt) / 2) ≤ 0
    · rw [Nat.ceil_eq_zero.mpr hneg]; exact_mod_cast e2
    · have := Nat.ceil_lt_add_one (not_le.mp hneg).le
      linarith
  obtain ⟨k, r, hrl⟩ := runLoop_terminates (fun s : MsState F n => ⌈(A.val t1 - A.val s.t) / (A.val (clipDt t0 t1 dt) / 2)⌉₊) hstep hs0
  have hret : ∃ out, r = .ret out := by
    obtain ⟨s', hreach, hd⟩ := runLoop_some hrl
    obtain ⟨⟨acc, h1, h2⟩, -⟩ := hreach.inv (Inv := Inv) hs0 fun a b ha hb => (hstep a b ha hb).1
    unfold abBody at hd
    by_cases hlt : ltb s'.t t1 = true
    · rw [if_pos hlt] at hd
      obtain ⟨v, hv⟩ := recent_exists acc h2.len
      rw [abStep_rep h0 h5 (le_refl _) h1.hist hv] at hd
      simp only at hd
      obtain ⟨b, hpb, -⟩ := msInv_push (by omega) h1 (s'.t + clipDt t0 t1 dt)
        (fun k => s'.y k + clipDt t0 t1 dt * abComb order fun j => fn.fn s'.t (v j) k) s'.newton
      rw [hpb] at hd
      cases hd
    · rw [if_neg hlt] at hd
      simp only [LoopStep.done.injEq] at hd
      exact ⟨s'.sol, by rw [← hd]⟩
  obtain ⟨out, rfl⟩ := hret
  have hrun : adamsBashforth nd la fn t0 t1 y0 order dt st0 fuelB k = some (.ret out) := by rw [he, hrl]
  refine ⟨k, out, hrun, ?_⟩
  obtain ⟨N, -, hN1, -, -, hoN, -, -, hbef⟩ := C53_ab_grid hrun
  rw [hN1]
  -- the points of the grid
  have hpts : ∀ i : ℕ, i + 1 < N → isFin (gridPt (clipDt t0 t1 dt) t0 i) = true ∧
      A.val t0 + i * (A.val (clipDt t0 t1 dt) / 2) ≤ A.val (gridPt (clipDt t0 t1 dt) t0 i) ∧ A.val (gridPt (clipDt t0 t1 dt) t0 i) ≤ W := by
    intro i
    induction i with
    | zero => intro _; exact ⟨ft, by simp [gridPt], by show A.val t0 ≤ W; linarith⟩
    | succ i ih =>
      intro hi
      obtain ⟨g1, g2, g3⟩ := ih (by omega)
      have hnn : 0 ≤ (i : ℝ) * (A.val (clipDt t0 t1 dt) / 2) := by positivity
      obtain ⟨k1, k2, k3⟩ := step_advances hu g1 fh (W := W) (abs_le.mpr ⟨by linarith, g3⟩) hpos.le hle hB hbig
      refine ⟨k1, ?_, ?_⟩
      · show _ ≤ A.val (gridPt (clipDt t0 t1 dt) t0 i + clipDt t0 t1 dt); push_cast; linarith
      · by_cases hc : order ≤ ((i + 1 : ℕ) : ℤ) + 1
        · exact ((A.lt _ _ k1 ft1).mp (hbef (i + 1) hc hi)).le.trans hW1
        · have hi9 : i + 1 ≤ 10 := by omega
          have := (grid_advances hu ft fh hW hpos.le hle hB hbig (i + 1) hi9).2.2
          have h9 : ((i + 1 : ℕ) : ℝ) ≤ 10 := by exact_mod_cast hi9
          linarith
  by_cases hc : N ≤ 6
  · have hN6 : (N : ℝ) ≤ 6 := by exact_mod_cast hc
    have := mul_le_mul hN6 hle hpos.le (by norm_num)
    linarith
  · obtain ⟨g1, g2, -⟩ := hpts (N - 2) (by omega)
    have g3 := (A.lt _ _ g1 ft1).mp (hbef (N - 2) (by omega) (by omega))
    have g4 : ((N - 2 : ℕ) : ℝ) = N - 2 := by rw [Nat.cast_sub (by omega)]; norm_num
    rw [g4] at g2
    linarith
end

/-- **C127, complete runs.**  There is a constant `C` such that, `h` being the step in use, a run of order 1 to 5 whose starting values can be
computed and that has `C (dt + ε + e₀ + u/h) ≤ 1` returns, with all samples finite and within `C (dt + ε + e₀ + u/h)` of the solution. -/
theorem C127_runs {n : ℕ} {f : ℝ → Vec ℝ n → Vec ℝ n} {U : ℝ → Vec ℝ n} {a b δ : ℝ}
    (hf : ContDiff ℝ 1 fun q : ℝ × (Fin n → ℝ) => f q.1 q.2) (hδ : 0 < δ)
    (hU : ∀ t ∈ Icc a b, HasDerivWithinAt U (f t (U t)) (Icc a b) t) :
    ∃ C : ℝ, 0 < C ∧
      ∀ (F : Type) [Add F] [Sub F] [Mul F] [Div F] [Neg F] [Scalar F] (u B ε : ℝ) (A : FloatArith F u B) (fn : OdeFun F n),
        0 ≤ u → C * u ≤ 1 → 0 ≤ ε → C ≤ B → RhsAccurate A f U a b ε fn.fn →
        ∀ (nd : Bool) (la : LinAlg F) (order : ℤ) (t0 t1 : F) (y0 : Vec F n) (dt : F) (st0 : NewtonStatus F) (fuelB : ℕ) (e0 : ℝ),
          0 < order → order ≤ 5 → isFin t0 = true → isFin t1 = true → (∀ k, isFin (y0 k) = true) → isFin dt = true →
          a + δ ≤ A.val t0 → A.val t0 ≤ A.val t1 → A.val t1 ≤ b - δ → (∀ k, |A.val (y0 k) - U (A.val t0) k| ≤ e0) → 0 ≤ e0 → 0 ≤ A.val dt →
          0 < A.val (clipDt t0 t1 dt) → (∃ l, bootstrap nd la fn fuelB order y0 t0 (clipDt t0 t1 dt) = some (.ret l)) →
          C * (A.val dt + ε + e0 + u / A.val (clipDt t0 t1 dt)) ≤ 1 →
          ∃ fuel out, adamsBashforth nd la fn t0 t1 y0 order dt st0 fuelB fuel = some (.ret out) ∧
            ∀ (i : ℕ) (t : F) (y : Vec F n), out.tVals[i]? = some t → out.yVals[i]? = some y →
              isFin t = true ∧ ∀ k, isFin (y k) = true ∧
                |A.val (y k) - U (A.val t) k| ≤ C * (A.val dt + ε + e0 + u / A.val (clipDt t0 t1 dt)) := by
  obtain ⟨C, hC, key⟩ := C127_convergence hf hδ hU
  obtain ⟨W, hW⟩ : ∃ W, W = |a| + |b| + 20 := ⟨_, rfl⟩
  have hW1 : 20 ≤ W := by rw [hW]; linarith [abs_nonneg a, abs_nonneg b]
  have haW : |a| + 20 ≤ W := by rw [hW]; linarith [abs_nonneg b]
  have hbW : |b| + 20 ≤ W := by rw [hW]; linarith [abs_nonneg a]
  obtain ⟨κ, hκ⟩ : ∃ κ, κ = 4 * W + 7 := ⟨_, rfl⟩
  have hκ1 : 1 ≤ κ := by rw [hκ]; linarith
  obtain ⟨M, hM⟩ : ∃ M, M = C * κ + 4 * (2 * W + 3) := ⟨_, rfl⟩
  have hCκ : C ≤ C * κ := le_mul_of_one_le_right hC.le hκ1
  have hM0 : 0 < M := by rw [hM]; linarith
  refine ⟨M, hM0, ?_⟩
  intro F _ _ _ _ _ _ u B ε A fn hu hu1 hε hMB hacc nd la order t0 t1 y0 dt st0 fuelB e0 h0 h5 f0 f1 fy fdt ha h01 hb he he0 hdt hpos ⟨l, hl⟩ hsm
  obtain ⟨H, hH⟩ : ∃ H, A.val (clipDt t0 t1 dt) = H := ⟨_, rfl⟩
  have a1 := abs_le.mp (le_refl |a|)
  have b1 := abs_le.mp (le_refl |b|)
  have v0 : |A.val t0| + 20 ≤ W := by
    have : |A.val t0| ≤ W - 20 := abs_le.mpr ⟨by linarith, by linarith⟩
    linarith
  have v1 : |A.val t1| ≤ W := abs_le.mpr ⟨by linarith, by linarith⟩
  rw [hH] at hpos hsm ⊢
  have huH : 0 ≤ u / H := div_nonneg hu hpos.le
  have sm : M * (u / H) ≤ 1 := by
    refine le_trans (mul_le_mul_of_nonneg_left ?_ hM0.le) hsm
    linarith
  have sdt : M * A.val dt ≤ 1 := by
    refine le_trans (mul_le_mul_of_nonneg_left ?_ hM0.le) hsm
    linarith
  have sw : 4 * (2 * W + 3) ≤ M := by rw [hM]; nlinarith
  have uH : 4 * (2 * W + 3) * u ≤ H := by
    have : M * u ≤ H := by rwa [← mul_div_assoc, div_le_one hpos] at sm
    exact (mul_le_mul_of_nonneg_right sw hu).trans this
  have hu2 : u * (2 * W + 3) ≤ 1 := by
    have := mul_le_mul_of_nonneg_right sw hu
    nlinarith
  have dt1 : A.val dt ≤ 1 / 4 := by
    have := mul_le_mul_of_nonneg_right (show (4 : ℝ) ≤ M by linarith) hdt
    linarith
  obtain ⟨c1, -, c3, -⟩ := clip_float (A := A) (dt := dt) hu (by linarith : 1 ≤ W) (by linarith) hu2 f0 f1 fdt h01 (by linarith) v1 hdt (by linarith)
  rw [hH] at c3
  have hH1 : H ≤ 1 := by linarith
  obtain ⟨fuel, out, hrun, hcount⟩ := C127_returns (A := A) (st0 := st0) h0 h5 hu f0 f1 c1 v0 ((le_abs_self _).trans v1) h01 (by rw [hH]; exact hpos)
    (by rw [hH]; exact hH1) (by linarith) (by
      rw [hH]
      have : 0 ≤ (6 * W + 8) * u := by positivity
      linarith) hl
  refine ⟨fuel, out, hrun, ?_⟩
  rw [hH] at hcount
  have hN : (out.tVals.length : ℝ) * u ≤ κ * (u / H) := by
    have e : (out.tVals.length : ℝ) * u = out.tVals.length * H * (u / H) := by field_simp
    rw [e]
    refine mul_le_mul_of_nonneg_right (hcount.trans ?_) huH
    rw [hκ]
    linarith [(abs_le.mp v1).2, (abs_le.mp (show |A.val t0| ≤ W by linarith)).1]
  have hfin : C * (A.val dt + ε + e0 + out.tVals.length * u) ≤ M * (A.val dt + ε + e0 + u / H) := by
    have z1 : C * (out.tVals.length * u) ≤ C * (κ * (u / H)) := mul_le_mul_of_nonneg_left hN hC.le
    have z2 : C * (A.val dt + ε + e0) ≤ M * (A.val dt + ε + e0) := mul_le_mul_of_nonneg_right (by rw [hM]; linarith) (by linarith)
    have z3 : C * κ * (u / H) ≤ M * (u / H) := mul_le_mul_of_nonneg_right (by rw [hM]; linarith) huH
    linarith
  intro i t y ht hy
  obtain ⟨g1, g2⟩ := key F u B ε A fn hu hε (by linarith [show C ≤ M by rw [hM]; linarith]) hacc nd la order t0 t1 y0 dt st0 fuelB fuel out e0 h5 f0 f1 fy fdt ha h01 hb he he0 hdt hrun
    (hfin.trans hsm) i t y ht hy
  exact ⟨g1, fun k => ⟨(g2 k).1, (g2 k).2.trans hfin⟩⟩

/-- the square as a functor -/
def squareOde (F : Type) [Mul F] [Scalar F] : OdeFun F 1 where
  fn _ y i := y i * y i
  jac _ _ _ _ := lit 0

/-- **The hypotheses can be met with rounding errors**: for the problem `y' = y²` from `t = 1/10` to `4/5` there are a precision and a step
size for which the run of `adams_bashforth` of order 1 in binary arithmetic returns samples within `1/100` of the solution. -/
theorem C127_example (la : ∀ q, LinAlg (BF q)) (st0 : ∀ q, NewtonStatus (BF q)) : ∃ (q : ℕ) (h : ℚ), 20 ≤ q ∧ 0 < h ∧ ∃ fuel out,
    adamsBashforth (F := BF q) (n := 1) true (la q) (squareOde (BF q)) ⟨1 / 10⟩ ⟨4 / 5⟩ (fun _ => ⟨10 / 9⟩) 1 ⟨h⟩ (st0 q) 0 fuel = some (.ret out) ∧
    ∀ (i : ℕ) (t : BF q) (y : Vec (BF q) 1), out.tVals[i]? = some t → out.yVals[i]? = some y →
      ∀ k, |((y k).v : ℝ) - 1 / (1 - t.v)| ≤ 1 / 100 := by
  obtain ⟨C, hC, key⟩ := C127_runs (n := 1) (δ := 1 / 10) (f := fun _ y i => y i ^ 2) (by fun_prop) (by norm_num) blowup_solution
  -- the step size
  obtain ⟨h, hh, hhC⟩ : ∃ h : ℚ, (0 : ℝ) < h ∧ (h : ℝ) < min (1 / 10) (1 / (400 * C)) := exists_rat_btwn (lt_min (by norm_num) (by positivity))
  have hh2 : (h : ℝ) ≤ 1 / 10 := (hhC.trans_le (min_le_left _ _)).le
  have hh3 : (h : ℝ) * (400 * C) ≤ 1 := by
    have := (hhC.trans_le (min_le_right _ _)).le
    rwa [le_div_iff₀ (by positivity)] at this
  -- the precision
  obtain ⟨q0, hq0⟩ := exists_pow_lt_of_lt_one (show (0 : ℝ) < h / (200 * 157 * (C + 1)) by positivity) (show (1 / 2 : ℝ) < 1 by norm_num)
  obtain ⟨q, hq⟩ : ∃ q : ℕ, q = q0 + 20 := ⟨_, rfl⟩
  obtain ⟨u, hu⟩ : ∃ u : ℝ, u = 1 / 2 ^ (q + 1) := ⟨_, rfl⟩
  have hu0 : 0 ≤ u := by rw [hu]; positivity
  have hu1 : u * (200 * 157 * (C + 1)) ≤ h := by
    rw [← le_div_iff₀ (by positivity)]
    refine le_trans ?_ hq0.le
    rw [hu, one_div_pow]
    exact one_div_le_one_div_of_le (by positivity) (pow_le_pow_right₀ (by norm_num) (by omega))
  have huC : 0 ≤ u * C := by positivity
  refine ⟨q, h, by omega, by exact_mod_cast hh, ?_⟩
  obtain ⟨A, hA⟩ : ∃ A : FloatArith (BF q) u (C + 145), ∀ x, A.val x = x.v := by
    rw [hu]; exact ⟨BF.arith (by omega) _, fun _ => rfl⟩
  -- the step is not clipped
  have hclip : clipDt (⟨1 / 10⟩ : BF q) ⟨4 / 5⟩ ⟨h⟩ = ⟨h⟩ := by
    unfold clipDt
    have e1 : |A.val (⟨1 / 10⟩ : BF q) + A.val ⟨h⟩| ≤ 1 := by
      rw [hA, hA]
      push_cast
      exact abs_le.mpr ⟨by linarith, by linarith⟩
    obtain ⟨s1, s2⟩ := A.add (⟨1 / 10⟩ : BF q) ⟨h⟩ rfl rfl (e1.trans (by linarith))
    have s3 := (abs_le.mp (s2.trans (mul_le_mul_of_nonneg_left (add_le_add le_rfl e1) hu0))).2
    have hno : ¬ ltb (⟨4 / 5⟩ : BF q) (⟨1 / 10⟩ + ⟨h⟩) = true := by
      rw [A.lt _ _ rfl s1]
      rw [hA (⟨1 / 10⟩ : BF q), hA (⟨h⟩ : BF q)] at s3
      rw [hA (⟨4 / 5⟩ : BF q)]
      push_cast at s3 ⊢
      linarith
    rw [if_neg hno]
  have huh : u / (h : ℝ) ≤ 1 / (200 * 157 * (C + 1)) := by
    rw [div_le_iff₀ hh, div_mul_eq_mul_div, le_div_iff₀ (by positivity), one_mul]
    exact hu1
  have hCuh : C * (u / (h : ℝ)) ≤ 1 / 1000 := by
    have h1 := mul_le_mul_of_nonneg_left huh hC.le
    have h2 : C * (1 / (200 * 157 * (C + 1))) ≤ 1 / 1000 := by
      rw [mul_one_div, div_le_div_iff₀ (by positivity) (by norm_num)]
      linarith
    linarith
  have hb : C * (A.val ⟨h⟩ + 145 * u + 0 + u / A.val (⟨h⟩ : BF q)) ≤ 1 / 100 := by
    rw [hA]
    have : C * u * 1000 ≤ 1 / 100 * 145 := by nlinarith
    linarith
  obtain ⟨fuel, out, e, hall⟩ := key (BF q) u (C + 145) (145 * u) A (squareOde (BF q)) hu0 (by nlinarith) (by positivity) (by linarith)
    (square_accurate A hu0 (by linarith)) true (la q) 1 ⟨1 / 10⟩ ⟨4 / 5⟩ (fun _ => ⟨10 / 9⟩) ⟨h⟩ (st0 q) 0 0 (by norm_num) (by norm_num)
    rfl rfl (fun _ => rfl) rfl
    (by rw [hA]; norm_num) (by rw [hA, hA]; norm_num) (by rw [hA]; norm_num) (fun _ => by rw [hA, hA]; norm_num) le_rfl
    (by rw [hA]; exact hh.le) (by rw [hclip, hA]; exact hh) ⟨_, rfl⟩ (by rw [hclip]; exact hb.trans (by norm_num))
  refine ⟨fuel, out, e, fun i t y ht hy k => ?_⟩
  rw [hclip] at hall
  have := ((hall i t y ht hy).2 k).2.trans hb
  rw [hA, hA] at this
  exact this

end Verif
