import Mathlib.Algebra.Order.Floor.Semiring
import Verif.ErkRun

/-!
# Termination of the explicit integrator: helper lemmas
-/

namespace Verif
open Spec
variable {n : ℕ} {nd : Bool} {f : ℝ → Vec ℝ n → Vec ℝ n} {t0 t1 : ℝ} {y0 : Vec ℝ n}
  {o : ErkOpts ℝ} {dt : ℝ} {sc : SolverCoeffs ℝ} {oo : OutOpts} {fuel : ℕ} {out : ErkOutput ℝ n}
  {mo : ℕ}

/-- the output stream is usable: it is set whenever it is written -/
def StreamOK (oo : OutOpts) : Prop := oo.writeToFile = true → oo.streamSet = true

theorem errTot_nonneg (o : ErkOpts ℝ) (y yn ee : Vec ℝ n) : 0 ≤ errTot o y yn ee := by
  rw [errTot_real]; exact Finset.sum_nonneg (fun _ _ => sq_nonneg _)

/-- In exact arithmetic a finished loop returned. -/
theorem loop_returns (hs : StreamOK oo) (hb2 : o.adaptive = true → sc.b2.length = sc.ns)
    {s : ErkState ℝ n} {r : Outcome (ErkOutput ℝ n)}
    (h : runLoop (erkBody nd f t1 o oo sc mo) fuel s = some r) : ∃ out, r = .ret out := by
  obtain ⟨s', -, hd⟩ := runLoop_some h
  have hc := bodyCase nd f t1 o oo sc mo s'
  rw [hd] at hc
  cases hc with
  | finished h => exact ⟨_, rfl⟩
  | maxSteps h h0 h1 => exact ⟨_, rfl⟩
  | throws h ha hb => exact absurd (hb2 ha) hb
  | assertFail h ha hnd a hA he =>
    exfalso
    obtain ⟨-, -, -, e4, -⟩ := attempt_adaptive (f := f) (t1 := t1) (sc := sc) (mo := mo) ha s'
    rw [← hA] at e4
    rw [e4] at he
    have := errTot_nonneg o s'.y a.yn a.errEst
    simp only [lit_real, Rat.cast_zero, leb_real_false] at he
    linarith
  | ub h hw hs' => rw [hs hw] at hs'; cases hs'

theorem runLoop_next {S R : Type} {body : S → LoopStep S R} {s s' : S} {k : ℕ}
    (h : body s = .next s') : runLoop body (k + 1) s = runLoop body k s' := by
  simp [runLoop, h]

/-- A fixed-step pass below the end of the interval. -/
theorem fixed_next (hs : StreamOK oo) (had : o.adaptive = false) {s : ErkState ℝ n}
    (hlt : s.t < t1) (hm : ¬ (0 ≤ o.maxSteps ∧ o.maxSteps < s.step)) :
    ∃ s', erkBody nd f t1 o oo sc mo s = .next s' ∧ s'.t = s.t + clipDt s.t t1 s.dt ∧
      s'.dt = clipDt s.t t1 s.dt ∧ s'.step = s.step + 1 ∧ s'.sol.status = s.sol.status ∧
      s'.sol.tVals = s.sol.tVals ++ [s.t + clipDt s.t t1 s.dt] := by
  have hc := bodyCase nd f t1 o oo sc mo s
  generalize hb : erkBody nd f t1 o oo sc mo s = x at hc
  obtain ⟨L, e, -⟩ := attempt_sol f o sc mo s (clipDt s.t t1 s.dt) s.sol.bump
  cases hc with
  | finished h => simp at h; linarith
  | maxSteps h h0 h1 => exact absurd ⟨h0, h1⟩ hm
  | throws h ha hb => rw [had] at ha; cases ha
  | assertFail h ha hnd a hA he => rw [had] at ha; cases ha
  | ub h hw hs' => rw [hs hw] at hs'; cases hs'
  | accepted h hm hb2 a hA hE hr =>
    obtain ⟨-, e2, -⟩ := attempt_fixed (f := f) (t1 := t1) (sc := sc) (mo := mo) had s
    have hd := attempt_dt (f := f) (t1 := t1) (o := o) (sc := sc) (mo := mo) s
    rw [← attemptAt, ← hA] at e
    rw [← hA] at e2 hd
    refine ⟨_, rfl, ?_, ?_, rfl, ?_, ?_⟩
    · change s.t + a.dt = _; rw [hd]
    · change a.newDt = _; rw [e2, hd]
    · cases hw : oo.writeToFile <;> simp [accept, ErkOutput.line, hw, e, ErkOutput.bump]
    · rw [← hd]
      cases hw : oo.writeToFile <;> simp [accept, ErkOutput.line, hw, e, ErkOutput.bump]
  | rejected h hm hb2 a hA hE had' hr => rw [had] at had'; cases had'

/-- The explicit trajectory of a fixed-step run. -/
theorem fixed_run (hs : StreamOK oo) (had : o.adaptive = false) (N : ℕ) :
    ∀ s : ErkState ℝ n, s.t < t1 → 0 < s.dt → ⌈(t1 - s.t) / s.dt⌉₊ = N + 1 →
    (o.maxSteps < 0 ∨ (s.step : ℤ) + N ≤ o.maxSteps) →
    ∃ fuel out, runLoop (erkBody nd f t1 o oo sc mo) fuel s = some (.ret out) ∧
      out.status = s.sol.status ∧
      out.tVals = s.sol.tVals ++ (List.range N).map (fun k : ℕ => s.t + (k + 1) * s.dt) ++ [t1] := by
  induction N with
  | zero =>
    intro s hlt hdt hN hms
    have hcl : clipDt s.t t1 s.dt = t1 - s.t := by
      rw [clipDt_real, min_eq_right]
      have : (t1 - s.t) / s.dt ≤ 1 := by
        have := Nat.le_ceil ((t1 - s.t) / s.dt)
        rw [hN] at this; simpa using this
      rw [div_le_one hdt] at this
      exact this
    obtain ⟨s', hb, h1, h2, h3, h4, h5⟩ := fixed_next (nd := nd) (f := f) (sc := sc) (mo := mo)
      hs had hlt (by push_cast at hms; omega)
    rw [hcl] at h1 h5
    have ht : s'.t = t1 := by rw [h1]; ring
    have hd : ∃ out, erkBody nd f t1 o oo sc mo s' = .done (.ret out) ∧
        out.status = s'.sol.status ∧ out.tVals = s'.sol.tVals := by
      unfold erkBody
      rw [if_neg (by simp [ht])]
      exact ⟨_, rfl, rfl, rfl⟩
    obtain ⟨out, hd, o1, o2⟩ := hd
    refine ⟨2, out, ?_, by rw [o1, h4], ?_⟩
    · rw [runLoop_next hb]; simp [runLoop, hd]
    · rw [o2, h5]; simp
  | succ N ih =>
    intro s hlt hdt hN hms
    have hgt : s.t + s.dt < t1 := by
      by_contra hc
      have : (t1 - s.t) / s.dt ≤ 1 := by rw [div_le_one hdt]; linarith
      have : ⌈(t1 - s.t) / s.dt⌉₊ ≤ 1 := by rw [Nat.ceil_le]; simpa using this
      omega
    have hcl : clipDt s.t t1 s.dt = s.dt := by
      rw [clipDt_real, min_eq_left (by linarith)]
    obtain ⟨s', hb, h1, h2, h3, h4, h5⟩ := fixed_next (nd := nd) (f := f) (sc := sc) (mo := mo)
      hs had hlt (by push_cast at hms; omega)
    rw [hcl] at h1 h2 h5
    have hN' : ⌈(t1 - s'.t) / s'.dt⌉₊ = N + 1 := by
      rw [h1, h2]
      have : (t1 - (s.t + s.dt)) / s.dt = (t1 - s.t) / s.dt - 1 := by field_simp; ring
      rw [this, Nat.ceil_sub_one, hN]; rfl
    obtain ⟨fuel, out, hr, o1, o2⟩ := ih s' (by rw [h1]; exact hgt) (by rw [h2]; exact hdt) hN'
      (by rw [h3]; push_cast at hms ⊢; omega)
    refine ⟨fuel + 1, out, by rw [runLoop_next hb]; exact hr, by rw [o1, h4], ?_⟩
    rw [o2, h5, h1, h2, List.range_succ_eq_map, List.map_cons, List.map_map]
    simp only [List.append_assoc, List.cons_append, List.nil_append]
    congr 2
    · push_cast; ring
    · congr 1
      apply List.map_congr_left
      intro k _
      simp only [Function.comp]
      push_cast; ring

end Verif
