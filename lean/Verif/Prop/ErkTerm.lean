import Verif.ErkReturns
import Verif.Prop.ErkReal
import Mathlib.Analysis.SpecialFunctions.Trigonometric.Basic

/-!
# Properties C17, C18, C19, C20, C26, C63: termination, step limits and their refutations
-/

namespace Verif
open Spec

section
variable {n : ℕ} {nd : Bool} {f : ℝ → Vec ℝ n → Vec ℝ n} {t0 t1 : ℝ} {y0 : Vec ℝ n}
  {o : ErkOpts ℝ} {dt : ℝ} {sc : SolverCoeffs ℝ} {oo : OutOpts} {fuel : ℕ} {out : ErkOutput ℝ n}
  {m : ℤ}

/-- **C19.**  With fixed steps (`adaptive` off, or a method without embedded formula), `dt > 0`, `t0 < t1` and no
restricting `max_steps`, `odeint` returns with SUCCESS and the times are `t0 + k dt` for `k < N` followed by
exactly `t1`, where `N = ⌈(t1 - t0)/dt⌉`. -/
theorem C19_fixed_grid (hm : m ∈ erkImplemented) (hs : StreamOK oo)
    (had : o.adaptive = false ∨ (erkCoeffs m : SolverCoeffs ℝ).b2 = [])
    (hdt : 0 < dt) (h01 : t0 < t1)
    (hms : o.maxSteps < 0 ∨ (⌈(t1 - t0) / dt⌉₊ : ℤ) ≤ o.maxSteps + 1) :
    ∃ fuel out, erkOdeint nd f t0 t1 y0 o oo m dt fuel = some (.ret out) ∧ out.status = 0 ∧
      out.tVals = (List.range ⌈(t1 - t0) / dt⌉₊).map (fun k : ℕ => t0 + k * dt) ++ [t1] :=
  fixed_run_exists hm hs had hdt h01 hms

/-- RK4 on `y' = y` over `[0,1]` with `dt = 2/5`: times `0, 2/5, 4/5, 1` -/
example : ∃ fuel out, erkOdeint (F := ℝ) (n := 1) false (fun _ y => y) 0 1 (fun _ => 1)
    { adaptive := false, relTol := 1, absTol := 1, maxDt := 0, maxSteps := -1 } OutOpts.dflt 110 (2 / 5)
    fuel = some (.ret out) ∧ out.tVals = [0, 2 / 5, 4 / 5, 1] := by
  obtain ⟨fuel, out, h1, -, h3⟩ := C19_fixed_grid (n := 1) (nd := false) (f := fun _ y => y)
    (t0 := 0) (t1 := 1) (y0 := fun _ => 1)
    (o := { adaptive := false, relTol := 1, absTol := 1, maxDt := 0, maxSteps := -1 })
    (oo := OutOpts.dflt) (dt := 2 / 5) (m := 110) (by decide) (fun h => by revert h; decide)
    (Or.inl rfl) (by norm_num) one_pos (Or.inl (by norm_num))
  refine ⟨fuel, out, h1, ?_⟩
  have : ⌈((1 : ℝ) - 0) / (2 / 5)⌉₊ = 3 := by
    rw [Nat.ceil_eq_iff (by norm_num)]; norm_num
  rw [h3, this]
  simp [List.range_succ]
  norm_num

/-- **C20.**  If `|f(t,y)_k| ≤ M` for `t ∈ [t0,t1]`, `abs_tol > 0` and `rel_tol ≥ 0`, then the adaptive integrator
with an embedded method returns, from every initial value and step size, with any `max_dt` and any `max_steps`;
without a step limit the status is SUCCESS. -/
theorem C20_adaptive_terminates (hm : m ∈ erkImplemented) (hs : StreamOK oo)
    (had : o.adaptive = true) (hb2 : (erkCoeffs m : SolverCoeffs ℝ).b2 ≠ [])
    (ha : 0 < o.absTol) (hr : 0 ≤ o.relTol) {M : ℝ}
    (hf : ∀ t y k, t0 ≤ t → t ≤ t1 → |f t y k| ≤ M) (hdt : 0 < dt) (h01 : t0 < t1) :
    ∃ fuel out, erkOdeint nd f t0 t1 y0 o oo m dt fuel = some (.ret out) ∧
      (o.maxSteps < 0 → out.status = 0) := by
  obtain ⟨k, out, h⟩ := adaptive_run_exists (nd := nd) (y0 := y0) hm hs had hb2 ha hr hf hdt h01
  refine ⟨k, out, h, ?_⟩
  intro hneg
  have hG := (erkOdeint_ret h).2
  obtain ⟨f1, f2, f3, f4⟩ := effOpts_fields o (erkCoeffs m : SolverCoeffs ℝ)
  obtain ⟨mo', s, -, -, hreach, hout⟩ := erkGuts_ret hG
  rcases hout with ⟨-, rfl⟩ | ⟨-, h0, -⟩
  · obtain ⟨recs, -, -, -, -, h3⟩ := erk_out_facts hG
    rcases h3 with h3 | h3
    · exact h3.1
    · simp at h3
  · rw [f4] at h0; omega

/-- a non-trivial bounded right-hand side: `y' = cos y` with the default tolerances -/
example : ∃ fuel out, erkOdeint (F := ℝ) (n := 1) false (fun _ y k => Real.cos (y k)) 0 10
    (fun _ => 0) { adaptive := true, relTol := 1 / 10 ^ 4, absTol := 1 / 10 ^ 3, maxDt := 0, maxSteps := -1 }
    OutOpts.dflt 131 1 fuel = some (.ret out) ∧ ((-1 : ℤ) < 0 → out.status = 0) :=
  C20_adaptive_terminates (M := 1) (by decide) (fun h => by revert h; decide) rfl
    (by simp [erkCoeffs, dormandPrince54]) (by norm_num) (by norm_num)
    (fun _ _ _ _ _ => Real.abs_cos_le_one _) one_pos (by norm_num)

end

/-- **C17, the documented claim** for `erk::odeint`: with `max_steps = N ≥ 0` at most `N` steps are accepted. -/
def C17_claim : Prop :=
  ∀ (n : ℕ) (nd : Bool) (f : ℝ → Vec ℝ n → Vec ℝ n) (t0 t1 : ℝ) (y0 : Vec ℝ n) (o : ErkOpts ℝ)
    (oo : OutOpts) (m : ℤ) (dt : ℝ) (fuel : ℕ) (out : ErkOutput ℝ n), 0 ≤ o.maxSteps →
    erkOdeint nd f t0 t1 y0 o oo m dt fuel = some (.ret out) →
    ((out.tVals.length - 1 : ℕ) : ℤ) ≤ o.maxSteps

/-- **C17 is false**: with `max_steps = 0` one step is taken and SUCCESS is reported. -/
theorem C17_refuted : ¬ C17_claim := by
  intro h
  obtain ⟨fuel, out, h1, -, h3⟩ := euler_one_step 0 (Or.inr (le_refl _)) OutOpts.dflt
    (fun h => by revert h; decide)
  have := h _ _ _ _ _ _ _ _ _ _ _ _ (le_refl _) h1
  rw [h3] at this
  norm_num at this

/-- **C26, the documented claim**: the lines written are the accepted samples. -/
def C26_claim : Prop :=
  ∀ (n : ℕ) (nd : Bool) (f : ℝ → Vec ℝ n → Vec ℝ n) (t0 t1 : ℝ) (y0 : Vec ℝ n) (o : ErkOpts ℝ)
    (oo : OutOpts) (m : ℤ) (dt : ℝ) (fuel : ℕ) (out : ErkOutput ℝ n), oo.writeToFile = true →
    erkOdeint nd f t0 t1 y0 o oo m dt fuel = some (.ret out) →
    out.file = (out.tVals.zip out.yVals).tail ∨ out.file = out.tVals.zip out.yVals

/-- **C26 is false**: the only line of a one-step run pairs the *initial* time with the final value. -/
theorem C26_refuted : ¬ C26_claim := by
  intro h
  have hw : (OutOpts.dflt.after [.setStream]).writeToFile = true := by decide
  obtain ⟨fuel, out, h1, -, h3⟩ := euler_one_step (-1) (Or.inl (by norm_num))
    (OutOpts.dflt.after [.setStream]) (fun _ => by decide)
  have hc := h _ _ _ _ _ _ _ _ _ _ _ _ hw h1
  obtain ⟨-, h'⟩ := erkOdeint_ret h1
  have hp := (C26_stream_partial hw h').2 (by simp [effOpts])
  have hlen := (C10_odeint h1).1
  rw [h3] at hp hc hlen
  obtain ⟨a, b, hab⟩ : ∃ a b, out.yVals = [a, b] := by
    cases hy : out.yVals with
    | nil => rw [hy] at hlen; simp at hlen
    | cons a l =>
      cases l with
      | nil => rw [hy] at hlen; simp at hlen
      | cons b l =>
        cases l with
        | nil => exact ⟨a, b, rfl⟩
        | cons c l => rw [hy] at hlen; simp at hlen
  rw [hab] at hp hc
  rw [hp] at hc
  rcases hc with hc | hc <;> simp at hc

/-! ### C18 and C63 with Bogacki–Shampine -/

/-- an adaptive attempt with small error is accepted -/
theorem adaptive_next {n : ℕ} {nd : Bool} {f : ℝ → Vec ℝ n → Vec ℝ n} {t1 : ℝ} {o : ErkOpts ℝ}
    {sc : SolverCoeffs ℝ} {oo : OutOpts} {mo : ℕ} (hs : StreamOK oo) (had : o.adaptive = true)
    (hb2 : sc.b2.length = sc.ns) {s : ErkState ℝ n} (hlt : s.t < t1)
    (hm : ¬ (0 ≤ o.maxSteps ∧ o.maxSteps < s.step)) :
    ((attemptAt f t1 o sc mo s).err < 1 ∧ erkBody nd f t1 o oo sc mo s =
      .next (accept sc s (attemptAt f t1 o sc mo s)
        ((attemptAt f t1 o sc mo s).sol.line oo s.t (attemptAt f t1 o sc mo s).yn))) ∨
    (1 ≤ (attemptAt f t1 o sc mo s).err ∧ erkBody nd f t1 o oo sc mo s =
      .next (rejectStep s (attemptAt f t1 o sc mo s)
        ((attemptAt f t1 o sc mo s).sol.line oo s.t (attemptAt f t1 o sc mo s).yn))) := by
  have hc := bodyCase nd f t1 o oo sc mo s
  generalize hb : erkBody nd f t1 o oo sc mo s = x at hc
  obtain ⟨-, -, e3, e4, -⟩ := attempt_adaptive (f := f) (t1 := t1) (sc := sc) (mo := mo) had s
  cases hc with
  | finished h => simp at h; linarith
  | maxSteps h h0 h1 => exact absurd ⟨h0, h1⟩ hm
  | throws h ha hbl => exact absurd hb2 hbl
  | assertFail h ha hnd a hA he =>
    exfalso
    rw [← hA] at e4
    rw [e4] at he
    have := errTot_nonneg o s.y a.yn a.errEst
    simp only [lit_real, Rat.cast_zero, leb_real_false] at he
    linarith
  | ub h hw hs' => rw [hs hw] at hs'; cases hs'
  | accepted h hm hb2 a hA hE hr =>
    left
    rw [← hA] at e3 ⊢
    have := hr.resolve_left (by simp [had])
    rw [e3] at this
    exact ⟨by simpa using this, rfl⟩
  | rejected h hm hb2 a hA hE had' hr =>
    right
    rw [← hA] at e3 ⊢
    rw [e3] at hr
    exact ⟨by simpa using hr, rfl⟩

/-- **C18, the documented claim**: with adaptive stepping and `max_dt > 0` no accepted step exceeds `max_dt`. -/
def C18_claim : Prop :=
  ∀ (n : ℕ) (nd : Bool) (f : ℝ → Vec ℝ n → Vec ℝ n) (t0 t1 : ℝ) (y0 : Vec ℝ n) (o : ErkOpts ℝ)
    (oo : OutOpts) (m : ℤ) (dt : ℝ) (fuel : ℕ) (out : ErkOutput ℝ n), t0 < t1 → 0 < dt →
    o.adaptive = true → 0 < o.maxDt →
    erkOdeint nd f t0 t1 y0 o oo m dt fuel = some (.ret out) →
    ∀ (i : ℕ) (t t' : ℝ), out.tVals[i]? = some t → out.tVals[i + 1]? = some t' → t' - t ≤ o.maxDt

/-- the options of the witness -/
noncomputable def c18Opts : ErkOpts ℝ :=
  { adaptive := true, relTol := 0, absTol := 1, maxDt := 1 / 2, maxSteps := -1 }

/-- **C18 is false**: `y' = 0` on `[0,1]` with `dt = 1`, `max_dt = 1/2` takes one step of length 1. -/
theorem C18_refuted : ¬ C18_claim := by
  intro h
  have hs : StreamOK OutOpts.dflt := fun h => by revert h; decide
  obtain ⟨fuel, out, h1, -⟩ := C20_adaptive_terminates (n := 1) (nd := false)
    (f := fun _ _ _ => (0 : ℝ)) (t0 := 0) (t1 := 1) (y0 := fun _ => 0) (o := c18Opts)
    (oo := OutOpts.dflt) (dt := 1) (m := 120) (M := 0) (by decide) hs rfl
    (by simp [erkCoeffs, bogackiShampine32]) (by norm_num [c18Opts]) (by norm_num [c18Opts])
    (by simp) one_pos one_pos
  have key := h 1 _ _ _ _ _ _ _ _ _ _ _ one_pos one_pos rfl (by norm_num [c18Opts]) h1
  -- the first pass accepts a step to t = 1
  have hm : (120 : ℤ) ∈ erkImplemented := by decide
  obtain ⟨-, h'⟩ := erkOdeint_ret h1
  have hmo : minOrder (erkCoeffs 120 : SolverCoeffs ℝ) = some 2 := by
    simp [erkCoeffs, minOrder, bogackiShampine32]
  rw [guts_eq_loop hmo one_pos one_pos] at h'
  set sc : SolverCoeffs ℝ := erkCoeffs 120 with hsc
  have hb2 : sc.b2.length = sc.ns := by simp [hsc, erkCoeffs, bogackiShampine32, SolverCoeffs.ns]
  have ho : effOpts c18Opts sc = c18Opts := by
    simp [effOpts, c18Opts, hsc, erkCoeffs, bogackiShampine32]
  rw [ho] at h'
  obtain ⟨i1, i2, i3, i4, i5⟩ := erkInit_fields (n := 1) (f := fun _ _ _ => (0 : ℝ)) (t0 := 0)
    (y0 := fun _ => 0) (sc := sc) (clipDt 0 1 1)
  set s0 := erkInit (n := 1) (fun _ _ _ => (0 : ℝ)) 0 (fun _ => 0) (clipDt 0 1 1) sc with hs0
  obtain ⟨hex, hfs, hns, hcn, -⟩ := shipped_facts hm
  have hT : TimeInv 0 1 s0 := timeInv_init zero_le_one (by rw [clipDt_real]; norm_num)
  have hF : FsalInv (fun _ _ _ => (0 : ℝ)) sc s0 := fsalInv_init
  have hlt : s0.t < 1 := by rw [i1]; exact one_pos
  have herr := attempt_err_le (o := c18Opts) (mo := 2) (M := 0) hfs hcn rfl
    (by norm_num [c18Opts]) (by norm_num [c18Opts]) (le_refl _)
    (fun t y k _ _ => by simp) hT hF hlt
  obtain ⟨e1, -, -, e4, e5⟩ := attempt_adaptive (n := 1) (f := fun _ _ _ => (0 : ℝ)) (t1 := 1)
    (sc := sc) (mo := 2) (o := c18Opts) rfl s0
  have hK : ∀ j, j < sc.ns → (attemptAt (fun _ _ _ => (0 : ℝ)) 1 c18Opts sc 2 s0).Ks j = fun _ => 0 :=
    fun j hj => attempt_stages (t1 := 1) (o := c18Opts) (mo := 2) hfs hF j hj
  have hcomb : ∀ w : ℕ → ℝ, ∀ k,
      combine sc (attemptAt (fun _ _ _ => (0 : ℝ)) 1 c18Opts sc 2 s0).Ks w k = 0 := by
    intro w k
    rw [combine_real]
    apply Finset.sum_eq_zero
    intro j hj
    rw [hK j (Finset.mem_range.mp hj), zero_mul]
  have herr1 : (attemptAt (fun _ _ _ => (0 : ℝ)) 1 c18Opts sc 2 s0).err < 1 := by
    rw [e1, e4, errNorm_real, errTot_real, e5]
    simp only [hcomb]
    simp [mp_lt_one]
  have hnext := (adaptive_next (nd := false) (f := fun _ _ _ => (0 : ℝ)) (t1 := 1) (o := c18Opts)
    (sc := sc) (oo := OutOpts.dflt) (mo := 2) hs rfl hb2 hlt (by simp [c18Opts])).resolve_right
    (fun hc => absurd hc.1 (not_le.mpr herr1))
  have hd := attempt_dt (f := fun _ _ _ => (0 : ℝ)) (t1 := 1) (o := c18Opts) (sc := sc) (mo := 2) s0
  have hd1 : (attemptAt (fun _ _ _ => (0 : ℝ)) 1 c18Opts sc 2 s0).dt = 1 := by
    rw [hd, i1, i2, clipDt_real, clipDt_real]; norm_num
  cases fuel with
  | zero => simp [runLoop] at h'
  | succ k =>
    rw [runLoop_next hnext.2] at h'
    set s1 := accept sc s0 (attemptAt (fun _ _ _ => (0 : ℝ)) 1 c18Opts sc 2 s0)
      ((attemptAt (fun _ _ _ => (0 : ℝ)) 1 c18Opts sc 2 s0).sol.line OutOpts.dflt s0.t
        (attemptAt (fun _ _ _ => (0 : ℝ)) 1 c18Opts sc 2 s0).yn) with hs1
    have ht1 : s1.t = 1 := by
      change s0.t + _ = 1
      rw [hd1, i1]; norm_num
    have hv : s1.sol.tVals = [0, 1] := by
      obtain ⟨L, e, -⟩ := attempt_sol (fun _ _ _ => (0 : ℝ)) c18Opts sc 2 s0
        (clipDt s0.t 1 s0.dt) s0.sol.bump
      rw [← attemptAt] at e
      have hw : OutOpts.dflt.writeToFile = false := by decide
      rw [hs1]
      simp [accept, ErkOutput.line, hw, e, ErkOutput.bump, hd1, i1, i5]
    cases k with
    | zero => simp [runLoop] at h'
    | succ k =>
      have hdone : erkBody false (fun _ _ _ => (0 : ℝ)) 1 c18Opts OutOpts.dflt sc 2 s1 =
          .done (.ret { s1.sol with
            acceptFrac := some (lit (s1.step : ℚ) / lit (s1.sol.attempt : ℚ)) }) := by
        unfold erkBody
        rw [if_neg (by simp [ht1])]
      simp only [runLoop, hdone, Option.some.injEq, Outcome.ret.injEq] at h'
      have ht : out.tVals = [0, 1] := by rw [← h']; exact hv
      have := key 0 0 1 (by rw [ht]; rfl) (by rw [ht]; rfl)
      norm_num [c18Opts] at this

/-- **C63, the documented claim**: with `max_steps ≥ 0` every run of `erk::odeint` on a valid interval ends. -/
def C63_claim : Prop :=
  ∀ (n : ℕ) (nd : Bool) (f : ℝ → Vec ℝ n → Vec ℝ n) (t0 t1 : ℝ) (y0 : Vec ℝ n) (o : ErkOpts ℝ)
    (oo : OutOpts) (m : ℤ) (dt : ℝ), t0 < t1 → 0 < dt → 0 < o.absTol → 0 ≤ o.maxSteps →
    StreamOK oo → ∃ fuel, erkOdeint nd f t0 t1 y0 o oo m dt fuel ≠ none

open Classical in
/-- right-hand side of the witness: `f(t) = 6/t` for `t ≠ 0` and `f(0) = 0` -/
noncomputable def c63F : ℝ → Vec ℝ 1 → Vec ℝ 1 := fun t _ _ => if t = 0 then 0 else 6 / t

/-- the options of the witness -/
noncomputable def c63Opts : ErkOpts ℝ :=
  { adaptive := true, relTol := 0, absTol := 1, maxDt := 0, maxSteps := 0 }

/-- every attempt from `t = 0` has error `41/36` -/
theorem c63_attempt_err {mo : ℕ} {s : ErkState ℝ 1} (ht : s.t = 0) (hdt : 0 < s.dt)
    (hF : FsalInv c63F (erkCoeffs 120) s) :
    (attemptAt c63F 1 c63Opts (erkCoeffs 120) mo s).err = 41 / 36 := by
  have hm : (120 : ℤ) ∈ erkImplemented := by decide
  obtain ⟨hex, hfs, hns, hcn, -⟩ := shipped_facts hm
  obtain ⟨e1, -, -, e4, e5⟩ := attempt_adaptive (n := 1) (f := c63F) (t1 := 1)
    (sc := erkCoeffs 120) (mo := mo) (o := c63Opts) rfl s
  have hd := attempt_dt (f := c63F) (t1 := 1) (o := c63Opts) (sc := erkCoeffs 120) (mo := mo) s
  have hst := fun j hj => attempt_stages (t1 := 1) (o := c63Opts) (mo := mo) hfs hF j hj
  set a := attemptAt c63F 1 c63Opts (erkCoeffs 120) mo s with ha
  have hpos : 0 < a.dt := by rw [hd, ht, clipDt_real]; exact lt_min hdt (by norm_num)
  have n4 : (erkCoeffs 120 : SolverCoeffs ℝ).ns = 4 := by
    simp [erkCoeffs, bogackiShampine32, SolverCoeffs.ns]
  have k0 : a.Ks 0 = fun _ => 0 := by
    have c : (erkCoeffs 120 : SolverCoeffs ℝ).cn 0 = 0 := by
      simp [erkCoeffs, bogackiShampine32, SolverCoeffs.cn]
    rw [hst 0 (by omega), ht, c]
    funext x; simp [c63F]
  have k1 : a.Ks 1 = fun _ => 12 / a.dt := by
    have c : (erkCoeffs 120 : SolverCoeffs ℝ).cn 1 = 1 / 2 := by
      simp [erkCoeffs, bogackiShampine32, SolverCoeffs.cn]
    rw [hst 1 (by omega), ht, c]
    funext x; simp only [c63F]; rw [if_neg (by positivity)]; field_simp; ring
  have k2 : a.Ks 2 = fun _ => 8 / a.dt := by
    have c : (erkCoeffs 120 : SolverCoeffs ℝ).cn 2 = 3 / 4 := by
      simp [erkCoeffs, bogackiShampine32, SolverCoeffs.cn]
    rw [hst 2 (by omega), ht, c]
    funext x; simp only [c63F]; rw [if_neg (by positivity)]; field_simp; ring
  have k3 : a.Ks 3 = fun _ => 6 / a.dt := by
    have c : (erkCoeffs 120 : SolverCoeffs ℝ).cn 3 = 1 := by
      simp [erkCoeffs, bogackiShampine32, SolverCoeffs.cn]
    rw [hst 3 (by omega), ht, c]
    funext x; simp only [c63F]; rw [if_neg (by positivity)]; field_simp; ring
  have hee : a.errEst = fun _ => -41 / 36 := by
    rw [e5]
    funext k
    rw [combine_real, combine_real, n4]
    simp only [Finset.sum_range_succ, Finset.sum_range_zero, k0, k1, k2, k3]
    simp [erkCoeffs, bogackiShampine32, SolverCoeffs.bw, SolverCoeffs.bw2, q]
    field_simp
    norm_num
  rw [e1, e4, errNorm_wrms, hee]
  have hw : wrms c63Opts.absTol c63Opts.relTol s.y a.yn (fun _ => (-41 / 36 : ℝ)) = 41 / 36 := by
    unfold wrms
    simp only [c63Opts, zero_mul, add_zero, div_one, Nat.cast_one, one_mul, Finset.sum_const,
      Finset.card_univ, Fintype.card_fin, one_smul]
    rw [show ((-41 / 36 : ℝ)) ^ 2 = (41 / 36) ^ 2 by norm_num]
    exact Real.sqrt_sq (by norm_num)
  rw [hw, max_eq_left]
  exact mp_lt_one.le.trans (by norm_num)

/-- the run on `[0,1]` with `BOGACKI_SHAMPINE_32` and `max_steps = 0` never ends: every attempt is rejected -/
theorem C63_diverges (nd : Bool) (fuel : ℕ) :
    erkOdeint nd c63F 0 1 (fun _ => 0) c63Opts OutOpts.dflt 120 1 fuel = none := by
  have hm : (120 : ℤ) ∈ erkImplemented := by decide
  have hs : StreamOK OutOpts.dflt := fun h => by revert h; decide
  have hmo : minOrder (erkCoeffs 120 : SolverCoeffs ℝ) = some 2 := by
    simp [erkCoeffs, minOrder, bogackiShampine32]
  have ho : effOpts c63Opts (erkCoeffs 120 : SolverCoeffs ℝ) = c63Opts := by
    simp [effOpts, c63Opts, erkCoeffs, bogackiShampine32]
  have hb2 : (erkCoeffs 120 : SolverCoeffs ℝ).b2.length = (erkCoeffs 120 : SolverCoeffs ℝ).ns := by
    simp [erkCoeffs, bogackiShampine32, SolverCoeffs.ns]
  obtain ⟨hex, hfs, -⟩ := shipped_facts hm
  rw [odeint_eq_guts hm, guts_eq_loop hmo one_pos one_pos, ho]
  obtain ⟨i1, i2, i3, -⟩ := erkInit_fields (n := 1) (f := c63F) (t0 := 0)
    (y0 := fun _ => 0) (sc := erkCoeffs 120) (clipDt 0 1 1)
  refine diverges_of_inv (Inv := fun s => s.t = 0 ∧ 0 < s.dt ∧ s.step = 0 ∧
    FsalInv c63F (erkCoeffs 120) s) ?_ ⟨i1, by rw [i2, clipDt_real]; norm_num, i3, fsalInv_init⟩ fuel
  rintro s ⟨h1, h2, h3, h4⟩
  have hlt : s.t < 1 := by rw [h1]; exact one_pos
  have herr := c63_attempt_err (mo := 2) h1 h2 h4
  have hn := (adaptive_next (nd := nd) (f := c63F) (t1 := 1) (o := c63Opts)
    (sc := erkCoeffs 120) (oo := OutOpts.dflt) (mo := 2) (s := s) hs rfl hb2 hlt
    (by simp [c63Opts, h3])).resolve_left (fun hc => by rw [herr] at hc; norm_num at hc)
  refine ⟨_, hn.2, h1, ?_, h3, fsalInv_next hfs hex h4 hn.2⟩
  exact attempt_newDt_pos (t0 := 0) ⟨by rw [h1], hlt.le, h2⟩ hlt

/-- the first pass of that run is a rejection; `C21_reject_keeps_state` and `C21_retry_smaller` apply to it -/
example : ∃ s' : ErkState ℝ 1,
    erkBody true c63F 1 c63Opts OutOpts.dflt (erkCoeffs 120) 2 (erkInit c63F 0 (fun _ => 0) 1 (erkCoeffs 120)) = .next s' ∧
    s'.sol.rejectErr = 1 ∧ s'.t = 0 ∧ s'.step = 0 ∧ s'.dt ≤ 9 / 10 := by
  have hs : StreamOK OutOpts.dflt := fun h => by revert h; decide
  have hb2 : (erkCoeffs 120 : SolverCoeffs ℝ).b2.length = (erkCoeffs 120 : SolverCoeffs ℝ).ns := by
    simp [erkCoeffs, bogackiShampine32, SolverCoeffs.ns]
  obtain ⟨i1, i2, i3, -⟩ := erkInit_fields (n := 1) (f := c63F) (t0 := 0)
    (y0 := fun _ => 0) (sc := erkCoeffs 120) 1
  have herr := c63_attempt_err (mo := 2) (s := erkInit c63F 0 (fun _ => 0) 1 (erkCoeffs 120)) i1
    (by rw [i2]; exact one_pos) fsalInv_init
  have hn := ((adaptive_next (nd := true) (f := c63F) (t1 := 1) (o := c63Opts)
    (sc := erkCoeffs 120) (oo := OutOpts.dflt) (mo := 2) (s := erkInit c63F 0 (fun _ => 0) 1 (erkCoeffs 120)) hs rfl hb2
    (by rw [i1]; exact one_pos) (by simp [c63Opts, i3])).resolve_left (fun hc => by rw [herr] at hc; norm_num at hc)).2
  obtain ⟨-, -, e3, -⟩ := attempt_adaptive (f := c63F) (t1 := 1) (o := c63Opts) (sc := erkCoeffs 120) (mo := 2) rfl
    (erkInit c63F 0 (fun _ => 0) 1 (erkCoeffs 120))
  have hrej : (attemptAt c63F 1 c63Opts (erkCoeffs 120) 2 (erkInit c63F 0 (fun _ => 0) 1 (erkCoeffs 120))).reject = true := by
    rw [e3, herr, leb_real]; norm_num
  obtain ⟨L, e, -⟩ := attempt_sol c63F c63Opts (erkCoeffs 120) 2 (erkInit c63F 0 (fun _ => 0) 1 (erkCoeffs 120))
    (clipDt (erkInit c63F 0 (fun _ => 0) 1 (erkCoeffs 120) : ErkState ℝ 1).t 1
      (erkInit c63F 0 (fun _ => 0) 1 (erkCoeffs 120) : ErkState ℝ 1).dt)
    (erkInit c63F 0 (fun _ => 0) 1 (erkCoeffs 120) : ErkState ℝ 1).sol.bump
  rw [← attemptAt] at e
  have h0 : (erkInit c63F 0 (fun _ => 0) 1 (erkCoeffs 120) : ErkState ℝ 1).sol.rejectErr = 0 := by
    simp [erkInit, erkCoeffs, bogackiShampine32, evalFun]
  refine ⟨_, hn, ?_⟩
  have hr1 : (rejectStep (erkInit c63F 0 (fun _ => 0) 1 (erkCoeffs 120))
      (attemptAt c63F 1 c63Opts (erkCoeffs 120) 2 (erkInit c63F 0 (fun _ => 0) 1 (erkCoeffs 120)))
      ((attemptAt c63F 1 c63Opts (erkCoeffs 120) 2 (erkInit c63F 0 (fun _ => 0) 1 (erkCoeffs 120))).sol.line OutOpts.dflt
        (erkInit c63F 0 (fun _ => 0) 1 (erkCoeffs 120) : ErkState ℝ 1).t
        (attemptAt c63F 1 c63Opts (erkCoeffs 120) 2 (erkInit c63F 0 (fun _ => 0) 1 (erkCoeffs 120))).yn)).sol.rejectErr = 1 := by
    have hw : OutOpts.dflt.writeToFile = false := by decide
    simp [rejectStep, ErkOutput.line, hw, e, ErkOutput.bump, hrej, h0]
  obtain ⟨k1, -, k3, -⟩ := C21_reject_keeps_state hn (by rw [hr1, h0]; decide)
  obtain ⟨-, k4⟩ := C21_retry_smaller (by rw [i2]; exact one_pos) hn (by rw [hr1, h0]; decide)
  refine ⟨hr1, by rw [k1, i1], by rw [k3, i3], ?_⟩
  rw [i1, i2] at k4
  norm_num at k4 ⊢
  exact k4

/-- `C63_only_rejections_partial` on the same run: after ten passes at least nine attempts have been rejected -/
example : ∃ s : ErkState ℝ 1, 9 ≤ (s.sol.rejectErr : ℤ) ∧
    Reach (erkBody true c63F 1 c63Opts OutOpts.dflt (erkCoeffs 120) 2) (erkInit c63F 0 (fun _ => 0) 1 (erkCoeffs 120)) s := by
  have h := C63_diverges true 10
  have ho : effOpts c63Opts (erkCoeffs 120 : SolverCoeffs ℝ) = c63Opts := by
    simp [effOpts, c63Opts, erkCoeffs, bogackiShampine32]
  have hmo : minOrder (erkCoeffs 120 : SolverCoeffs ℝ) = some 2 := by
    simp [erkCoeffs, minOrder, bogackiShampine32]
  rw [odeint_eq_guts (by decide), ho] at h
  obtain ⟨mo, s, h1, h2, h3⟩ := C63_only_rejections_partial (by norm_num [c63Opts]) h
  rw [hmo] at h1
  cases h1
  rw [clipDt_real] at h2
  norm_num at h2
  refine ⟨s, ?_, h2⟩
  norm_num [c63Opts] at h3
  omega

/-- **C63 is false**: rejected attempts are not counted towards `max_steps`. -/
theorem C63_refuted : ¬ C63_claim := by
  intro h
  obtain ⟨fuel, hf⟩ := h 1 false c63F 0 1 (fun _ => 0) c63Opts OutOpts.dflt 120 1 one_pos one_pos
    (by norm_num [c63Opts]) (by norm_num [c63Opts]) (fun h => by revert h; decide)
  exact hf (C63_diverges false fuel)

end Verif
