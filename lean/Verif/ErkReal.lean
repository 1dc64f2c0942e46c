import Verif.ErkLemmas
import Verif.Spec.RK

/-!
# Helper lemmas about the explicit integrator in exact arithmetic
-/

namespace Verif
open Spec

variable {n : ℕ}

theorem foldl_add_vec {ι : Type} (l : List ι) (g : ι → Fin n → ℝ) (y : Fin n → ℝ) :
    l.foldl (fun tmp j => fun k => tmp k + g j k) y = fun k => y k + (l.map (fun j => g j k)).sum := by
  induction l generalizing y with
  | nil => simp
  | cons a l ih =>
    rw [List.foldl_cons, ih]
    funext k
    simp [add_assoc]

theorem sum_map_range (m : ℕ) (g : ℕ → ℝ) :
    ((List.range m).map g).sum = ∑ j ∈ Finset.range m, g j := by
  induction m with
  | zero => simp
  | succ m ih => rw [List.range_succ, List.map_append, List.sum_append, ih, Finset.sum_range_succ]; simp

theorem stageArg_real (sc : SolverCoeffs ℝ) (dt : ℝ) (y : Vec ℝ n) (K : ℕ → Vec ℝ n) (i : ℕ) :
    stageArg sc dt y K i = fun k => y k + ∑ j ∈ Finset.range i, dt * sc.a i j * K j k := by
  unfold stageArg
  rw [foldl_add_vec (List.range i) (fun j k => dt * sc.a i j * K j k) y]
  funext k
  rw [sum_map_range]

theorem combine_real (sc : SolverCoeffs ℝ) (K : ℕ → Vec ℝ n) (w : ℕ → ℝ) (k : Fin n) :
    combine sc K w k = ∑ j ∈ Finset.range sc.ns, K j k * w j := by
  unfold combine
  rw [sumRange_real]

theorem errTot_real (o : ErkOpts ℝ) (y yn ee : Vec ℝ n) :
    errTot o y yn ee =
      ∑ i, (ee i / (o.absTol + o.relTol * max |y i| |yn i|)) ^ 2 := by
  unfold errTot
  have key : ∀ (l : List (Fin n)) (z : ℝ) (g : Fin n → ℝ),
      l.foldl (fun acc i => acc + g i) z = z + (l.map g).sum := by
    intro l
    induction l with
    | nil => simp
    | cons a l ih => intro z g; rw [List.foldl_cons, ih]; simp [add_assoc]
  have := key (List.finRange n) (lit 0) (fun i =>
    (ee i / (o.absTol + o.relTol * max |y i| |yn i|)) * (ee i / (o.absTol + o.relTol * max |y i| |yn i|)))
  simp only [cmax_real, sabs_real] at this ⊢
  rw [this, ← List.ofFn_eq_map, List.sum_ofFn]
  simp [sq]

theorem mp_pos : (0 : ℝ) < machinePrecision := by
  simp only [machinePrecision, lit_real]
  norm_num

theorem mp_lt_one : (machinePrecision : ℝ) < 1 := by
  simp only [machinePrecision, lit_real]
  norm_num

theorem errNorm_real (m : ℕ) (et : ℝ) :
    errNorm m et = max (Real.sqrt (et / m)) machinePrecision := by
  unfold errNorm
  simp only [ssqrt_real, lit_real, Rat.cast_natCast]
  by_cases h : Real.sqrt (et / m) < machinePrecision
  · rw [if_pos ((ltb_real _ _).mpr h), max_eq_right h.le]
  · rw [if_neg (fun hc => h ((ltb_real _ _).mp hc)), max_eq_left (not_lt.mp h)]

theorem errNorm_pos (m : ℕ) (et : ℝ) : 0 < errNorm m et := by
  rw [errNorm_real]; exact lt_max_of_lt_right mp_pos

theorem errNorm_wrms (o : ErkOpts ℝ) (y yn ee : Vec ℝ n) :
    errNorm n (errTot o y yn ee) = max (wrms o.absTol o.relTol y yn ee) machinePrecision := by
  rw [errNorm_real, errTot_real]
  unfold wrms
  congr 3
  ring

theorem newDt_real (o : ErkOpts ℝ) (mo : ℕ) (dt err : ℝ) :
    newDt o mo dt err =
      if 0 < o.maxDt then
        min o.maxDt (9 / 10 * dt * min 4 ((1 / err) ^ ((1 : ℝ) / (1 + mo))))
      else 9 / 10 * dt * min 4 ((1 / err) ^ ((1 : ℝ) / (1 + mo))) := by
  unfold newDt
  simp only [cmin_real, spow_real, lit_real, ltb_real, Rat.cast_one, Rat.cast_natCast,
    Rat.cast_zero, Rat.cast_ofNat]
  norm_num

theorem newDt_pos (o : ErkOpts ℝ) (mo : ℕ) {dt err : ℝ} (hdt : 0 < dt) (he : 0 < err) :
    0 < newDt o mo dt err := by
  have h1 : 0 < (1 / err) ^ ((1 : ℝ) / (1 + mo)) := Real.rpow_pos_of_pos (by positivity) _
  have h2 : 0 < 9 / 10 * dt * min 4 ((1 / err) ^ ((1 : ℝ) / (1 + mo))) := by
    have : 0 < min 4 ((1 / err) ^ ((1 : ℝ) / (1 + mo))) := lt_min (by norm_num) h1
    positivity
  rw [newDt_real]
  split_ifs with h
  · exact lt_min h h2
  · exact h2

/-- growth bound of the controller -/
theorem newDt_le (o : ErkOpts ℝ) (mo : ℕ) {dt err : ℝ} (hdt : 0 < dt) :
    newDt o mo dt err ≤ 18 / 5 * dt := by
  have h2 : 9 / 10 * dt * min 4 ((1 / err) ^ ((1 : ℝ) / (1 + mo))) ≤ 18 / 5 * dt := by
    have : min 4 ((1 / err) ^ ((1 : ℝ) / (1 + mo))) ≤ 4 := min_le_left _ _
    nlinarith
  rw [newDt_real]
  split_ifs with h
  · exact (min_le_right _ _).trans h2
  · exact h2

theorem newDt_le_maxDt (o : ErkOpts ℝ) (mo : ℕ) {dt err : ℝ} (h : 0 < o.maxDt) :
    newDt o mo dt err ≤ o.maxDt := by
  rw [newDt_real, if_pos h]; exact min_le_left _ _

/-- a too large error shrinks the step by at least the safety factor -/
theorem newDt_le_of_reject (o : ErkOpts ℝ) (mo : ℕ) {dt err : ℝ} (hdt : 0 < dt) (he : 1 ≤ err) :
    newDt o mo dt err ≤ 9 / 10 * dt := by
  have h1 : (1 / err) ^ ((1 : ℝ) / (1 + mo)) ≤ 1 := by
    apply Real.rpow_le_one
    · positivity
    · rw [div_le_one (by linarith)]; exact he
    · positivity
  have h2 : 9 / 10 * dt * min 4 ((1 / err) ^ ((1 : ℝ) / (1 + mo))) ≤ 9 / 10 * dt := by
    have : min 4 ((1 / err) ^ ((1 : ℝ) / (1 + mo))) ≤ 1 := (min_le_right _ _).trans h1
    nlinarith
  rw [newDt_real]
  split_ifs with h
  · exact (min_le_right _ _).trans h2
  · exact h2

theorem clipDt_real (t t1 dt : ℝ) : clipDt t t1 dt = min dt (t1 - t) := by
  unfold clipDt
  simp only [ltb_real]
  split_ifs with h
  · rw [min_eq_right (by linarith)]
  · rw [min_eq_left (by linarith)]

/-- `A` is strictly lower triangular. -/
def Explicit (sc : SolverCoeffs ℝ) : Prop := ∀ i j, i < sc.ns → j < sc.ns → i ≤ j → sc.a i j = 0

/-- The tableau really has the first-same-as-last structure. -/
structure FsalOK (sc : SolverCoeffs ℝ) : Prop where
  two : 2 ≤ sc.ns
  c0 : sc.cn 0 = 0
  cl : sc.cn (sc.ns - 1) = 1
  row : ∀ j, j < sc.ns → sc.a (sc.ns - 1) j = sc.bw j

theorem erkVerify_explicit {sc : SolverCoeffs ℝ} (h : erkVerify sc = true) :
    Explicit sc ∧ 0 < sc.ns ∧ sc.c.length = sc.ns := by
  unfold erkVerify at h
  simp only at h
  split_ifs at h with h1 h2
  push Not at h1
  refine ⟨?_, Nat.pos_of_ne_zero h2, h1.1.symm⟩
  intro i j hi hj hij
  simp only [List.all_eq_true, List.mem_range, eqb_real, lit_real, Rat.cast_zero,
    List.mem_range'_1] at h
  exact h i hi j ⟨hij, by unfold SolverCoeffs.ns at hj hi; omega⟩

/-- state invariant of the run: time and step size -/
structure TimeInv (t0 t1 : ℝ) (s : ErkState ℝ n) : Prop where
  lo : t0 ≤ s.t
  hi : s.t ≤ t1
  dt : 0 < s.dt

/-- state invariant for first-same-as-last methods: column 0 holds `f(t, y)` -/
def FsalInv (f : ℝ → Vec ℝ n → Vec ℝ n) (sc : SolverCoeffs ℝ) (s : ErkState ℝ n) : Prop :=
  sc.fsal = true → s.Ks 0 = f s.t s.y

section
variable {nd : Bool} {f : ℝ → Vec ℝ n → Vec ℝ n} {t0 t1 : ℝ} {o : ErkOpts ℝ} {oo : OutOpts}
  {sc : SolverCoeffs ℝ} {mo : ℕ}

/-- the step size used by the attempt at `s` -/
theorem clip_facts {s : ErkState ℝ n} (h : TimeInv t0 t1 s) (hlt : s.t < t1) :
    0 < clipDt s.t t1 s.dt ∧ s.t + clipDt s.t t1 s.dt ≤ t1 ∧ clipDt s.t t1 s.dt ≤ s.dt := by
  rw [clipDt_real]
  refine ⟨lt_min h.dt (by linarith), ?_, min_le_left _ _⟩
  have := min_le_right s.dt (t1 - s.t)
  linarith

theorem attempt_adaptive (had : o.adaptive = true) (s : ErkState ℝ n) :
    let a := attemptAt f t1 o sc mo s
    a.err = errNorm n a.errTot ∧ a.newDt = newDt o mo a.dt a.err ∧
      a.reject = leb 1 a.err ∧ a.errTot = errTot o s.y a.yn a.errEst ∧
      (a.errEst = fun k => a.dt * (combine sc a.Ks sc.bw2 k - combine sc a.Ks sc.bw k)) := by
  simp only [attemptAt, attempt, had, if_true, lit_real, Rat.cast_one, and_self]

theorem attempt_fixed (had : o.adaptive = false) (s : ErkState ℝ n) :
    let a := attemptAt f t1 o sc mo s
    a.err = s.err ∧ a.newDt = a.dt ∧ a.reject = false ∧ a.errEst = s.errEst := by
  simp [attemptAt, attempt, had]

theorem attempt_newDt_pos {s : ErkState ℝ n} (h : TimeInv t0 t1 s) (hlt : s.t < t1) :
    0 < (attemptAt f t1 o sc mo s).newDt := by
  have hdt : (attemptAt f t1 o sc mo s).dt = clipDt s.t t1 s.dt := by
    obtain ⟨L, -, -, -, e, -⟩ := attempt_sol f o sc mo s (clipDt s.t t1 s.dt) s.sol.bump
    exact e
  have hp := (clip_facts h hlt).1
  cases had : o.adaptive
  · obtain ⟨-, e2, -⟩ := attempt_fixed (f := f) (t1 := t1) (sc := sc) (mo := mo) had s
    rw [e2, hdt]; exact hp
  · obtain ⟨e1, e2, -⟩ := attempt_adaptive (f := f) (t1 := t1) (sc := sc) (mo := mo) had s
    rw [e2, e1, hdt]
    exact newDt_pos o mo hp (errNorm_pos _ _)

theorem attempt_dt (s : ErkState ℝ n) :
    (attemptAt f t1 o sc mo s).dt = clipDt s.t t1 s.dt := by
  obtain ⟨L, -, -, -, e, -⟩ := attempt_sol f o sc mo s (clipDt s.t t1 s.dt) s.sol.bump
  exact e

theorem timeInv_next {s s' : ErkState ℝ n} (h : TimeInv t0 t1 s)
    (hb : erkBody nd f t1 o oo sc mo s = .next s') : TimeInv t0 t1 s' := by
  have hc := bodyCase nd f t1 o oo sc mo s
  rw [hb] at hc
  cases hc with
  | accepted hl hm hb2 a hA hE hr =>
    have hl' : s.t < t1 := by simpa using hl
    have hcl := clip_facts h hl'
    have hdt := attempt_dt (f := f) (t1 := t1) (o := o) (sc := sc) (mo := mo) s
    have hnd := attempt_newDt_pos (f := f) (o := o) (sc := sc) (mo := mo) h hl'
    rw [← hA] at hdt hnd
    refine ⟨?_, ?_, hnd⟩
    · change t0 ≤ s.t + a.dt
      rw [hdt]; linarith [h.lo, hcl.1]
    · change s.t + a.dt ≤ t1
      rw [hdt]; exact hcl.2.1
  | rejected hl hm hb2 a hA hE had hr =>
    have hl' : s.t < t1 := by simpa using hl
    have hnd := attempt_newDt_pos (f := f) (o := o) (sc := sc) (mo := mo) h hl'
    rw [← hA] at hnd
    exact ⟨h.lo, h.hi, hnd⟩

theorem timeInv_init {y0 : Vec ℝ n} {dt : ℝ} (h01 : t0 ≤ t1) (hdt : 0 < dt) :
    TimeInv t0 t1 (erkInit f t0 y0 dt sc) := by
  unfold erkInit
  by_cases h : sc.fsal = true <;> simp only [h, if_true] <;> exact ⟨le_refl _, h01, hdt⟩

/-- all stages of an attempt satisfy their defining equation -/
theorem attempt_stages (hfs : sc.fsal = true → FsalOK sc) {s : ErkState ℝ n} (hF : FsalInv f sc s)
    (i : ℕ) (hi : i < sc.ns) :
    let a := attemptAt f t1 o sc mo s
    a.Ks i = f (s.t + sc.cn i * a.dt) (stageArg sc a.dt s.y a.Ks i) := by
  obtain ⟨L, -, -, -, e, hlo, hst, -⟩ := attempt_sol f o sc mo s (clipDt s.t t1 s.dt) s.sol.bump
  intro a
  have e' : a.dt = clipDt s.t t1 s.dt := e
  rw [e']
  by_cases hs : stageStart sc ≤ i
  · exact hst i hs hi
  · have hfsal : sc.fsal = true := by
      by_contra hc
      simp [stageStart, hc] at hs
    have hi0 : i = 0 := by simp [stageStart, hfsal] at hs; exact hs
    subst hi0
    have h1 : a.Ks 0 = s.Ks 0 := hlo 0 (by simp [stageStart, hfsal])
    rw [h1, hF hfsal, (hfs hfsal).c0]
    simp [stageArg]

theorem attempt_yn (s : ErkState ℝ n) :
    let a := attemptAt f t1 o sc mo s
    a.yn = fun k => s.y k + a.dt * combine sc a.Ks sc.bw k := by
  obtain ⟨L, -, -, -, e, -, -, hy, -⟩ := attempt_sol f o sc mo s (clipDt s.t t1 s.dt) s.sol.bump
  intro a
  have e' : a.dt = clipDt s.t t1 s.dt := e
  rw [e']
  exact hy

/-- the last stage of a first-same-as-last method is `f` at the new point -/
theorem attempt_fsal_last (hfs : sc.fsal = true → FsalOK sc) (hex : Explicit sc)
    {s : ErkState ℝ n} (hF : FsalInv f sc s) (hfsal : sc.fsal = true) :
    let a := attemptAt f t1 o sc mo s
    a.Ks (sc.ns - 1) = f (s.t + a.dt) a.yn := by
  intro a
  obtain ⟨two, c0, cl, row⟩ := hfs hfsal
  have h1 := attempt_stages (t1 := t1) (o := o) (mo := mo) hfs hF (sc.ns - 1) (by omega)
  have h2 := attempt_yn (f := f) (t1 := t1) (o := o) (sc := sc) (mo := mo) s
  change a.Ks (sc.ns - 1) = f (s.t + sc.cn (sc.ns - 1) * a.dt) (stageArg sc a.dt s.y a.Ks (sc.ns - 1)) at h1
  change a.yn = fun k => s.y k + a.dt * combine sc a.Ks sc.bw k at h2
  rw [h1, cl, one_mul]
  congr 1
  rw [h2, stageArg_real]
  funext k
  rw [combine_real, show sc.ns = (sc.ns - 1) + 1 by omega, Finset.sum_range_succ,
    show sc.ns - 1 + 1 - 1 = sc.ns - 1 by omega]
  have hb0 : sc.bw (sc.ns - 1) = 0 := by
    rw [← row (sc.ns - 1) (by omega)]
    exact hex _ _ (by omega) (by omega) (le_refl _)
  rw [hb0, mul_zero, add_zero, Finset.mul_sum]
  congr 1
  apply Finset.sum_congr rfl
  intro j hj
  rw [row j (by have := Finset.mem_range.mp hj; omega)]
  ring

theorem fsalInv_init {y0 : Vec ℝ n} {dt : ℝ} : FsalInv f sc (erkInit f t0 y0 dt sc) := by
  intro h
  simp [erkInit, h, evalFun]

theorem fsalInv_next (hfs : sc.fsal = true → FsalOK sc) (hex : Explicit sc) {s s' : ErkState ℝ n}
    (h : FsalInv f sc s) (hb : erkBody nd f t1 o oo sc mo s = .next s') : FsalInv f sc s' := by
  have hc := bodyCase nd f t1 o oo sc mo s
  rw [hb] at hc
  intro hfsal
  cases hc with
  | accepted hl hm hb2 a hA hE hr =>
    have := attempt_fsal_last (t1 := t1) (o := o) (mo := mo) hfs hex h hfsal
    simp only [accept, fsalHook, hfsal, if_true, Function.update_self]
    rw [hA]; exact this
  | rejected hl hm hb2 a hA hE had hr =>
    obtain ⟨L, -, -, -, e, hlo, -⟩ := attempt_sol f o sc mo s (clipDt s.t t1 s.dt) s.sol.bump
    simp only [rejectStep]
    rw [hA]
    exact (hlo 0 (by simp [stageStart, hfsal])).trans (h hfsal)

/-- An attempt is a textbook Runge–Kutta step. -/
theorem attempt_isRKStep (hfs : sc.fsal = true → FsalOK sc) (hex : Explicit sc)
    {s : ErkState ℝ n} (hF : FsalInv f sc s) :
    let a := attemptAt f t1 o sc mo s
    IsRKStep (fun i j : Fin sc.ns => sc.a i j) (fun i => sc.bw i) (fun i => sc.cn i) f s.t a.dt
      s.y a.yn (fun i => a.Ks i) := by
  intro a
  constructor
  · intro i
    have h1 := attempt_stages (t1 := t1) (o := o) (mo := mo) hfs hF i i.2
    change a.Ks i = f (s.t + sc.cn i * a.dt) (stageArg sc a.dt s.y a.Ks i) at h1
    beta_reduce
    rw [h1]
    congr 1
    rw [stageArg_real]
    funext k
    simp only [Pi.add_apply, Pi.smul_apply, Finset.sum_apply, smul_eq_mul]
    congr 1
    rw [Finset.mul_sum, Fin.sum_univ_eq_sum_range (fun j => a.dt * (sc.a i j * a.Ks j k)) sc.ns]
    have hsub : Finset.range (i : ℕ) ⊆ Finset.range sc.ns := by
      intro j hj
      rw [Finset.mem_range] at hj ⊢
      exact hj.trans i.2
    rw [← Finset.sum_subset hsub]
    · apply Finset.sum_congr rfl; intros; ring
    · intro j hj hj'
      rw [Finset.mem_range] at hj hj'
      rw [hex i j i.2 hj (by omega)]; ring
  · have h2 := attempt_yn (f := f) (t1 := t1) (o := o) (sc := sc) (mo := mo) s
    change a.yn = fun k => s.y k + a.dt * combine sc a.Ks sc.bw k at h2
    rw [h2]
    funext k
    simp only [Pi.add_apply, Pi.smul_apply, Finset.sum_apply, smul_eq_mul, combine_real]
    rw [Fin.sum_univ_eq_sum_range (fun j => sc.bw j * a.Ks j k) sc.ns]
    congr 2
    apply Finset.sum_congr rfl; intros; ring

end
end Verif
