import Verif.Prop.ErkSens
import Verif.Prop.TestEq

/-!
# C136: EULER keeps concentrations non-negative if the steps are short enough
-/

set_option autoImplicit false

namespace Verif
open Spec Set TestEq

section
variable {n : ℕ} {nd : Bool} {f : ℝ → Vec ℝ n → Vec ℝ n} {t0 t1 : ℝ} {y0 : Vec ℝ n} {o : ErkOpts ℝ} {oo : OutOpts} {dt : ℝ} {fuel : ℕ} {out : ErkOutput ℝ n}

/-- **C136.**  `w·f = 0`, and on the states with non-negative components and the initial value of `w·y` every component is consumed at a rate of at most
`lam` times itself.  Then a run of EULER from a non-negative state with steps at most `H`, `lam H ≤ 1`, records only non-negative states with the initial
value of `w·y`, for any number of steps. -/
theorem C136_positive {w : Fin n → ℝ} {lam H : ℝ} (h : erkOdeint nd f t0 t1 y0 o oo 100 dt fuel = some (.ret out))
    (hpos : nd = false ∨ (0 < dt ∧ t0 < t1)) (hw : ∀ t y, ∑ k, w k * f t y k = 0) (hlam : lam * H ≤ 1) (hlam0 : 0 ≤ lam)
    (hrate : ∀ t y, (∀ k, 0 ≤ y k) → ∑ k, w k * y k = ∑ k, w k * y0 k → ∀ k, -(lam * y k) ≤ f t y k) (hy0 : ∀ k, 0 ≤ y0 k)
    (hstep : ∀ (i : ℕ) (t t' : ℝ), out.tVals[i]? = some t → out.tVals[i + 1]? = some t' → t' - t ≤ H) :
    ∀ y ∈ out.yVals, (∀ k, 0 ≤ y k) ∧ ∑ k, w k * y k = ∑ k, w k * y0 k := by
  have hinv := C24_linear_invariant h hpos hw
  have key : ∀ (i : ℕ) (y : Vec ℝ n), out.yVals[i]? = some y → ∀ k, 0 ≤ y k := by
    intro i
    induction i with
    | zero =>
      intro y hy
      have e1 := (C10_odeint h).2.2.2.2.2
      rw [List.head?_eq_getElem?, hy] at e1
      cases e1
      exact hy0
    | succ i ih =>
      intro y' hy' k
      have hlen := (C10_odeint h).1
      obtain ⟨hi, -⟩ := List.getElem?_eq_some_iff.mp hy'
      have ht : out.tVals[i]? = some (out.tVals[i]'(by omega)) := List.getElem?_eq_getElem _
      have ht' : out.tVals[i + 1]? = some (out.tVals[i + 1]'(by omega)) := List.getElem?_eq_getElem _
      generalize out.tVals[i]'(by omega) = t at ht
      generalize out.tVals[i + 1]'(by omega) = t' at ht'
      obtain ⟨y, y2, K, a1, a2, -, a3⟩ := C12_odeint h hpos ht ht'
      rw [hy'] at a2
      cases a2
      have hy := ih y a1
      have hr := hrate t y hy (hinv y (List.mem_of_getElem? a1)) k
      have hlt := times_step h hpos ht ht'
      have hH := hstep i t t' ht ht'
      rw [euler_formula a3]
      have h1 : (t' - t) * (-(lam * y k)) ≤ (t' - t) * f t y k := mul_le_mul_of_nonneg_left hr (by linarith)
      have h2 : lam * (t' - t) ≤ 1 := (mul_le_mul_of_nonneg_left hH hlam0).trans hlam
      have h3 : lam * (t' - t) * y k ≤ 1 * y k := mul_le_mul_of_nonneg_right h2 (hy k)
      change 0 ≤ y k + (t' - t) * f t y k
      linarith
  intro y hy
  obtain ⟨i, hi⟩ := List.mem_iff_getElem?.mp hy
  exact ⟨key i y hi, hinv y hy⟩

/-- **C136, whole runs.**  With the step `dt`, `lam dt ≤ 1`, the run returns with SUCCESS at `t1`. -/
theorem C136_run {w : Fin n → ℝ} {lam : ℝ} (hs : StreamOK oo) (hdt : 0 < dt) (h01 : t0 < t1) (hms : o.maxSteps < 0)
    (hw : ∀ t y, ∑ k, w k * f t y k = 0) (hlam : lam * dt ≤ 1) (hlam0 : 0 ≤ lam)
    (hrate : ∀ t y, (∀ k, 0 ≤ y k) → ∑ k, w k * y k = ∑ k, w k * y0 k → ∀ k, -(lam * y k) ≤ f t y k) (hy0 : ∀ k, 0 ≤ y0 k) :
    ∃ fuel out, erkOdeint nd f t0 t1 y0 o oo 100 dt fuel = some (.ret out) ∧ out.status = 0 ∧ out.tVals.getLast? = some t1 ∧
      ∀ y ∈ out.yVals, (∀ k, 0 ≤ y k) ∧ ∑ k, w k * y k = ∑ k, w k * y0 k := by
  obtain ⟨fuel, out, h1, h2, h3⟩ := C19_fixed_grid (nd := nd) (f := f) (y0 := y0) (m := 100) (by decide) hs (Or.inr rfl) hdt h01 (Or.inl hms)
  exact ⟨fuel, out, h1, h2, by rw [h3]; simp, C136_positive h1 (Or.inr ⟨hdt, h01⟩) hw hlam hlam0 hrate hy0 fun j s s' hs1 hs2 => erk_grid_step hdt h3 hs1 hs2⟩

end

section
variable {nd : Bool} {t0 t1 : ℝ} {o : ErkOpts ℝ} {oo : OutOpts} {dt : ℝ}

/-- **C136, the Robertson problem.**  `S` is the total mass.  It suffices that `0.04 dt ≤ 1` and `3·10^7 S dt ≤ 1`. -/
theorem C136_rober {y0 : Vec ℝ 3} {S : ℝ} (hs : StreamOK oo) (hdt : 0 < dt) (h01 : t0 < t1) (hms : o.maxSteps < 0) (hS : y0 0 + y0 1 + y0 2 = S)
    (h1 : 4 / 100 * dt ≤ 1) (h2 : 3 * 10 ^ 7 * S * dt ≤ 1) (hy0 : ∀ k, 0 ≤ y0 k) :
    ∃ fuel out, erkOdeint nd (rober (F := ℝ)).fn t0 t1 y0 o oo 100 dt fuel = some (.ret out) ∧ out.status = 0 ∧ out.tVals.getLast? = some t1 ∧
      ∀ y ∈ out.yVals, (∀ k, 0 ≤ y k) ∧ y 0 + y 1 + y 2 = S := by
  have hS0 : 0 ≤ S := by have := hy0 0; have := hy0 1; have := hy0 2; linarith
  obtain ⟨fuel, out, r1, r2, r3, r4⟩ := C136_run (nd := nd) (f := (rober (F := ℝ)).fn) (y0 := y0) (w := ![1, 1, 1]) (lam := max (4 / 100) (3 * 10 ^ 7 * S)) hs hdt h01 hms
    (C57_orthogonal MassWeights.rober) (by rcases max_cases (4 / 100 : ℝ) (3 * 10 ^ 7 * S) with ⟨e, -⟩ | ⟨e, -⟩ <;> rw [e] <;> assumption)
    (le_max_of_le_left (by norm_num)) (by
      intro t y hy hm
      simp only [Fin.sum_univ_three, Matrix.cons_val_zero, Matrix.cons_val_one, Matrix.cons_val_two, Matrix.tail_cons, Matrix.head_cons, one_mul] at hm
      rw [hS] at hm
      have m1 := le_max_left (4 / 100 : ℝ) (3 * 10 ^ 7 * S)
      have m2 := le_max_right (4 / 100 : ℝ) (3 * 10 ^ 7 * S)
      generalize max (4 / 100 : ℝ) (3 * 10 ^ 7 * S) = l at m1 m2
      have y0' := hy 0
      have y1' := hy 1
      have y2' := hy 2
      intro k
      fin_cases k
      · have a1 := mul_le_mul_of_nonneg_right m1 y0'
        have a2 : 0 ≤ 10 ^ 4 * (y 1 * y 2) := by positivity
        simp [rober, lit]
        linarith
      · have a1 := mul_le_mul_of_nonneg_right m2 y1'
        have a2 : 0 ≤ y 1 * y 2 := by positivity
        have a3 : 0 ≤ y 1 * y 0 := by positivity
        rw [← hm] at a1
        simp [rober, lit]
        linarith
      · have a2 : 0 ≤ y 1 * y 1 := by positivity
        have a3 : 0 ≤ l * y 2 := mul_nonneg (by linarith) y2'
        simp [rober, lit]
        linarith) hy0
  refine ⟨fuel, out, r1, r2, r3, fun y hy => ⟨(r4 y hy).1, ?_⟩⟩
  have := (r4 y hy).2
  simp only [Fin.sum_univ_three, Matrix.cons_val_zero, Matrix.cons_val_one, Matrix.cons_val_two, Matrix.tail_cons, Matrix.head_cons, one_mul] at this
  rw [this, hS]

/-- **C136, the dimer equation.**  `S = y_0 + 2 y_1` is the total mass.  It suffices that `2 rate S dt ≤ 1` and `dt ≤ rate`. -/
theorem C136_dimer {y0 : Vec ℝ 2} {rate S : ℝ} (hs : StreamOK oo) (hdt : 0 < dt) (h01 : t0 < t1) (hms : o.maxSteps < 0) (hr : 0 < rate)
    (hS : y0 0 + 2 * y0 1 = S) (h1 : 2 * rate * S * dt ≤ 1) (h2 : dt ≤ rate) (hy0 : ∀ k, 0 ≤ y0 k) :
    ∃ fuel out, erkOdeint nd (dimer rate).fn t0 t1 y0 o oo 100 dt fuel = some (.ret out) ∧ out.status = 0 ∧ out.tVals.getLast? = some t1 ∧
      ∀ y ∈ out.yVals, (∀ k, 0 ≤ y k) ∧ y 0 + 2 * y 1 = S := by
  have hS0 : 0 ≤ S := by have := hy0 0; have := hy0 1; linarith
  have h2' : 1 / rate * dt ≤ 1 := by rw [one_div_mul_eq_div, div_le_one hr]; exact h2
  obtain ⟨fuel, out, r1, r2, r3, r4⟩ := C136_run (nd := nd) (f := (dimer rate).fn) (y0 := y0) (w := ![1, 2]) (lam := max (2 * rate * S) (1 / rate)) hs hdt h01 hms
    (C57_orthogonal (MassWeights.dimer rate)) (by rcases max_cases (2 * rate * S) (1 / rate) with ⟨e, -⟩ | ⟨e, -⟩ <;> rw [e] <;> assumption)
    (le_max_of_le_left (by positivity)) (by
      intro t y hy hm
      simp only [Fin.sum_univ_two, Matrix.cons_val_zero, Matrix.cons_val_one, one_mul] at hm
      rw [hS] at hm
      have m1 := le_max_left (2 * rate * S) (1 / rate)
      have m2 := le_max_right (2 * rate * S) (1 / rate)
      generalize max (2 * rate * S) (1 / rate) = l at m1 m2
      have y0' := hy 0
      have y1' := hy 1
      have i0 : 0 ≤ 1 / rate := by positivity
      intro k
      fin_cases k
      · have a1 := mul_le_mul_of_nonneg_right m1 y0'
        have a2 : 0 ≤ rate * (y 0 * y 1) := by positivity
        have a3 : 0 ≤ 1 / rate * y 1 := by positivity
        rw [← hm] at a1
        change -(l * y 0) ≤ (-((2 : ℚ) : ℝ)) * rate * y 0 * y 0 + ((2 : ℚ) : ℝ) * (((1 : ℚ) : ℝ) / rate) * y 1
        push_cast
        linarith
      · have a1 := mul_le_mul_of_nonneg_right m2 y1'
        have a2 : 0 ≤ rate * (y 0 * y 0) := by positivity
        change -(l * y 1) ≤ rate * y 0 * y 0 - ((1 : ℚ) : ℝ) / rate * y 1
        push_cast
        linarith) hy0
  refine ⟨fuel, out, r1, r2, r3, fun y hy => ⟨(r4 y hy).1, ?_⟩⟩
  have := (r4 y hy).2
  simp only [Fin.sum_univ_two, Matrix.cons_val_zero, Matrix.cons_val_one, one_mul] at this
  rw [this, hS]

/-- **C136, `kinetic_4`.**  `S = y_0 + 2 y_1 + 3 y_2 + 4 y_3` is the total mass.  It suffices that `2 S dt`, `(S + b2) dt`, `(S + b3) dt` and `b4 dt` are at most 1. -/
theorem C136_kinetic4 {y0 : Vec ℝ 4} {b2 b3 b4 S : ℝ} (hs : StreamOK oo) (hdt : 0 < dt) (h01 : t0 < t1) (hms : o.maxSteps < 0) (hb2 : 0 ≤ b2) (hb3 : 0 ≤ b3)
    (hb4 : 0 ≤ b4) (hS : y0 0 + 2 * y0 1 + 3 * y0 2 + 4 * y0 3 = S) (h1 : 2 * S * dt ≤ 1) (h2 : (S + b2) * dt ≤ 1) (h3 : (S + b3) * dt ≤ 1) (h4 : b4 * dt ≤ 1)
    (hy0 : ∀ k, 0 ≤ y0 k) :
    ∃ fuel out, erkOdeint nd (kinetic4 b2 b3 b4).fn t0 t1 y0 o oo 100 dt fuel = some (.ret out) ∧ out.status = 0 ∧ out.tVals.getLast? = some t1 ∧
      ∀ y ∈ out.yVals, (∀ k, 0 ≤ y k) ∧ y 0 + 2 * y 1 + 3 * y 2 + 4 * y 3 = S := by
  have hS0 : 0 ≤ S := by have := hy0 0; have := hy0 1; have := hy0 2; have := hy0 3; linarith
  obtain ⟨fuel, out, r1, r2, r3, r4⟩ := C136_run (nd := nd) (f := (kinetic4 b2 b3 b4).fn) (y0 := y0) (w := ![1, 2, 3, 4]) (lam := 1 / dt) hs hdt h01 hms
    (C57_orthogonal (MassWeights.kinetic4 b2 b3 b4)) (by rw [one_div_mul_cancel hdt.ne']) (by positivity) (by
      intro t y hy hm
      simp only [Fin.sum_univ_four, Matrix.cons_val_zero, Matrix.cons_val_one, Matrix.cons_val, one_mul] at hm
      rw [hS] at hm
      rw [← le_div_iff₀ hdt] at h1 h2 h3 h4
      generalize 1 / dt = l at h1 h2 h3 h4
      have y0' := hy 0
      have y1' := hy 1
      have y2' := hy 2
      have y3' := hy 3
      have p1 : 0 ≤ y 0 * y 1 := by positivity
      have p2 : 0 ≤ y 0 * y 2 := by positivity
      have p3 : 0 ≤ y 0 * y 0 := by positivity
      have p4 : 0 ≤ y 0 * y 3 := by positivity
      have p5 : 0 ≤ y 1 * y 1 := by positivity
      have p6 : 0 ≤ y 1 * y 2 := by positivity
      have p7 : 0 ≤ y 1 * y 3 := by positivity
      have p8 : 0 ≤ y 2 * y 2 := by positivity
      have p9 : 0 ≤ y 2 * y 3 := by positivity
      have c1 : 0 ≤ b2 * y 1 := by positivity
      have c2 : 0 ≤ b3 * y 2 := by positivity
      have c3 : 0 ≤ b4 * y 3 := by positivity
      rw [← hm] at h1 h2 h3
      intro k
      fin_cases k
      · have a1 := mul_le_mul_of_nonneg_right h1 y0'
        change -(l * y 0) ≤ (-((2 : ℚ) : ℝ)) * y 0 * y 0 - y 0 * (y 1 + y 2) + (((2 : ℚ) : ℝ) * b2 * y 1 + b3 * y 2 + b4 * y 3)
        push_cast
        linarith
      · have a1 := mul_le_mul_of_nonneg_right h2 y1'
        change -(l * y 1) ≤ y 0 * y 0 - y 0 * y 1 + b3 * y 2 - b2 * y 1
        linarith
      · have a1 := mul_le_mul_of_nonneg_right h3 y2'
        change -(l * y 2) ≤ y 0 * y 1 - y 0 * y 2 + b4 * y 3 - b3 * y 2
        linarith
      · have a1 := mul_le_mul_of_nonneg_right h4 y3'
        change -(l * y 3) ≤ y 0 * y 2 - b4 * y 3
        linarith) hy0
  refine ⟨fuel, out, r1, r2, r3, fun y hy => ⟨(r4 y hy).1, ?_⟩⟩
  have := (r4 y hy).2
  simp only [Fin.sum_univ_four, Matrix.cons_val_zero, Matrix.cons_val_one, Matrix.cons_val, one_mul] at this
  rw [this, hS]

/-- **C136, longer steps.**  With `dt = 1/10` the second step for the Robertson problem from `(1, 0, 0)` ends at a state with `y_1 < -47`. -/
theorem C136_negative : ∃ (fuel : ℕ) (out : ErkOutput ℝ 3) (y : Vec ℝ 3), erkOdeint nd (rober (F := ℝ)).fn 0 (1 / 5) ![1, 0, 0]
    { adaptive := false, relTol := 1, absTol := 1, maxDt := 0, maxSteps := -1 } OutOpts.dflt 100 (1 / 10) fuel = some (.ret out) ∧ out.status = 0 ∧
    out.yVals[2]? = some y ∧ y 1 < -47 := by
  obtain ⟨fuel, out, h1, h2, h3⟩ := C19_fixed_grid (n := 3) (nd := nd) (f := (rober (F := ℝ)).fn) (t0 := 0) (t1 := 1 / 5) (y0 := ![1, 0, 0])
    (o := { adaptive := false, relTol := 1, absTol := 1, maxDt := 0, maxSteps := -1 }) (oo := OutOpts.dflt) (dt := 1 / 10) (m := 100)
    (by decide) (fun h => by revert h; decide) (Or.inl rfl) (by norm_num) (by norm_num) (Or.inl (by norm_num))
  have hc : ⌈((1 : ℝ) / 5 - 0) / (1 / 10)⌉₊ = 2 := by rw [Nat.ceil_eq_iff (by norm_num)]; norm_num
  rw [hc] at h3
  have hpos : nd = false ∨ ((0 : ℝ) < 1 / 10 ∧ (0 : ℝ) < 1 / 5) := Or.inr ⟨by norm_num, by norm_num⟩
  have t0' : out.tVals[0]? = some 0 := by rw [h3]; simp [List.range_succ]
  have t1' : out.tVals[1]? = some (1 / 10) := by rw [h3]; simp [List.range_succ]
  have t2' : out.tVals[2]? = some (1 / 5) := by rw [h3]; simp [List.range_succ]
  obtain ⟨y, z, K, a1, a2, -, a3⟩ := C12_odeint h1 hpos t0' t1'
  obtain ⟨z', x, K', b1, b2, -, b3⟩ := C12_odeint h1 hpos t1' t2'
  have e1 := (C10_odeint h1).2.2.2.2.2
  rw [List.head?_eq_getElem?, a1] at e1
  cases e1
  rw [a2] at b1
  cases b1
  have q1 := euler_formula a3
  have q2 := euler_formula b3
  refine ⟨fuel, out, x, h1, h2, b2, ?_⟩
  have z0 : z 0 = 996 / 1000 := by rw [q1]; norm_num [rober, lit]
  have z1 : z 1 = 4 / 1000 := by rw [q1]; norm_num [rober, lit]
  have z2 : z 2 = 0 := by rw [q1]; simp [rober, lit]
  rw [q2]
  simp only [rober, lit, Pi.add_apply, Pi.smul_apply, smul_eq_mul, Matrix.cons_val_one, Matrix.cons_val_zero, z0, z1, z2]
  norm_num

end

/-! ### concrete cases -/

/-- the Robertson problem with the step `2^-25` -/
example : ∃ fuel out, erkOdeint true (rober (F := ℝ)).fn 0 1 ![1, 0, 0] { adaptive := true, relTol := 1, absTol := 1, maxDt := 0, maxSteps := -1 } OutOpts.dflt 100
      (1 / 2 ^ 25) fuel = some (.ret out) ∧ out.status = 0 ∧ out.tVals.getLast? = some 1 ∧ ∀ y ∈ out.yVals, (∀ k, 0 ≤ y k) ∧ y 0 + y 1 + y 2 = 1 :=
  C136_rober (fun h => by revert h; decide) (by norm_num) one_pos (by norm_num) (by simp) (by norm_num) (by norm_num) (fun k => by fin_cases k <;> simp)

/-- the dimer equation with rate 2 and the step `1/10` -/
example : ∃ fuel out, erkOdeint true (dimer (2 : ℝ)).fn 0 1 ![1, 1 / 4] { adaptive := true, relTol := 1, absTol := 1, maxDt := 0, maxSteps := -1 } OutOpts.dflt 100
      (1 / 10) fuel = some (.ret out) ∧ out.status = 0 ∧ out.tVals.getLast? = some 1 ∧ ∀ y ∈ out.yVals, (∀ k, 0 ≤ y k) ∧ y 0 + 2 * y 1 = 3 / 2 :=
  C136_dimer (fun h => by revert h; decide) (by norm_num) one_pos (by norm_num) (by norm_num) (by norm_num) (by norm_num) (by norm_num)
    (fun k => by fin_cases k <;> norm_num)

/-- `kinetic_4` with rates 1, 2, 3 and the step `1/100` -/
example : ∃ fuel out, erkOdeint true (kinetic4 (1 : ℝ) 2 3).fn 0 1 ![1, 1, 1, 1] { adaptive := true, relTol := 1, absTol := 1, maxDt := 0, maxSteps := -1 } OutOpts.dflt 100
      (1 / 100) fuel = some (.ret out) ∧ out.status = 0 ∧ out.tVals.getLast? = some 1 ∧
      ∀ y ∈ out.yVals, (∀ k, 0 ≤ y k) ∧ y 0 + 2 * y 1 + 3 * y 2 + 4 * y 3 = 10 :=
  C136_kinetic4 (fun h => by revert h; decide) (by norm_num) one_pos (by norm_num) (by norm_num) (by norm_num) (by norm_num) (by simp; norm_num) (by norm_num)
    (by norm_num) (by norm_num) (by norm_num) (fun k => by fin_cases k <;> norm_num)

end Verif
