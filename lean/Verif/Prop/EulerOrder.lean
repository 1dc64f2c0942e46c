import Verif.Prop.ErkSens

/-!
# Property C140: comparison of EULER runs
-/

set_option autoImplicit false

namespace Verif
open Spec

section
variable {n : ℕ} {nd : Bool} {f g : ℝ → Vec ℝ n → Vec ℝ n} {t0 t1 lam dt : ℝ} {y0 z0 : Vec ℝ n} {o : ErkOpts ℝ} {oo : OutOpts}

/-- **C140.**  `f ≤ g` and `g` is quasi-monotone with constant `lam`: raising `y` to `z` lowers component `k` of `g` by at most `lam (z_k - y_k)`.  Fixed-step
EULER runs for `f` from `y0` and for `g` from `z0`, `y0 ≤ z0`, with `lam dt ≤ 1` return with SUCCESS, record the same times, and every value of the first is
below that of the second, component by component. -/
theorem C140_comparison (hs : StreamOK oo) (hms : o.maxSteps < 0) (hdt : 0 < dt) (h01 : t0 < t1) (hlam : lam * dt ≤ 1) (hlam0 : 0 ≤ lam)
    (hfg : ∀ t y k, f t y k ≤ g t y k) (hg : ∀ t y z, (∀ k, y k ≤ z k) → ∀ k, g t y k ≤ g t z k + lam * (z k - y k)) (h0 : ∀ k, y0 k ≤ z0 k) :
    ∃ fuel fuel' out out', erkOdeint nd f t0 t1 y0 o oo 100 dt fuel = some (.ret out) ∧ erkOdeint nd g t0 t1 z0 o oo 100 dt fuel' = some (.ret out') ∧
      out.status = 0 ∧ out'.status = 0 ∧ out'.tVals = out.tVals ∧ out.tVals.getLast? = some t1 ∧
      ∀ (i : ℕ) (y z : Vec ℝ n), out.yVals[i]? = some y → out'.yVals[i]? = some z → ∀ k, y k ≤ z k := by
  obtain ⟨fuel, out, a1, a2, a3⟩ := C19_fixed_grid (nd := nd) (f := f) (y0 := y0) (m := 100) (o := o) (oo := oo) (by decide) hs (Or.inr rfl) hdt h01 (Or.inl hms)
  obtain ⟨fuel', out', b1, b2, b3⟩ := C19_fixed_grid (nd := nd) (f := g) (y0 := z0) (m := 100) (o := o) (oo := oo) (by decide) hs (Or.inr rfl) hdt h01
    (Or.inl hms)
  have hp : nd = false ∨ (0 < dt ∧ t0 < t1) := Or.inr ⟨hdt, h01⟩
  have hlen := (C10_odeint a1).1
  have htt : out'.tVals = out.tVals := by rw [a3, b3]
  refine ⟨fuel, fuel', out, out', a1, b1, a2, b2, htt, by rw [a3]; simp, fun i => ?_⟩
  induction i with
  | zero =>
    intro y z hy hz
    have e1 := (C10_odeint a1).2.2.2.2.2
    have e2 := (C10_odeint b1).2.2.2.2.2
    rw [List.head?_eq_getElem?] at e1 e2
    rw [hy] at e1
    rw [hz] at e2
    cases e1; cases e2
    exact h0
  | succ i ih =>
    intro y' z' hy hz k
    obtain ⟨hi, -⟩ := List.getElem?_eq_some_iff.mp hy
    have ht : out.tVals[i]? = some (out.tVals[i]'(by omega)) := List.getElem?_eq_getElem _
    have ht' : out.tVals[i + 1]? = some (out.tVals[i + 1]'(by omega)) := List.getElem?_eq_getElem _
    generalize out.tVals[i]'(by omega) = t at ht
    generalize out.tVals[i + 1]'(by omega) = t' at ht'
    obtain ⟨y, w, K, c1, c2, -, c4⟩ := C12_odeint a1 hp ht ht'
    obtain ⟨z, v, K', d1, d2, -, d4⟩ := C12_odeint b1 hp (by rw [htt]; exact ht) (by rw [htt]; exact ht')
    rw [hy] at c2
    rw [hz] at d2
    cases c2; cases d2
    have hle := ih y z c1 d1
    have hlt := times_step a1 hp ht ht'
    have hst := erk_grid_step hdt a3 ht ht'
    have e1 : (t' - t) * f t y k ≤ (t' - t) * (g t z k + lam * (z k - y k)) :=
      mul_le_mul_of_nonneg_left ((hfg t y k).trans (hg t y z hle k)) (by linarith)
    have e2 : lam * (t' - t) ≤ 1 := (mul_le_mul_of_nonneg_left hst hlam0).trans hlam
    have e3 : lam * (t' - t) * (z k - y k) ≤ 1 * (z k - y k) := mul_le_mul_of_nonneg_right e2 (by linarith [hle k])
    rw [euler_formula c4, euler_formula d4]
    change y k + (t' - t) * f t y k ≤ z k + (t' - t) * g t z k
    linarith

/-- **C140, bounds.**  Constant upper and lower solutions stay bounds: if `0 ≤ f t a` and `f t b ≤ 0`, `a ≤ y0 ≤ b`, all values stay between `a` and `b`. -/
theorem C140_bounds {a b : Vec ℝ n} (hs : StreamOK oo) (hms : o.maxSteps < 0) (hdt : 0 < dt) (h01 : t0 < t1) (hlam : lam * dt ≤ 1) (hlam0 : 0 ≤ lam)
    (hf : ∀ t y z, (∀ k, a k ≤ y k) → (∀ k, y k ≤ z k) → (∀ k, z k ≤ b k) → ∀ k, f t y k ≤ f t z k + lam * (z k - y k))
    (ha : ∀ t k, 0 ≤ f t a k) (hb : ∀ t k, f t b k ≤ 0) (h0 : ∀ k, a k ≤ y0 k ∧ y0 k ≤ b k) :
    ∃ fuel out, erkOdeint nd f t0 t1 y0 o oo 100 dt fuel = some (.ret out) ∧ out.status = 0 ∧ out.tVals.getLast? = some t1 ∧
      ∀ y ∈ out.yVals, ∀ k, a k ≤ y k ∧ y k ≤ b k := by
  obtain ⟨fuel, out, a1, a2, a3⟩ := C19_fixed_grid (nd := nd) (f := f) (y0 := y0) (m := 100) (o := o) (oo := oo) (by decide) hs (Or.inr rfl) hdt h01 (Or.inl hms)
  have hp : nd = false ∨ (0 < dt ∧ t0 < t1) := Or.inr ⟨hdt, h01⟩
  have hlen := (C10_odeint a1).1
  have key : ∀ (i : ℕ) (y : Vec ℝ n), out.yVals[i]? = some y → ∀ k, a k ≤ y k ∧ y k ≤ b k := by
    intro i
    induction i with
    | zero =>
      intro y hy
      have e1 := (C10_odeint a1).2.2.2.2.2
      rw [List.head?_eq_getElem?, hy] at e1
      cases e1
      exact h0
    | succ i ih =>
      intro y' hy k
      obtain ⟨hi, -⟩ := List.getElem?_eq_some_iff.mp hy
      have ht : out.tVals[i]? = some (out.tVals[i]'(by omega)) := List.getElem?_eq_getElem _
      have ht' : out.tVals[i + 1]? = some (out.tVals[i + 1]'(by omega)) := List.getElem?_eq_getElem _
      generalize out.tVals[i]'(by omega) = t at ht
      generalize out.tVals[i + 1]'(by omega) = t' at ht'
      obtain ⟨y, w, K, c1, c2, -, c4⟩ := C12_odeint a1 hp ht ht'
      rw [hy] at c2
      cases c2
      have hle := ih y c1
      have hab : ∀ k, a k ≤ b k := fun k => (hle k).1.trans (hle k).2
      have hlt := times_step a1 hp ht ht'
      have hst := erk_grid_step hdt a3 ht ht'
      have e2 : lam * (t' - t) ≤ 1 := (mul_le_mul_of_nonneg_left hst hlam0).trans hlam
      have f1 := hf t a y (fun _ => le_rfl) (fun k => (hle k).1) (fun k => (hle k).2) k
      have f2 := hf t y b (fun k => (hle k).1) (fun k => (hle k).2) (fun _ => le_rfl) k
      have g1 : (t' - t) * (-(lam * (y k - a k))) ≤ (t' - t) * f t y k := mul_le_mul_of_nonneg_left (by linarith [ha t k]) (by linarith)
      have g2 : (t' - t) * f t y k ≤ (t' - t) * (lam * (b k - y k)) := mul_le_mul_of_nonneg_left (by linarith [hb t k]) (by linarith)
      have i1 : lam * (t' - t) * (y k - a k) ≤ 1 * (y k - a k) := mul_le_mul_of_nonneg_right e2 (by linarith [(hle k).1])
      have i2 : lam * (t' - t) * (b k - y k) ≤ 1 * (b k - y k) := mul_le_mul_of_nonneg_right e2 (by linarith [(hle k).2])
      rw [euler_formula c4]
      change a k ≤ y k + (t' - t) * f t y k ∧ y k + (t' - t) * f t y k ≤ b k
      constructor <;> linarith
  refine ⟨fuel, out, a1, a2, by rw [a3]; simp, fun y hy => ?_⟩
  obtain ⟨i, hi⟩ := List.mem_iff_getElem?.mp hy
  exact key i y hi

end

/-- `C140_comparison`: decay with and without a source -/
example : ∃ fuel fuel' out out', erkOdeint (F := ℝ) (n := 1) true (fun _ y k => -2 * y k) 0 1 (fun _ => 1)
      { adaptive := false, relTol := 1, absTol := 1, maxDt := 0, maxSteps := -1 } OutOpts.dflt 100 (3 / 10) fuel = some (.ret out) ∧
    erkOdeint (F := ℝ) (n := 1) true (fun t y k => -2 * y k + t ^ 2) 0 1 (fun _ => 2)
      { adaptive := false, relTol := 1, absTol := 1, maxDt := 0, maxSteps := -1 } OutOpts.dflt 100 (3 / 10) fuel' = some (.ret out') ∧
    ∀ (i : ℕ) (y z : Vec ℝ 1), out.yVals[i]? = some y → out'.yVals[i]? = some z → ∀ k, y k ≤ z k := by
  obtain ⟨f1, f2, o1, o2, a1, a2, -, -, -, -, a7⟩ := C140_comparison (n := 1) (nd := true) (f := fun _ y k => -2 * y k) (g := fun t y k => -2 * y k + t ^ 2)
    (t0 := 0) (t1 := 1) (lam := 2) (dt := 3 / 10) (y0 := fun _ => 1) (z0 := fun _ => 2)
    (o := { adaptive := false, relTol := 1, absTol := 1, maxDt := 0, maxSteps := -1 }) (oo := OutOpts.dflt) (fun h => by revert h; decide)
    (by norm_num) (by norm_num) one_pos (by norm_num) (by norm_num) (fun t y k => by nlinarith [sq_nonneg t]) (fun t y z _ k => by linarith)
    (fun k => by norm_num)
  exact ⟨f1, f2, o1, o2, a1, a2, a7⟩

/-- `C140_bounds`: the logistic equation stays in `[0, 1]` -/
example : ∃ fuel out, erkOdeint (F := ℝ) (n := 1) true (fun _ y k => y k * (1 - y k)) 0 9 (fun _ => 1 / 10)
      { adaptive := false, relTol := 1, absTol := 1, maxDt := 0, maxSteps := -1 } OutOpts.dflt 100 (7 / 10) fuel = some (.ret out) ∧ out.status = 0 ∧
    ∀ y ∈ out.yVals, ∀ k, 0 ≤ y k ∧ y k ≤ 1 := by
  obtain ⟨f1, o1, a1, a2, -, a4⟩ := C140_bounds (n := 1) (nd := true) (f := fun _ y k => y k * (1 - y k)) (t0 := 0) (t1 := 9) (lam := 1) (dt := 7 / 10)
    (y0 := fun _ => 1 / 10) (a := fun _ => 0) (b := fun _ => 1)
    (o := { adaptive := false, relTol := 1, absTol := 1, maxDt := 0, maxSteps := -1 }) (oo := OutOpts.dflt) (fun h => by revert h; decide)
    (by norm_num) (by norm_num) (by norm_num) (by norm_num) zero_le_one
    (fun t y z h1 h2 h3 k => by nlinarith [h1 k, h2 k, h3 k, mul_nonneg (sub_nonneg.mpr (h2 k)) (sub_nonneg.mpr (h3 k)), mul_nonneg (sub_nonneg.mpr (h2 k)) (sub_nonneg.mpr ((h2 k).trans (h3 k)))])
    (fun t k => by norm_num) (fun t k => by norm_num) (fun k => by norm_num)
  exact ⟨f1, o1, a1, a2, a4⟩

end Verif
