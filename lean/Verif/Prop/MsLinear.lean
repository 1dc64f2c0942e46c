import Verif.Prop.Multistep
import Verif.Prop.TestEq

/-!
# C57 for the multistep integrators: linear invariants
-/

set_option linter.unusedSectionVars false

namespace Verif

variable {n : ℕ} {nd : Bool} {la : LinAlg ℝ} {fn : OdeFun ℝ n} {t0 t1 : ℝ} {y0 : Vec ℝ n} {order : ℤ} {dt : ℝ}
  {st0 : NewtonStatus ℝ} {fuelB fuel : ℕ} {out : MsOutput ℝ n} {w : Fin n → ℝ}

/-- a property of the values that the starting values have and that every step passes on holds for all values -/
theorem msRun_all {h : ℝ} {N : ℕ} {Q : List (ℝ × Vec ℝ n) → Vec ℝ n → Prop} {acc : List (ℝ × Vec ℝ n)}
    (r : MsRun h t0 t1 N Q acc) {P : Vec ℝ n → Prop}
    (hb : acc.take N = (List.range N).map (fun i => (gridPt h t0 i, y0))) (h0 : P y0)
    (hstep : ∀ a y, (∀ ty ∈ a, P ty.2) → Q a y → P y) : ∀ ty ∈ acc, P ty.2 := by
  have key : ∀ (i : ℕ) (ty : ℝ × Vec ℝ n), acc[i]? = some ty → P ty.2 := by
    intro i
    induction i using Nat.strong_induction_on with
    | _ i ih =>
      intro ty hty
      by_cases hi : i < N
      · have h1 : (acc.take N)[i]? = some ty := by rw [List.getElem?_take, if_pos hi, hty]
        rw [hb, List.getElem?_map, List.getElem?_range hi] at h1
        simp only [Option.map_some, Option.some.injEq] at h1
        rw [← h1]; exact h0
      · refine hstep _ _ ?_ (r.step i ty (by omega) hty)
        intro x hx
        obtain ⟨j, hj⟩ := List.mem_iff_getElem?.1 hx
        rw [List.getElem?_take] at hj
        by_cases hji : j < i
        · rw [if_pos hji] at hj; exact ih j hji x hj
        · rw [if_neg hji] at hj; cases hj
  intro ty hty
  obtain ⟨i, hi⟩ := List.mem_iff_getElem?.1 hty
  exact key i ty hi

theorem recent_mem {acc : List (ℝ × Vec ℝ n)} {k : ℕ} {v : ℕ → Vec ℝ n} (hv : Recent acc k v) {j : ℕ} (hj : j < k) :
    ∃ ty ∈ acc, ty.2 = v j := by
  have h1 := List.mem_of_getElem? (hv j hj)
  rw [List.mem_reverse, List.mem_map] at h1
  obtain ⟨a, ha, hb⟩ := h1
  exact ⟨a, ha, hb⟩

/-- **Linear invariants, `adams_bashforth`.**  If `w·f = 0` identically, `w·y` has its initial value in every recorded
sample of every returning run, whatever the order. -/
theorem C57_ab_linear (hf : ∀ t y, ∑ k, w k * fn.fn t y k = 0)
    (h : adamsBashforth nd la fn t0 t1 y0 order dt st0 fuelB fuel = some (.ret out)) :
    ∀ y ∈ out.yVals, ∑ k, w k * y k = ∑ k, w k * y0 k := by
  by_cases h5 : order ≤ 5
  · obtain ⟨ho, acc, t, y, hR, hboot, ht, hy, hs, hl, hend⟩ := ab_run h
    intro y hmem
    rw [hy, List.mem_map] at hmem
    obtain ⟨ty, hty, rfl⟩ := hmem
    refine msRun_all hR (P := fun y => ∑ k, w k * y k = ∑ k, w k * y0 k) hboot rfl ?_ ty hty
    intro a y ha hq
    obtain ⟨t, y1, v, hl1, -, rfl⟩ := hq h5
    have h1 := ha _ (List.mem_of_getLast? hl1)
    simp only at h1
    simp only [abComb_real ho h5]
    rw [← h1]
    simp only [mul_add, Finset.sum_add_distrib, add_eq_left, Finset.mul_sum]
    rw [Finset.sum_comm]
    refine Finset.sum_eq_zero fun j _ => ?_
    calc ∑ k, w k * (clipDt t0 t1 dt * (abC order j * fn.fn t (v j) k))
        = (clipDt t0 t1 dt * abC order j) * ∑ k, w k * fn.fn t (v j) k := by
          rw [Finset.mul_sum]; exact Finset.sum_congr rfl fun k _ => by ring
      _ = 0 := by rw [hf, mul_zero]
  · intro y hy
    rw [(C53_ab_large_order (by omega) h).2 y hy]

theorem bdfC_sum {order : ℤ} (h0 : 0 < order) (h6 : order ≤ 6) :
    ∑ j ∈ Finset.range order.toNat, (bdfC order j : ℝ) = -1 := by
  have : order = 1 ∨ order = 2 ∨ order = 3 ∨ order = 4 ∨ order = 5 ∨ order = 6 := by omega
  rcases this with rfl | rfl | rfl | rfl | rfl | rfl <;>
  · simp [Finset.sum_range_succ, bdfC, bdfRow, q, nq]
    try norm_num

theorem sum_split (w x g : Fin n → ℝ) (c : ℕ → ℝ) (v : ℕ → Fin n → ℝ) (K : Finset ℕ) (a : ℝ) :
    ∑ i, w i * (x i + ∑ j ∈ K, c j * v j i - a * g i) =
      ∑ i, w i * x i + ∑ j ∈ K, c j * ∑ i, w i * v j i - a * ∑ i, w i * g i := by
  have h1 : ∑ j ∈ K, c j * ∑ i, w i * v j i = ∑ i, w i * ∑ j ∈ K, c j * v j i := by
    simp only [Finset.mul_sum]
    rw [Finset.sum_comm]
    exact Finset.sum_congr rfl fun i _ => Finset.sum_congr rfl fun j _ => by ring
  rw [h1, Finset.mul_sum, ← Finset.sum_add_distrib, ← Finset.sum_sub_distrib]
  exact Finset.sum_congr rfl fun i _ => by ring

/-- what `arma::solve` returns for a Newton matrix `1 - s J(t, y)` solves the system -/
def SolvesNewton (la : LinAlg ℝ) (fn : OdeFun ℝ n) (s : ℝ) : Prop := ∀ t y r z,
  la.solve (fun p q => eye n p q - s * fn.jac t y p q) r = some z →
    (1 - s • Matrix.of (fn.jac t y)).mulVec z = r

theorem newtonMat_eq (s : ℝ) (J : Mat ℝ n) :
    Matrix.of (fun p q => eye n p q - s * J p q) = 1 - s • Matrix.of J := by
  ext p r
  simp [eye_real, Matrix.one_apply]

theorem solves_of_exact (hla : la.Exact) {s : ℝ} (hM : ∀ t y, IsUnit (1 - s • Matrix.of (fn.jac t y)).det) :
    SolvesNewton la fn s := by
  intro t y r z hz
  have hu := hM t y
  rw [← newtonMat_eq] at hu ⊢
  rw [hla.solve _ _ hu, Option.some.injEq] at hz
  rw [← hz, Matrix.mulVec_mulVec, Matrix.mul_nonsing_inv _ hu, Matrix.one_mulVec]

/-- exact linear algebra that refuses singular systems has the property for every equation -/
theorem solves_laReal (fn : OdeFun ℝ n) (s : ℝ) : SolvesNewton laReal fn s := by
  intro t y r z hz
  rw [← newtonMat_eq]
  unfold laReal at hz
  simp only at hz
  split_ifs at hz with hu
  rw [Option.some.injEq] at hz
  rw [← hz, Matrix.mulVec_mulVec, Matrix.mul_nonsing_inv _ hu, Matrix.one_mulVec]

/-- **Linear invariants, `bdf`.**  If `w·f = 0` and `w·J = 0` identically and what the linear solver returns for the
Newton matrices solves the system (as it does when they are invertible, `solves_of_exact`), `w·y` has its initial value
in every recorded sample, also in runs that end with a failed solve. -/
theorem C57_bdf_linear (hf : ∀ t y, ∑ k, w k * fn.fn t y k = 0)
    (hJ : ∀ t y l, ∑ k, w k * fn.jac t y k l = 0)
    (hM : SolvesNewton la fn (min dt (t1 - t0) * bdfW order))
    (h : bdf nd la fn t0 t1 y0 order dt st0 fuelB fuel = some (.ret out)) :
    ∀ y ∈ out.yVals, ∑ k, w k * y k = ∑ k, w k * y0 k := by
  by_cases hord : order ≤ 0 ∨ 6 < order
  · rw [C54_bad_order hord] at h
    simp only [Option.some.injEq, Outcome.ret.injEq] at h
    subst h
    simp
  · have h0 : 0 < order := by omega
    have h6 : order ≤ 6 := by omega
    obtain ⟨acc, t, y, hR, hboot, ht, hy, hl, hend⟩ := bdf_run h0 h6 h
    rw [clipDt_real] at *
    intro y hmem
    rw [hy, List.mem_map] at hmem
    obtain ⟨ty, hty, rfl⟩ := hmem
    refine msRun_all hR (P := fun y => ∑ k, w k * y k = ∑ k, w k * y0 k) hboot rfl ?_ ty hty
    intro a y ha hq
    obtain ⟨t, y1, v, st, st', hl1, hrec, hn, hconv⟩ := hq
    have h1 := ha _ (List.mem_of_getLast? hl1)
    simp only at h1
    have hv : ∀ j < order.toNat, ∑ k, w k * v j k = ∑ k, w k * y0 k := by
      intro j hj
      obtain ⟨x, hx, e⟩ := recent_mem hrec hj
      rw [← e]; exact ha x hx
    simp only [if_true] at hconv
    obtain ⟨xs, ds, e0, hupd, -, hok, -⟩ := C27_success (by simp) (by decide) hn
    obtain ⟨-, -, -, -, hxr, -⟩ := hok hconv
    have hall : ∀ k ≤ st'.iters, ∑ i, w i * xs k i = ∑ i, w i * y0 i := by
      intro k
      induction k with
      | zero => intro _; rw [e0, h1]
      | succ k ih =>
        intro hk
        have hih := ih (by omega)
        obtain ⟨z, S, -, -, hz, hd, hx⟩ := hupd k (by omega)
        have hd' : ds k = fun i => - z i := by
          rcases hd with hd | ⟨hd, -⟩
          · exact hd
          · simp [bdfNewton, NewtonOpts.dflt] at hd; linarith
        have hr : (0 < (bdfNewton : NewtonOpts ℝ).refreshJac) := by decide
        have hp : (bdfNewton : NewtonOpts ℝ).precondition = false := rfl
        have hls : (bdfNewton : NewtonOpts ℝ).limitStep = false := rfl
        rw [if_pos hr, hp] at hz
        simp only [Bool.false_eq_true, if_false] at hz
        rw [hls] at hx
        simp only [Bool.false_eq_true, if_false, lit_real, Rat.cast_one, one_mul] at hx
        have hz2 := hM _ _ _ _ hz
        rw [Matrix.sub_mulVec, Matrix.one_mulVec] at hz2
        have hwz : ∑ i, w i * z i = 0 := by
          have e1 : ∑ i, w i * (z - ((min dt (t1 - t0) * bdfW order) •
              Matrix.of (fn.jac (t + min dt (t1 - t0)) (xs k))).mulVec z) i = ∑ i, w i * z i := by
            simp only [Pi.sub_apply, mul_sub, Finset.sum_sub_distrib, sub_eq_self, Matrix.smul_mulVec, Pi.smul_apply,
              smul_eq_mul, Matrix.mulVec, dotProduct, Matrix.of_apply, Finset.mul_sum]
            rw [Finset.sum_comm]
            refine Finset.sum_eq_zero fun l _ => ?_
            calc ∑ i, w i * (min dt (t1 - t0) * bdfW order * (fn.jac (t + min dt (t1 - t0)) (xs k) i l * z l))
                = (min dt (t1 - t0) * bdfW order * z l) * ∑ i, w i * fn.jac (t + min dt (t1 - t0)) (xs k) i l := by
                  rw [Finset.mul_sum]; exact Finset.sum_congr rfl fun i _ => by ring
              _ = 0 := by rw [hJ, mul_zero]
          rw [hz2] at e1
          rw [← e1]
          simp only [bdfFun, linComb, foldl_linComb, lit_real, Rat.cast_zero, zero_add]
          have e2 : ∑ i, w i * (xs k i + ∑ j ∈ Finset.range order.toNat, bdfC order j * v j i -
              min dt (t1 - t0) * bdfW order * fn.fn (t + min dt (t1 - t0)) (xs k) i) =
              ∑ i, w i * xs k i + ∑ j ∈ Finset.range order.toNat, bdfC order j * ∑ i, w i * v j i -
              min dt (t1 - t0) * bdfW order * ∑ i, w i * fn.fn (t + min dt (t1 - t0)) (xs k) i := by
            exact sum_split _ _ _ _ _ _ _
          have e3 : ∑ j ∈ Finset.range order.toNat, bdfC order j * ∑ i, w i * v j i = - ∑ i, w i * y0 i := by
            have : ∀ j ∈ Finset.range order.toNat, bdfC order j * ∑ i, w i * v j i =
                bdfC order j * ∑ i, w i * y0 i := fun j hj => by rw [hv j (Finset.mem_range.1 hj)]
            rw [Finset.sum_congr rfl this, ← Finset.sum_mul, bdfC_sum h0 h6]
            ring
          rw [e2, hf, hih, e3]
          ring
        rw [hx, hd']
        simp only [mul_add, Finset.sum_add_distrib, mul_neg, Finset.sum_neg_distrib, hwz, neg_zero, add_zero, hih]
    rw [hxr]
    exact hall _ (le_refl _)

/-- **C57 (`adams_bashforth`).** -/
theorem C57_adams_bashforth (hw : MassWeights n fn w)
    (h : adamsBashforth nd la fn t0 t1 y0 order dt st0 fuelB fuel = some (.ret out)) :
    ∀ y ∈ out.yVals, ∑ k, w k * y k = ∑ k, w k * y0 k :=
  C57_ab_linear (fun t y => C57_orthogonal hw t y) h

/-- **C57 (`bdf`).** -/
theorem C57_bdf (hw : MassWeights n fn w)
    (hM : SolvesNewton la fn (min dt (t1 - t0) * bdfW order))
    (h : bdf nd la fn t0 t1 y0 order dt st0 fuelB fuel = some (.ret out)) :
    ∀ y ∈ out.yVals, ∑ k, w k * y k = ∑ k, w k * y0 k :=
  C57_bdf_linear (fun t y => C57_orthogonal hw t y) (fun t y l => C57_orthogonal_jac hw t y l) hM h

example : MassWeights 2 (TestEq.dimer (3 : ℝ)) ![1, 2] ∧ SolvesNewton laReal (TestEq.dimer (3 : ℝ)) (1 / 10) :=
  ⟨.dimer 3, solves_laReal _ _⟩

end Verif
