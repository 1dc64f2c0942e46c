import Verif.BdfStable

/-!
# C96: stability of `bdf` on contractive systems

Proved: the formulas of order 1 and 2 are stable on every contractive system, whatever its stiffness and the step size; those of order 3 to 6
are not, even on linear systems with constant coefficients (Dahlquist's second barrier).
-/

namespace Verif
set_option autoImplicit false
open Spec

/-- **C96 (claim).**  On a contractive linear system with an equilibrium the samples of `bdf` of the given order with step size `dt` stay
bounded, however far one integrates. -/
def C96_claim (order : ℤ) : Prop :=
  ∀ (n : ℕ) (la : LinAlg ℝ) (fn : OdeFun ℝ n) (t0 dt : ℝ) (y0 ystar : Vec ℝ n), la.Exact → IsAffine fn → Contractive fn.fn →
    (∀ t, fn.fn t ystar = 0) → 0 < dt → ∃ C : ℝ, ∀ nd t1 st0 fuelB fuel out, t0 < t1 →
      bdf nd la fn t0 t1 y0 order dt st0 fuelB fuel = some (.ret out) → ∀ y ∈ out.yVals, eucl (y - ystar) ≤ C

/-! ### linear systems: orders 1 and 2 -/

section linear
variable {n : ℕ} {fn : OdeFun ℝ n} {la : LinAlg ℝ} {nd nd' : Bool} {t0 t1 dt : ℝ} {y0 z0 ystar : Vec ℝ n} {order : ℤ}
  {st0 st1 : NewtonStatus ℝ} {fuelB fuel fuelB' fuel' : ℕ} {out out' : MsOutput ℝ n}

/-- linear systems with variable coefficients, with their Jacobi matrix -/
def IsLinear (fn : OdeFun ℝ n) : Prop :=
  ∃ (M : ℝ → Matrix (Fin n) (Fin n) ℝ) (g : ℝ → Vec ℝ n), (∀ t y, fn.fn t y = (M t).mulVec y + g t) ∧ ∀ t y i j, fn.jac t y i j = M t i j

theorem IsAffine.linear (h : IsAffine fn) : IsLinear fn := by
  obtain ⟨J, g, h1, h2⟩ := h
  exact ⟨fun _ => J, g, h1, h2⟩

/-- the Newton matrices of contractive systems are invertible -/
theorem contractive_unit {M : ℝ → Matrix (Fin n) (Fin n) ℝ} {g : ℝ → Vec ℝ n} (hfn : ∀ t y, fn.fn t y = (M t).mulVec y + g t)
    (hf : Contractive fn.fn) {s : ℝ} (hs : 0 ≤ s) (t : ℝ) : IsUnit (1 - s • M t).det := by
  rw [isUnit_iff_ne_zero]
  intro h0
  obtain ⟨v, hv, hMv⟩ := Matrix.exists_mulVec_eq_zero_iff.2 h0
  rw [Matrix.sub_mulVec, Matrix.one_mulVec, Matrix.smul_mulVec, sub_eq_zero] at hMv
  have h1 := hf t v 0
  have h2 : ∀ k, fn.fn t v k - fn.fn t 0 k = (M t).mulVec v k := fun k => by simp [hfn]
  simp only [h2, Pi.zero_apply, sub_zero] at h1
  have h3 : ∑ k, v k ^ 2 = s * ∑ k, (M t).mulVec v k * v k := by
    rw [Finset.mul_sum]
    refine Finset.sum_congr rfl fun k _ => ?_
    have := congrFun hMv k
    rw [Pi.smul_apply, smul_eq_mul] at this
    rw [← mul_assoc, ← this, sq]
  have h4 : ∑ k, v k ^ 2 = 0 := le_antisymm (by rw [h3]; exact mul_nonpos_of_nonneg_of_nonpos hs h1)
    (Finset.sum_nonneg fun _ _ => sq_nonneg _)
  rw [Finset.sum_eq_zero_iff_of_nonneg (fun _ _ => sq_nonneg _)] at h4
  exact hv (funext fun k => by simpa using h4 k (Finset.mem_univ k))

/-- on contractive linear systems the BDF equations are solved exactly, at every order -/
theorem linear_steps (h0 : 0 < order) (h6 : order ≤ 6) (hla : la.Exact) (hlin : IsLinear fn) (hf : Contractive fn.fn) (hdt : 0 < dt)
    (ht : t0 < t1) (h : bdf nd la fn t0 t1 y0 order dt st0 fuelB fuel = some (.ret out)) :
    ∃ y : ℕ → Vec ℝ n, (∀ (i : ℕ) y', out.yVals[i]? = some y' → y' = y i) ∧ (∀ i < order.toNat + 1, y i = y0) ∧
      ∀ i, order.toNat + 1 ≤ i → i < out.yVals.length →
        BdfStep fn order (min dt (t1 - t0)) (t0 + i * min dt (t1 - t0)) (fun j => y (i - 1 - j)) (y i) 0 := by
  obtain ⟨M, g, hfn, hJ⟩ := hlin
  have hh : 0 ≤ min dt (t1 - t0) * bdfW order :=
    mul_nonneg (le_min hdt.le (by linarith)) (bdfW_pos order h0 h6).le
  obtain ⟨y, h1, h2, h3⟩ := bdf_steps (P := fun ρ => ρ = 0) h0 h6 h (by
    intro t' v x y' st st' hN hc
    refine ⟨0, rfl, ?_⟩
    obtain ⟨y'', st'', g1, -, g3⟩ := bdfEq_affine (fn := fn) (order := order) (M := fun t => M t) (g := g) (h := min dt (t1 - t0)) (t' := t') hla
      (fun t y => by rw [hfn]; rfl) (fun t y => by funext i j; exact hJ t y i j) (contractive_unit hfn hf hh t') v x st
    rw [g1] at hN
    simp only [Option.some.injEq, Outcome.ret.injEq, Prod.mk.injEq] at hN
    rw [← hN.1]
    unfold BdfStep
    funext p
    simpa [Finset.sum_apply] using g3 p)
  exact ⟨y, h1, h2, fun i hi hlt => by obtain ⟨ρ, rfl, hs⟩ := h3 i hi hlt; exact hs⟩

/-- **C96, linear systems (partial: orders 1 and 2).**  Two runs of order 1 or 2 from `y0` and `z0` on a contractive linear system with variable
coefficients: at every step the distance of the samples is at most `√2` (order 1: once) that of the initial values, whatever the step
size and the stiffness. -/
theorem C96_linear_partial (ho : order = 1 ∨ order = 2) (hla : la.Exact) (hlin : IsLinear fn) (hf : Contractive fn.fn) (hdt : 0 < dt)
    (ht : t0 < t1) (hy : bdf nd la fn t0 t1 y0 order dt st0 fuelB fuel = some (.ret out))
    (hz : bdf nd' la fn t0 t1 z0 order dt st1 fuelB' fuel' = some (.ret out')) {i : ℕ} {y z : Vec ℝ n} (hyi : out.yVals[i]? = some y)
    (hzi : out'.yVals[i]? = some z) : eucl (y - z) ≤ (if order = 1 then 1 else Real.sqrt 2) * eucl (y0 - z0) := by
  have h0 : 0 < order := by omega
  have h6 : order ≤ 6 := by omega
  obtain ⟨ys, a1, a2, a3⟩ := linear_steps h0 h6 hla hlin hf hdt ht hy
  obtain ⟨zs, b1, b2, b3⟩ := linear_steps h0 h6 hla hlin hf hdt ht hz
  have hi1 := (List.getElem?_eq_some_iff.1 hyi).1
  have hi2 := (List.getElem?_eq_some_iff.1 hzi).1
  have := bdf_two ho (δ := 0) (N := min out.yVals.length out'.yVals.length) (t' := fun i => t0 + i * min dt (t1 - t0)) le_rfl
    (le_min hdt.le (by linarith)) hf a2 b2 (fun j hj hjN => ⟨0, 0, a3 j hj (by omega), b3 j hj (by omega), by rw [sub_zero, eucl_zero]⟩)
    i (by omega)
  rw [a1 i y hyi, b1 i z hzi]
  simpa using this

/-- a constant sequence at an equilibrium satisfies the formula -/
theorem equilibrium_step (h0 : 0 < order) (h6 : order ≤ 6) (heq : ∀ t, fn.fn t ystar = 0) (h t : ℝ) :
    BdfStep fn order h t (fun _ => ystar) ystar 0 := by
  unfold BdfStep
  rw [heq, smul_zero, zero_add, ← Finset.sum_smul, bdfC_sum h0 h6, neg_one_smul, add_neg_cancel]

/-- **C96, equilibria (partial: orders 1 and 2).**  The distance of every sample from an equilibrium is at most `√2` (order 1: once) that of
the initial value. -/
theorem C96_equilibrium_partial (ho : order = 1 ∨ order = 2) (hla : la.Exact) (hlin : IsLinear fn) (hf : Contractive fn.fn) (hdt : 0 < dt)
    (ht : t0 < t1) (heq : ∀ t, fn.fn t ystar = 0) (hy : bdf nd la fn t0 t1 y0 order dt st0 fuelB fuel = some (.ret out)) {y : Vec ℝ n}
    (hmem : y ∈ out.yVals) : eucl (y - ystar) ≤ (if order = 1 then 1 else Real.sqrt 2) * eucl (y0 - ystar) := by
  have h0 : 0 < order := by omega
  have h6 : order ≤ 6 := by omega
  obtain ⟨ys, a1, a2, a3⟩ := linear_steps h0 h6 hla hlin hf hdt ht hy
  obtain ⟨i, hi⟩ := List.mem_iff_getElem?.1 hmem
  have := bdf_two ho (z := fun _ => ystar) (δ := 0) (N := out.yVals.length) (t' := fun i => t0 + i * min dt (t1 - t0)) le_rfl
    (le_min hdt.le (by linarith)) hf a2 (fun _ _ => rfl)
    (fun j hj hjN => ⟨0, 0, a3 j hj hjN, equilibrium_step h0 h6 heq _ _, by rw [sub_zero, eucl_zero]⟩) i (List.getElem?_eq_some_iff.1 hi).1
  rw [a1 i y hi]
  simpa using this

/-- **C96 holds for the orders 1 and 2.** -/
theorem C96_low_order (ho : order = 1 ∨ order = 2) : C96_claim order := by
  intro n la fn t0 dt y0 ystar hla haff hf heq hdt
  exact ⟨_, fun nd t1 st0 fuelB fuel out ht h y hy => C96_equilibrium_partial ho hla haff.linear hf hdt ht heq h hy⟩

/-- **C96, completion.**  With exact linear algebra `bdf` of every order completes on contractive linear systems with constant matrix and
bounded inhomogeneity: it returns SUCCESS and the last sample is at or after `t1`. -/
theorem C96_completes (h0 : 0 < order) (h6 : order ≤ 6) {J : Matrix (Fin n) (Fin n) ℝ} {g : ℝ → Vec ℝ n}
    (hfn : ∀ t y, fn.fn t y = J.mulVec y + g t) (hJ : ∀ t y i j, fn.jac t y i j = J i j) (hg : TimeBounded g) (hf : Contractive fn.fn)
    (hn : 0 < n) (hdt : 0 < dt) (ht : t0 < t1) : ∃ fuelB fuel out, bdf false laReal fn t0 t1 y0 order dt st0 fuelB fuel = some (.ret out) ∧
      out.status = 0 ∧ t1 ≤ t0 + (out.yVals.length - 1 : ℕ) * min dt (t1 - t0) := by
  have hm : 0 < min dt (t1 - t0) := lt_min hdt (by linarith)
  obtain ⟨fuelB, l, hl⟩ := bootstrap_contractive hfn hJ hf hg hn hm (order + 1) t0 y0
  obtain ⟨fuel, out, h⟩ := C53_bdf_returns (st0 := st0) h0 h6 hdt ht hl
  have hs := (C54_affine (M := fun _ => J) (g := g) laReal_exact (fun t y => by rw [hfn]; rfl) (fun t y => by funext i j; exact hJ t y i j)
    (fun t => contractive_unit (M := fun _ => J) hfn hf (mul_nonneg hm.le (bdfW_pos order h0 h6).le) t) h0 h6 h).1
  obtain ⟨N, -, hN2, -, -, hN5, -⟩ := C53_bdf h0 h6 h
  exact ⟨fuelB, fuel, out, h, hs, by rw [hN2]; exact hN5.1 hs⟩

end linear

/-! ### linear systems: orders 3 to 6 -/

section unstable

/-- the planar system `y' = (a + b i) y` -/
def planar (a b : ℝ) : OdeFun ℝ 2 :=
  { fn := fun _ y => (!![a, -b; b, a] : Matrix (Fin 2) (Fin 2) ℝ).mulVec y
    jac := fun _ _ i j => (!![a, -b; b, a] : Matrix (Fin 2) (Fin 2) ℝ) i j }

theorem planar_contractive {a : ℝ} (b : ℝ) (ha : a ≤ 0) : Contractive (planar a b).fn := by
  intro t y z
  simp only [planar, Fin.sum_univ_two, Matrix.mulVec, dotProduct, Matrix.of_apply, Matrix.cons_val_zero, Matrix.cons_val_one]
  nlinarith [mul_nonneg (neg_nonneg.2 ha) (add_nonneg (sq_nonneg (y 0 - z 0)) (sq_nonneg (y 1 - z 1)))]

/-- the point of the complex plane -/
def pt (y : Vec ℝ 2) : ℂ := ⟨y 0, y 1⟩

theorem norm_pt (y : Vec ℝ 2) : ‖pt y‖ = eucl y := by
  rw [pt, eucl, Fin.sum_univ_two, Complex.norm_def, Complex.normSq_mk, sq, sq]

theorem bdfC_six (order : ℤ) (h0 : 0 < order) (h6 : order ≤ 6) (g : ℕ → ℂ) : ∑ j ∈ Finset.range order.toNat, ((bdfC order j : ℝ) : ℂ) * g j =
    ∑ j ∈ Finset.range 6, ((bdfC order j : ℝ) : ℂ) * g j := by
  have : order = 1 ∨ order = 2 ∨ order = 3 ∨ order = 4 ∨ order = 5 ∨ order = 6 := by omega
  rcases this with rfl | rfl | rfl | rfl | rfl | rfl <;>
  · simp [Finset.sum_range_succ, bdfC, bdfRow, q, nq]

/-- the step of `bdf` for the planar system, as a complex equation -/
theorem planar_step {a b h t : ℝ} {order : ℤ} (h0 : 0 < order) (h6 : order ≤ 6) {v : ℕ → Vec ℝ 2} {y : Vec ℝ 2}
    (H : BdfStep (planar a b) order h t v y 0) :
    ((bdfC order 5 : ℝ) : ℂ) * pt (v 5) + ((bdfC order 4 : ℝ) : ℂ) * pt (v 4) + ((bdfC order 3 : ℝ) : ℂ) * pt (v 3) +
      ((bdfC order 2 : ℝ) : ℂ) * pt (v 2) + ((bdfC order 1 : ℝ) : ℂ) * pt (v 1) + ((bdfC order 0 : ℝ) : ℂ) * pt (v 0) +
      (1 - ((h * bdfW order : ℝ) : ℂ) * ⟨a, b⟩) * pt y = 0 := by
  have hs := bdfC_six order h0 h6 fun j => pt (v j)
  have e : pt y + ∑ j ∈ Finset.range order.toNat, ((bdfC order j : ℝ) : ℂ) * pt (v j) = ((h * bdfW order : ℝ) : ℂ) * ⟨a, b⟩ * pt y := by
    unfold BdfStep at H
    have k0 := congrFun H 0
    have k1 := congrFun H 1
    simp only [planar, Pi.add_apply, Finset.sum_apply, Pi.smul_apply, smul_eq_mul, Matrix.mulVec, dotProduct, Fin.sum_univ_two, Matrix.of_apply,
      Matrix.cons_val_zero, Matrix.cons_val_one, Pi.zero_apply, add_zero] at k0 k1
    apply Complex.ext
    · simp only [Complex.add_re, Complex.re_sum, Complex.mul_re, Complex.ofReal_re, Complex.ofReal_im, zero_mul, sub_zero, pt, Complex.mul_im,
        add_zero]
      rw [k0]; ring
    · simp only [Complex.add_im, Complex.im_sum, Complex.mul_im, Complex.ofReal_re, Complex.ofReal_im, zero_mul, add_zero, pt, Complex.mul_re,
        sub_zero]
      rw [k1]; ring
  rw [hs] at e
  simp only [Finset.sum_range_succ, Finset.sum_range_zero, zero_add] at e
  linear_combination e

/-- an unstable root of the formula refutes the claim -/
theorem unstable_refutes {order : ℤ} (h0 : 0 < order) (h6 : order ≤ 6) {a b : ℝ} {ζ : ℂ} (ha : a < 0) (hζ : 1 < ‖ζ‖)
    (hroot : ((bdfC order 5 : ℝ) : ℂ) + ((bdfC order 4 : ℝ) : ℂ) * ζ + ((bdfC order 3 : ℝ) : ℂ) * ζ ^ 2 +
      ((bdfC order 2 : ℝ) : ℂ) * ζ ^ 3 + ((bdfC order 1 : ℝ) : ℂ) * ζ ^ 4 + ((bdfC order 0 : ℝ) : ℂ) * ζ ^ 5 +
      (1 - ((1 * bdfW order : ℝ) : ℂ) * ⟨a, b⟩) * ζ ^ 6 = 0) : ¬ C96_claim order := by
  intro hcl
  have hfn : ∀ t y, (planar a b).fn t y = (!![a, -b; b, a] : Matrix (Fin 2) (Fin 2) ℝ).mulVec y + (fun _ => 0 : ℝ → Vec ℝ 2) t :=
    fun t y => by rw [add_zero]; rfl
  have hcon := planar_contractive b ha.le
  obtain ⟨C, hC⟩ := hcl 2 laReal (planar a b) 0 1 ![1, 0] 0 laReal_exact ⟨_, fun _ => 0, hfn, fun _ _ _ _ => rfl⟩ hcon
    (fun t => by simp [planar]) one_pos
  have hsum : ((bdfC order 5 : ℝ) : ℂ) + ((bdfC order 4 : ℝ) : ℂ) + ((bdfC order 3 : ℝ) : ℂ) + ((bdfC order 2 : ℝ) : ℂ) +
      ((bdfC order 1 : ℝ) : ℂ) + ((bdfC order 0 : ℝ) : ℂ) + (1 - ((1 * bdfW order : ℝ) : ℂ) * ⟨a, b⟩) ≠ 0 := by
    have e1 := bdfC_six order h0 h6 fun _ => 1
    simp only [mul_one] at e1
    rw [← Complex.ofReal_sum, bdfC_sum h0 h6] at e1
    simp only [Finset.sum_range_succ, Finset.sum_range_zero, zero_add] at e1
    intro hc
    have e2 : ((1 * bdfW order : ℝ) : ℂ) * ⟨a, b⟩ = 0 := by
      push_cast at e1
      linear_combination -hc - e1
    have e3 := congrArg Complex.re e2
    rw [Complex.re_ofReal_mul, Complex.zero_re, one_mul] at e3
    have := mul_neg_of_pos_of_neg (bdfW_pos order h0 h6) ha
    linarith
  obtain ⟨N, hN⟩ := root_unbounded hroot hζ hsum C
  have ht : (0 : ℝ) < N + 10 := by positivity
  obtain ⟨fuelB, fuel, out, h1, -, h3⟩ := C96_completes (st0 := nStat) (y0 := ![1, 0]) (dt := 1) (t0 := 0) (t1 := N + 10) h0 h6 hfn
    (fun _ _ _ _ => rfl) (fun R => ⟨0, fun t _ k => by simp⟩) hcon (by norm_num) one_pos ht
  have hmin : min (1 : ℝ) (N + 10 - 0) = 1 := min_eq_left (by linarith)
  rw [hmin, zero_add, mul_one] at h3
  have hlen : N + 10 ≤ out.yVals.length - 1 := by exact_mod_cast h3
  obtain ⟨y, a1, a2, a3⟩ := linear_steps h0 h6 laReal_exact ⟨fun _ => _, fun _ => 0, hfn, fun _ _ _ _ => rfl⟩ hcon one_pos ht h1
  rw [hmin] at a3
  obtain ⟨i, hi, hCi⟩ := hN (fun i => pt (y (i + order.toNat - 5))) (by
      intro i hi
      rw [a2 _ (by omega)]
      apply Complex.ext <;> simp [pt]) (by
      intro k hk
      have hs := planar_step h0 h6 (a3 (k + order.toNat + 1) (by omega) (by omega))
      rw [show k + 1 + order.toNat - 5 = k + order.toNat - 4 by omega, show k + 2 + order.toNat - 5 = k + order.toNat - 3 by omega,
        show k + 3 + order.toNat - 5 = k + order.toNat - 2 by omega, show k + 4 + order.toNat - 5 = k + order.toNat - 1 by omega,
        show k + 5 + order.toNat - 5 = k + order.toNat by omega, show k + 6 + order.toNat - 5 = k + order.toNat + 1 by omega]
      simpa only [Nat.add_sub_cancel, Nat.sub_zero] using hs)
  have hmem : y (i + order.toNat - 5) ∈ out.yVals := by
    have hlt : i + order.toNat - 5 < out.yVals.length := by omega
    have := a1 _ _ (List.getElem?_eq_getElem hlt)
    rw [← this]
    exact List.getElem_mem hlt
  have := hC false (N + 10) nStat fuelB fuel out ht h1 _ hmem
  rw [sub_zero, ← norm_pt] at this
  linarith

/-- **C96 is false** for the orders 3 to 6: rotating, slowly decaying systems, for which the formulas have a root outside the unit circle. -/
theorem C96_refuted {order : ℤ} (h3 : 3 ≤ order) (h6 : order ≤ 6) : ¬ C96_claim order := by
  have : order = 3 ∨ order = 4 ∨ order = 5 ∨ order = 6 := by omega
  have hnorm : ∀ x y : ℝ, 1 < x * x + y * y → 1 < ‖(⟨x, y⟩ : ℂ)‖ := by
    intro x y h
    rw [Complex.norm_def, Complex.normSq_mk, Real.lt_sqrt (by norm_num)]
    simpa using h
  rcases this with rfl | rfl | rfl | rfl
  · refine unstable_refutes (a := -19 / 500) (b := 322 / 375) (ζ := ⟨5 / 7, 5 / 7⟩) (by norm_num) h6 (by norm_num) (hnorm _ _ (by norm_num)) ?_
    apply Complex.ext <;> norm_num [bdfC, bdfRow, bdfW, q, nq, pow_succ, Complex.mul_re, Complex.mul_im]
  · refine unstable_refutes (a := -157 / 2500) (b := 2368 / 1875) (ζ := ⟨1 / 2, 1⟩) (by norm_num) h6 (by norm_num) (hnorm _ _ (by norm_num)) ?_
    apply Complex.ext <;> norm_num [bdfC, bdfRow, bdfW, q, nq, pow_succ, Complex.mul_re, Complex.mul_im]
  · refine unstable_refutes (a := -4873 / 62500) (b := 49852 / 46875) (ζ := ⟨1 / 2, 1⟩) (by norm_num) h6 (by norm_num) (hnorm _ _ (by norm_num)) ?_
    apply Complex.ext <;> norm_num [bdfC, bdfRow, bdfW, q, nq, pow_succ, Complex.mul_re, Complex.mul_im]
  · refine unstable_refutes (a := -6877 / 43740) (b := 884 / 405) (ζ := ⟨0, 3 / 2⟩) (by norm_num) h6 (by norm_num) (hnorm _ _ (by norm_num)) ?_
    apply Complex.ext <;> norm_num [bdfC, bdfRow, bdfW, q, nq, pow_succ, Complex.mul_re, Complex.mul_im]

end unstable

/-! ### nonlinear systems -/

section nonlinear
variable {n : ℕ} {fn : OdeFun ℝ n} {la : LinAlg ℝ} {nd nd' : Bool} {t0 t1 dt Λ : ℝ} {y0 z0 ystar : Vec ℝ n} {order : ℤ}
  {st0 st1 : NewtonStatus ℝ} {fuelB fuel fuelB' fuel' : ℕ} {out out' : MsOutput ℝ n}

/-- **C96, nonlinear systems (partial: orders 1 and 2).**  Two runs of order 1 or 2 on a contractive system with Lipschitz constant `Λ` and a
"Jacobi matrix" bounded by `Λ` (it need not be the right one): the distance of the samples with index `i` is at most `√2` (order 1: once) that
of the initial values plus `24 i h Λ √n 10⁻¹⁰`, what the increment tolerance of the solver may leave.  Nothing is assumed about whether the
solves succeed: a run that fails ends earlier. -/
theorem C96_nonlinear_partial (ho : order = 1 ∨ order = 2) (hM : SolvesNewton la fn (min dt (t1 - t0) * bdfW order)) (hf : Contractive fn.fn)
    (hΛ : 0 ≤ Λ) (hL : LipschitzE fn.fn Λ) (hJ : ∀ t y v, eucl ((Matrix.of (fn.jac t y)).mulVec v) ≤ Λ * eucl v) (hdt : 0 < dt)
    (ht : t0 < t1) (hy : bdf nd la fn t0 t1 y0 order dt st0 fuelB fuel = some (.ret out))
    (hz : bdf nd' la fn t0 t1 z0 order dt st1 fuelB' fuel' = some (.ret out')) {i : ℕ} {y z : Vec ℝ n} (hyi : out.yVals[i]? = some y)
    (hzi : out'.yVals[i]? = some z) :
    eucl (y - z) ≤ Real.sqrt 2 * eucl (y0 - z0) + 24 * (i * (min dt (t1 - t0) * Λ * (Real.sqrt n / 10 ^ 10))) := by
  have h0 : 0 < order := by omega
  have h6 : order ≤ 6 := by omega
  have hm : 0 < min dt (t1 - t0) := lt_min hdt (by linarith)
  have hW : (bdfW order : ℝ) ≤ 1 := by rcases ho with rfl | rfl <;> norm_num [bdfW, q]
  have hh := mul_nonneg hm.le (bdfW_pos order h0 h6).le
  obtain ⟨B, hB⟩ : ∃ B, B = min dt (t1 - t0) * Λ * (Real.sqrt n / 10 ^ 10) := ⟨_, rfl⟩
  have hB0 : 0 ≤ B := by rw [hB]; positivity
  have hP : ∀ t' (v : ℕ → Vec ℝ n) x y' st st',
      newtonIterate la (bdfEq fn order (min dt (t1 - t0)) t' v) x bdfNewton st true = some (.ret (y', st')) → st'.conv = 0 →
      ∃ ρ, eucl ρ ≤ 2 * B ∧ BdfStep fn order (min dt (t1 - t0)) t' v y' ρ := by
    intro t' v x y' st st' hN hc
    refine ⟨_, (bdf_residual hh hM hΛ hL hJ hN hc).trans ?_, ?_⟩
    · rw [hB]
      have : min dt (t1 - t0) * bdfW order * (Λ * (Real.sqrt n / 10 ^ 10)) ≤ min dt (t1 - t0) * 1 * (Λ * (Real.sqrt n / 10 ^ 10)) :=
        mul_le_mul_of_nonneg_right (mul_le_mul_of_nonneg_left hW hm.le) (by positivity)
      linarith
    · unfold BdfStep
      rw [add_sub_cancel]
  obtain ⟨ys, a1, a2, a3⟩ := bdf_steps h0 h6 hy hP
  obtain ⟨zs, b1, b2, b3⟩ := bdf_steps h0 h6 hz hP
  have hi1 := (List.getElem?_eq_some_iff.1 hyi).1
  have hi2 := (List.getElem?_eq_some_iff.1 hzi).1
  have key := bdf_two ho (δ := 4 * B) (N := min out.yVals.length out'.yVals.length) (t' := fun i => t0 + i * min dt (t1 - t0)) (by linarith)
    hm.le hf a2 b2 (fun j hj hjN => by
      obtain ⟨ρ, c1, c2⟩ := a3 j hj (by omega)
      obtain ⟨σ, d1, d2⟩ := b3 j hj (by omega)
      exact ⟨ρ, σ, c2, d2, (eucl_sub ρ σ).trans (by linarith)⟩) i (by omega)
  rw [a1 i y hyi, b1 i z hzi, ← hB]
  refine key.trans ?_
  have hs2 : 1 ≤ Real.sqrt 2 := by rw [Real.one_le_sqrt]; norm_num
  have hbase : eucl (y0 - z0) ≤ Real.sqrt 2 * eucl (y0 - z0) := le_mul_of_one_le_left (eucl_nonneg _) hs2
  have hiB : 0 ≤ i * B := by positivity
  split_ifs <;> nlinarith

end nonlinear

/-! ### the hypotheses are satisfiable -/

theorem isAffine_stiffDemo : IsAffine stiffDemo := ⟨_, fun _ => ![999999, 1], fun _ _ => rfl, fun _ _ _ _ => rfl⟩

/-- `C96_completes`, `C96_equilibrium_partial`: order 2 on a system with stiffness `10⁶`, ten steps of length one -/
example : ∃ fuelB fuel out, bdf false laReal stiffDemo 0 10 ![0, 5] 2 1 nStat fuelB fuel = some (.ret out) ∧ out.status = 0 ∧
    ∀ y ∈ out.yVals, eucl (y - ![1, 1]) ≤ Real.sqrt 2 * eucl (![0, 5] - ![1, 1]) := by
  obtain ⟨fuelB, fuel, out, h1, h2, -⟩ := C96_completes (fn := stiffDemo) (st0 := nStat) (y0 := ![0, 5]) (t0 := 0) (t1 := 10) (dt := 1) (order := 2)
    (J := !![-1000000, 1; 0, -1]) (g := fun _ => ![999999, 1]) (by norm_num) (by norm_num) (fun _ _ => rfl) (fun _ _ _ _ => rfl)
    (fun R => ⟨‖![(999999 : ℝ), 1]‖, fun t _ k => by
      have := norm_le_pi_norm ![(999999 : ℝ), 1] k
      rwa [Real.norm_eq_abs] at this⟩) stiffDemo_contractive (by norm_num) (by norm_num) (by norm_num)
  refine ⟨fuelB, fuel, out, h1, h2, fun y hy => ?_⟩
  have := C96_equilibrium_partial (ystar := ![1, 1]) (Or.inr rfl) laReal_exact isAffine_stiffDemo.linear stiffDemo_contractive (by norm_num)
    (by norm_num) (fun t => by
      funext k
      fin_cases k <;> norm_num [stiffDemo, Matrix.mulVec, dotProduct, Fin.sum_univ_two]) h1 hy
  simpa using this

/-- the scalar equation `y' = -max(y, 0)` -/
noncomputable def rampDemo : OdeFun ℝ 1 := ⟨fun _ y _ => -max (y 0) 0, fun _ y _ _ => if 0 < y 0 then -1 else 0⟩

/-- the hypotheses of `C96_nonlinear_partial` are met by a nonlinear equation, with `Λ = 1` -/
example : Contractive rampDemo.fn ∧ LipschitzE rampDemo.fn 1 ∧ (∀ t y v, eucl ((Matrix.of (rampDemo.jac t y)).mulVec v) ≤ 1 * eucl v) ∧
    ∀ s : ℝ, SolvesNewton laReal rampDemo s := by
  refine ⟨fun t y z => ?_, fun t y z => ?_, fun t y v => ?_, fun s => solves_laReal _ _⟩
  · rw [Fin.sum_univ_one]
    simp only [rampDemo]
    rcases le_total (y 0) (z 0) with h | h
    · have := max_le_max_right 0 h; nlinarith
    · have := max_le_max_right 0 h; nlinarith
  · rw [eucl_one, eucl_one, one_mul]
    simp only [rampDemo]
    rw [neg_sub_neg, abs_sub_comm]
    exact abs_max_sub_max_le_abs _ _ _
  · rw [eucl_one, eucl_one, one_mul]
    simp only [rampDemo, Matrix.mulVec, dotProduct, Fin.sum_univ_one, Matrix.of_apply]
    split_ifs <;> simp

end Verif
