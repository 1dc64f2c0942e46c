import Verif.NewtonConverge
import Mathlib.Analysis.Calculus.MeanValue
import Mathlib.Analysis.Calculus.ContDiff.RCLike

/-!
# Local convergence of `newton_iterate` in exact arithmetic
-/

set_option linter.unusedSectionVars false

namespace Verif

variable {n : ℕ} {la : LinAlg ℝ} {fn : NFun ℝ n} {x s : Vec ℝ n} {o : NewtonOpts ℝ} {st0 : NewtonStatus ℝ}

theorem damping_mem (z : Vec ℝ n) : 0 < damping fn o z ∧ damping fn o z ≤ 1 := by
  have h : 0 ≤ ∑ i, fn.fn z i * fn.fn z i := Finset.sum_nonneg fun i _ => mul_self_nonneg _
  unfold damping
  split_ifs
  · refine ⟨by positivity, ?_⟩
    rw [div_le_one (by positivity)]
    linarith
  · exact ⟨one_pos, le_rfl⟩

/-- the damping differs from one by at most `n` times the square of the residual -/
theorem damping_ge (z : Vec ℝ n) : 1 - damping fn o z ≤ n * ‖fn.fn z‖ ^ 2 := by
  have h0 : 0 ≤ ∑ i, fn.fn z i * fn.fn z i := Finset.sum_nonneg fun i _ => mul_self_nonneg _
  have h1 : ∑ i, fn.fn z i * fn.fn z i ≤ n * ‖fn.fn z‖ ^ 2 := by
    calc ∑ i, fn.fn z i * fn.fn z i ≤ ∑ _i : Fin n, ‖fn.fn z‖ ^ 2 := by
          refine Finset.sum_le_sum fun i _ => ?_
          have := norm_le_pi_norm (fn.fn z) i
          rw [← sq, ← sq_abs, ← Real.norm_eq_abs]
          exact pow_le_pow_left₀ (norm_nonneg _) this 2
      _ = _ := by simp
  unfold damping
  split_ifs
  · refine le_trans ?_ h1
    rw [sub_le_iff_le_add, ← sub_le_iff_le_add', le_div_iff₀ (by positivity)]
    nlinarith
  · rw [sub_self]; positivity

/-- If the Newton map contracts towards `s` in the ball of radius `r`, at rate `φ` with damping, then the run from `x` in
the ball satisfies: on SUCCESS the error is at most `φ^[iters]` of the initial one and at most `φ (2 dx_delta)`; it
succeeds as soon as `φ^[K]` is below `dx_delta` and `maxit` permits it. -/
theorem newton_contract (hla : la.Exact) (hms : o.maxStep ≤ 0) (hmax : 2 ≤ o.maxit) (quiet : Bool) {r : ℝ} {φ : ℝ → ℝ}
    (hmono : MonotoneOn φ (Set.Ici 0)) (hle : ∀ a, 0 ≤ a → a ≤ r → φ a ≤ a)
    (hA : ∀ z, ‖z - s‖ ≤ r → IsUnit (usedJac fn o x z).det ∧ ∀ d, (usedJac fn o x z).mulVec d = - fn.fn z →
      ‖z + d - s‖ ≤ 1 / 2 * ‖z - s‖ ∧ ‖z + damping fn o z • d - s‖ ≤ φ ‖z - s‖)
    (hx : ‖x - s‖ ≤ r) :
    ∃ xr st, newtonIterate la fn x o st0 quiet = some (.ret (xr, st)) ∧
      (st.conv = 0 → ‖xr - s‖ ≤ φ^[st.iters] ‖x - s‖ ∧ ‖xr - s‖ ≤ φ (2 * o.dxDelta)) ∧
      ∀ K : ℕ, (K : ℤ) + 2 ≤ o.maxit → 3 / 2 * φ^[K] ‖x - s‖ < o.dxDelta → st.conv = 0 ∧ st.iters ≤ K + 1 := by
  obtain ⟨xr, st, h⟩ := C27_returns la fn x o st0 quiet
  refine ⟨xr, st, h, ?_⟩
  obtain ⟨m, xs, ds, h0, hm, hds, hxs, hgo, hok, hbad⟩ := newton_plain hla hms (by omega) quiet h
  have key : ∀ k ≤ m, ‖xs k - s‖ ≤ r ∧ ‖xs k - s‖ ≤ φ^[k] ‖x - s‖ := by
    intro k
    induction k with
    | zero => intro _; rw [h0]; exact ⟨hx, le_rfl⟩
    | succ k ih =>
      intro hk
      obtain ⟨i1, i2⟩ := ih (by omega)
      obtain ⟨hu, hA2⟩ := hA _ i1
      have := (hA2 _ (hds k (by omega) hu)).2
      rw [← hxs k (by omega)] at this
      refine ⟨(this.trans (hle _ (norm_nonneg _) i1)).trans i1, this.trans ?_⟩
      rw [Function.iterate_succ_apply']
      exact hmono (norm_nonneg _) ((norm_nonneg _).trans i2) i2
  have hinc : ∀ k < m, ‖ds k‖ ≤ 3 / 2 * ‖xs k - s‖ ∧ ‖xs k - s‖ ≤ 2 * ‖ds k‖ := by
    intro k hk
    obtain ⟨hu, hA2⟩ := hA _ (key k hk.le).1
    have h1 := (hA2 _ (hds k hk hu)).1
    constructor
    · have : ds k = (xs k + ds k - s) - (xs k - s) := by abel
      rw [this]
      exact (norm_sub_le _ _).trans (by linarith)
    · have h2 : ‖xs k - s‖ ≤ ‖xs k + ds k - s‖ + ‖ds k‖ := by
        have := norm_sub_le (xs k + ds k - s) (ds k)
        rwa [show xs k + ds k - s - ds k = xs k - s by abel] at this
      linarith
  constructor
  · intro hc
    obtain ⟨hm0, -, hd, hxr, hit⟩ := hok hc
    rw [hxr, hit]
    refine ⟨(key m le_rfl).2, ?_⟩
    obtain ⟨hu, hA2⟩ := hA _ (key (m - 1) (by omega)).1
    have h1 := (hA2 _ (hds (m - 1) (by omega) hu)).2
    rw [← hxs (m - 1) (by omega), Nat.sub_add_cancel hm0] at h1
    have h2 := (hinc (m - 1) (by omega)).2
    have h3 := norm_nonneg (ds (m - 1))
    exact h1.trans (hmono (norm_nonneg _) (by simp only [Set.mem_Ici]; linarith) (by linarith))
  · intro K hK hlt
    have hmK : m ≤ K + 1 := by
      by_contra hc
      have h1 := hgo K (by omega)
      have h2 := (hinc K (by omega)).1
      have h3 := (key K (by omega)).2
      linarith
    have hc : st.conv = 0 := by
      by_contra hc
      have := hbad (hA _ (key m le_rfl).1).1 hc
      omega
    exact ⟨hc, by rw [(hok hc).2.2.2.2]; exact hmK⟩

/-- a matrix close to one that is bounded below -/
theorem regular_near {J A : Matrix (Fin n) (Fin n) ℝ} {β a : ℝ} (hβ : 0 < β) (hA : ∀ v, ‖v‖ ≤ β * ‖A.mulVec v‖)
    (hJ : ∀ v, ‖J.mulVec v - A.mulVec v‖ ≤ a * ‖v‖) (ha : 2 * β * a ≤ 1) :
    IsUnit J.det ∧ ∀ v, ‖v‖ ≤ 2 * β * ‖J.mulVec v‖ := by
  have hinj : ∀ v, ‖v‖ ≤ 2 * β * ‖J.mulVec v‖ := by
    intro v
    have h1 := hA v
    have h2 := hJ v
    have h3 : ‖A.mulVec v‖ ≤ ‖J.mulVec v‖ + ‖J.mulVec v - A.mulVec v‖ := by
      have := norm_sub_le (J.mulVec v) (J.mulVec v - A.mulVec v)
      rwa [sub_sub_cancel] at this
    have h4 : β * ‖A.mulVec v‖ ≤ β * (‖J.mulVec v‖ + a * ‖v‖) := mul_le_mul_of_nonneg_left (h3.trans (by linarith)) hβ.le
    nlinarith [norm_nonneg v]
  refine ⟨?_, hinj⟩
  rw [← Matrix.isUnit_iff_isUnit_det, ← Matrix.mulVec_injective_iff_isUnit]
  intro v w hvw
  have h1 := hinj (v - w)
  rw [Matrix.mulVec_sub, hvw, sub_self, norm_zero, mul_zero] at h1
  exact sub_eq_zero.1 (norm_le_zero_iff.1 h1)

/-- one damped step from `z` with the matrix `J`, when `J (z - s)` is close to the residual -/
theorem step_error {J : Matrix (Fin n) (Fin n) ℝ} {z d : Vec ℝ n} {B c M r : ℝ} (hB : ∀ v, ‖v‖ ≤ B * ‖J.mulVec v‖)
    (hB0 : 0 ≤ B) (hd : J.mulVec d = - fn.fn z) (hres : ‖J.mulVec (z - s) - fn.fn z‖ ≤ c * ‖z - s‖)
    (hM : ‖fn.fn z‖ ≤ M * ‖z - s‖) (hz : ‖z - s‖ ≤ r) :
    ‖z + d - s‖ ≤ B * c * ‖z - s‖ ∧
    ‖z + damping fn o z • d - s‖ ≤ (B * c + (if o.limitStep then n * M ^ 2 * (r * ‖z - s‖) else 0)) * ‖z - s‖ := by
  have h1 : ‖z + d - s‖ ≤ B * c * ‖z - s‖ := by
    have e : J.mulVec (z + d - s) = J.mulVec (z - s) - fn.fn z := by
      rw [show z + d - s = (z - s) + d by abel, Matrix.mulVec_add, hd, ← sub_eq_add_neg]
    calc ‖z + d - s‖ ≤ B * ‖J.mulVec (z + d - s)‖ := hB _
      _ ≤ B * (c * ‖z - s‖) := by rw [e]; exact mul_le_mul_of_nonneg_left hres hB0
      _ = _ := by ring
  refine ⟨h1, ?_⟩
  obtain ⟨l0, l1⟩ := damping_mem (fn := fn) (o := o) z
  have l2 := damping_ge (fn := fn) (o := o) z
  have hn := norm_nonneg (z - s)
  by_cases hl : o.limitStep = true
  · rw [if_pos hl]
    set l := damping fn o z with hldef
    have e : z + l • d - s = (1 - l) • (z - s) + l • (z + d - s) := by
      rw [sub_smul, one_smul, show z + d - s = (z - s) + d by abel, smul_add]; abel
    rw [e]
    have h3 : n * ‖fn.fn z‖ ^ 2 ≤ n * M ^ 2 * (r * ‖z - s‖) := by
      have h4 : ‖fn.fn z‖ ^ 2 ≤ (M * ‖z - s‖) ^ 2 := pow_le_pow_left₀ (norm_nonneg _) hM 2
      have h5 : (M * ‖z - s‖) ^ 2 ≤ M ^ 2 * (r * ‖z - s‖) := by
        rw [mul_pow, sq ‖z - s‖]
        exact mul_le_mul_of_nonneg_left (mul_le_mul_of_nonneg_right hz hn) (by positivity)
      rw [mul_assoc]
      exact mul_le_mul_of_nonneg_left (h4.trans h5) (by positivity)
    calc ‖(1 - l) • (z - s) + l • (z + d - s)‖ ≤ (1 - l) * ‖z - s‖ + l * ‖z + d - s‖ := by
          refine (norm_add_le _ _).trans ?_
          rw [norm_smul, norm_smul, Real.norm_of_nonneg l0.le, Real.norm_of_nonneg (by linarith)]
      _ ≤ n * M ^ 2 * (r * ‖z - s‖) * ‖z - s‖ + 1 * (B * c * ‖z - s‖) :=
          add_le_add (mul_le_mul_of_nonneg_right (l2.trans h3) hn)
            (mul_le_mul l1 h1 (norm_nonneg _) zero_le_one)
      _ = _ := by ring
  · rw [if_neg hl, add_zero]
    have : damping fn o z = 1 := by rw [damping, if_neg hl]
    rw [this, one_smul]
    exact h1

/-- iterates of `κ t²` -/
theorem iterate_sq (κ a : ℝ) (k : ℕ) : κ * (fun t => κ * t ^ 2)^[k] a = (κ * a) ^ 2 ^ k := by
  induction k with
  | zero => simp
  | succ k ih =>
    rw [Function.iterate_succ_apply', pow_succ 2 k, pow_mul, ← ih]
    ring

/-- iterates of `q t` -/
theorem iterate_lin (q a : ℝ) (k : ℕ) : (fun t => q * t)^[k] a = q ^ k * a := by
  induction k with
  | zero => simp
  | succ k ih =>
    rw [Function.iterate_succ_apply', ih, pow_succ]
    ring

end Verif
