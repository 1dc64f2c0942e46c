import Verif.AbFloat

/-!
# BDF in arithmetic with rounding errors
-/

set_option autoImplicit false

namespace Verif
open Set

section
variable {F : Type} [Add F] [Sub F] [Mul F] [Div F] [Neg F] [Scalar F] {n : ℕ}

/-- the values of a run of `bdf` as a sequence, in any arithmetic -/
theorem bdf_sequence {nd : Bool} {la : LinAlg F} {fn : OdeFun F n} {t0 t1 : F} {y0 : Vec F n} {order : ℤ} {dt : F} {st0 : NewtonStatus F}
    {fuelB fuel : ℕ} {out : MsOutput F n} (h0 : 0 < order) (h6 : order ≤ 6) (h : bdf nd la fn t0 t1 y0 order dt st0 fuelB fuel = some (.ret out)) :
    ∃ y : ℕ → Vec F n, (∀ (i : ℕ) y', out.yVals[i]? = some y' → y' = y i) ∧ (∀ i < order.toNat + 1, y i = y0) ∧
      ∀ i, order.toNat + 1 ≤ i → i < out.yVals.length → ∃ st st',
        newtonIterate la (bdfEq fn order (clipDt t0 t1 dt) (gridPt (clipDt t0 t1 dt) t0 i) fun j => y (i - 1 - j)) (y (i - 1)) bdfNewton st true =
          some (.ret (y i, st')) ∧ st'.conv = 0 := by
  have hEq : ∀ (hh t : F) (v w : ℕ → Vec F n), (∀ j : ℕ, (j : ℤ) < order → v j = w j) →
      bdfEq fn order hh t v = bdfEq fn order hh t w := by
    intro hh t v w hvw
    have : ∀ p, (List.range order.toNat).foldl (fun a j => a + bdfC order j * v j p) (lit 0 : F) =
        (List.range order.toNat).foldl (fun a j => a + bdfC order j * w j p) (lit 0) := by
      intro p
      refine List.foldl_ext _ _ _ fun a j hj => ?_
      rw [hvw j (by have := List.mem_range.mp hj; omega)]
    unfold bdfEq
    simp only [this]
  obtain ⟨acc, t, y, hR, hboot, ht, hy, hl, hend⟩ := bdf_run h0 h6 h
  refine ⟨fun i => (out.yVals[i]?).getD y0, ?_, ?_, ?_⟩
  · intro i y' h
    beta_reduce
    rw [h]; rfl
  · intro i hi
    have h1 := congrArg (fun l => l[i]?) hboot
    have hk : (order + 1).toNat = order.toNat + 1 := by omega
    rw [hk] at h1
    simp only [List.getElem?_take, if_pos hi, List.getElem?_map, List.getElem?_range hi, Option.map_some] at h1
    simp only [hy, List.getElem?_map, h1, Option.map_some, Option.getD_some]
  · intro i hi hlen
    obtain ⟨y', hy'⟩ : ∃ y', out.yVals[i]? = some y' := ⟨_, List.getElem?_eq_getElem hlen⟩
    obtain ⟨v, st, st', hv, hn, hc⟩ := C54_samples h0 h6 h (by omega) hy'
    refine ⟨st, st', ?_, hc⟩
    have e0 : v 0 = (out.yVals[i - 1]?).getD y0 := by
      have := hv 0 (by omega)
      rw [Nat.sub_zero] at this
      rw [this]; rfl
    beta_reduce
    rw [hy', Option.getD_some, ← e0, ← hn, hEq _ _ (fun j => (out.yVals[i - 1 - j]?).getD y0) v fun j hj => by rw [hv j hj]; rfl]

end

/-! ### rounding errors -/

section
variable {F : Type} [Add F] [Sub F] [Mul F] [Div F] [Neg F] [Scalar F] {n : ℕ} {u B : ℝ} {A : FloatArith F u B}

/-- the weights of the history: rounded, and at most 4 -/
theorem bdfC_near (A : FloatArith F u B) (hu : 0 ≤ u) (hB : 10000 ≤ B) {order : ℤ} (h0 : 0 < order) (h6 : order ≤ 6) (j : ℕ) (hj : j < order.toNat) :
    NearCoef A (bdfC order j) (bdfC order j : ℝ) ∧ |(bdfC order j : ℝ)| ≤ 4 := by
  have hq : ∀ a b : ℕ, a ≤ 10000 → b ≤ 10000 → 0 < b → NearCoef A (q a b) (q a b : ℝ) := fun a b ha hb hb0 =>
    nearCoef_q A (by omega) (by omega) hb0 (le_trans (by exact_mod_cast ha) hB)
  have hn : ∀ a b : ℕ, a ≤ 10000 → b ≤ 10000 → 0 < b → NearCoef A (nq a b) (nq a b : ℝ) := fun a b ha hb hb0 =>
    nearCoef_nq A (by omega) (by omega) hb0 (le_trans (by exact_mod_cast ha) hB)
  have : order = 1 ∨ order = 2 ∨ order = 3 ∨ order = 4 ∨ order = 5 ∨ order = 6 := by omega
  rcases this with rfl | rfl | rfl | rfl | rfl | rfl
  · have : j = 0 := by have : (1 : ℤ).toNat = 1 := rfl
                       omega
    subst this
    obtain ⟨k1, k2⟩ := A.int 1 (by norm_num)
    obtain ⟨k3, k4⟩ := A.neg _ k1
    rw [Nat.cast_one] at k2 k3 k4
    refine ⟨⟨k3, ?_⟩, by norm_num [bdfC, bdfRow]⟩
    have e : A.val (bdfC 1 0 : F) = -1 := by
      show A.val (-lit 1 : F) = -1
      rw [k4, k2, Nat.cast_one]
    rw [e]
    norm_num [bdfC, bdfRow]
    linarith
  · have : j = 0 ∨ j = 1 := by have : (2 : ℤ).toNat = 2 := rfl
                               omega
    rcases this with rfl | rfl
    · exact ⟨by simpa [bdfC, bdfRow] using hn 4 3 (by norm_num) (by norm_num) (by norm_num), by norm_num [bdfC, bdfRow, nq, abs_div]⟩
    · exact ⟨by simpa [bdfC, bdfRow] using hq 1 3 (by norm_num) (by norm_num) (by norm_num), by norm_num [bdfC, bdfRow, q, abs_div]⟩
  · have : j = 0 ∨ j = 1 ∨ j = 2 := by have : (3 : ℤ).toNat = 3 := rfl
                                       omega
    rcases this with rfl | rfl | rfl
    · exact ⟨by simpa [bdfC, bdfRow] using hn 18 11 (by norm_num) (by norm_num) (by norm_num), by norm_num [bdfC, bdfRow, nq, abs_div]⟩
    · exact ⟨by simpa [bdfC, bdfRow] using hq 9 11 (by norm_num) (by norm_num) (by norm_num), by norm_num [bdfC, bdfRow, q, abs_div]⟩
    · exact ⟨by simpa [bdfC, bdfRow] using hn 2 11 (by norm_num) (by norm_num) (by norm_num), by norm_num [bdfC, bdfRow, nq, abs_div]⟩
  · have : j = 0 ∨ j = 1 ∨ j = 2 ∨ j = 3 := by have : (4 : ℤ).toNat = 4 := rfl
                                               omega
    rcases this with rfl | rfl | rfl | rfl
    · exact ⟨by simpa [bdfC, bdfRow] using hn 48 25 (by norm_num) (by norm_num) (by norm_num), by norm_num [bdfC, bdfRow, nq, abs_div]⟩
    · exact ⟨by simpa [bdfC, bdfRow] using hq 36 25 (by norm_num) (by norm_num) (by norm_num), by norm_num [bdfC, bdfRow, q, abs_div]⟩
    · exact ⟨by simpa [bdfC, bdfRow] using hn 16 25 (by norm_num) (by norm_num) (by norm_num), by norm_num [bdfC, bdfRow, nq, abs_div]⟩
    · exact ⟨by simpa [bdfC, bdfRow] using hq 3 25 (by norm_num) (by norm_num) (by norm_num), by norm_num [bdfC, bdfRow, q, abs_div]⟩
  · have : j = 0 ∨ j = 1 ∨ j = 2 ∨ j = 3 ∨ j = 4 := by have : (5 : ℤ).toNat = 5 := rfl
                                                       omega
    rcases this with rfl | rfl | rfl | rfl | rfl
    · exact ⟨by simpa [bdfC, bdfRow] using hn 300 137 (by norm_num) (by norm_num) (by norm_num), by norm_num [bdfC, bdfRow, nq, abs_div]⟩
    · exact ⟨by simpa [bdfC, bdfRow] using hq 300 137 (by norm_num) (by norm_num) (by norm_num), by norm_num [bdfC, bdfRow, q, abs_div]⟩
    · exact ⟨by simpa [bdfC, bdfRow] using hn 200 137 (by norm_num) (by norm_num) (by norm_num), by norm_num [bdfC, bdfRow, nq, abs_div]⟩
    · exact ⟨by simpa [bdfC, bdfRow] using hq 75 137 (by norm_num) (by norm_num) (by norm_num), by norm_num [bdfC, bdfRow, q, abs_div]⟩
    · exact ⟨by simpa [bdfC, bdfRow] using hn 12 137 (by norm_num) (by norm_num) (by norm_num), by norm_num [bdfC, bdfRow, nq, abs_div]⟩
  · have : j = 0 ∨ j = 1 ∨ j = 2 ∨ j = 3 ∨ j = 4 ∨ j = 5 := by have : (6 : ℤ).toNat = 6 := rfl
                                                               omega
    rcases this with rfl | rfl | rfl | rfl | rfl | rfl
    · exact ⟨by simpa [bdfC, bdfRow] using hn 360 147 (by norm_num) (by norm_num) (by norm_num), by norm_num [bdfC, bdfRow, nq, abs_div]⟩
    · exact ⟨by simpa [bdfC, bdfRow] using hq 450 147 (by norm_num) (by norm_num) (by norm_num), by norm_num [bdfC, bdfRow, q, abs_div]⟩
    · exact ⟨by simpa [bdfC, bdfRow] using hn 400 147 (by norm_num) (by norm_num) (by norm_num), by norm_num [bdfC, bdfRow, nq, abs_div]⟩
    · exact ⟨by simpa [bdfC, bdfRow] using hq 225 147 (by norm_num) (by norm_num) (by norm_num), by norm_num [bdfC, bdfRow, q, abs_div]⟩
    · exact ⟨by simpa [bdfC, bdfRow] using hn 72 147 (by norm_num) (by norm_num) (by norm_num), by norm_num [bdfC, bdfRow, nq, abs_div]⟩
    · exact ⟨by simpa [bdfC, bdfRow] using hq 10 147 (by norm_num) (by norm_num) (by norm_num), by norm_num [bdfC, bdfRow, q, abs_div]⟩

/-- the weight of the right-hand side -/
theorem bdfW_near (A : FloatArith F u B) (hu : 0 ≤ u) (hB : 10000 ≤ B) {order : ℤ} (h0 : 0 < order) (h6 : order ≤ 6) :
    Near A (bdfW order : F) (bdfW order : ℝ) (2 * u) := by
  have hmono : ∀ {x : F} {r : ℝ}, |r| ≤ 1 → NearCoef A x r → Near A x r (2 * u) := by
    intro x r hr h
    refine h.mono ?_
    have := mul_le_mul_of_nonneg_left (show 1 + |r| ≤ 2 by linarith) hu
    linarith
  have hq : ∀ a b : ℕ, a ≤ b → b ≤ 10000 → 0 < b → Near A (q a b) (q a b : ℝ) (2 * u) := by
    intro a b hab hb hb0
    refine hmono ?_ (nearCoef_q A (by omega) (by omega) hb0 (le_trans (by exact_mod_cast hab.trans hb) hB))
    have hbr : (0 : ℝ) < b := by exact_mod_cast hb0
    have e : (q (a : ℚ) (b : ℚ) : ℝ) = a / b := by simp [q]
    rw [e, abs_of_nonneg (by positivity), div_le_one hbr]
    exact_mod_cast hab
  have : order = 1 ∨ order = 2 ∨ order = 3 ∨ order = 4 ∨ order = 5 ∨ order = 6 := by omega
  rcases this with rfl | rfl | rfl | rfl | rfl | rfl
  · exact hmono (by norm_num [bdfW]) (nearCoef_lit A 1 (by norm_num; linarith))
  · simpa [bdfW] using hq 2 3 (by norm_num) (by norm_num) (by norm_num)
  · simpa [bdfW] using hq 6 11 (by norm_num) (by norm_num) (by norm_num)
  · simpa [bdfW] using hq 12 25 (by norm_num) (by norm_num) (by norm_num)
  · simpa [bdfW] using hq 60 137 (by norm_num) (by norm_num) (by norm_num)
  · simpa [bdfW] using hq 60 147 (by norm_num) (by norm_num) (by norm_num)

/-- the history part of the equation -/
theorem bdfHist_near (hu : 0 ≤ u) {G Γ : ℝ} (hG : 24 * Γ + 4 ≤ G) (hΓ : 0 ≤ Γ) (hB : big G ≤ B) (hBB : 10000 ≤ B) {order : ℤ} (h0 : 0 < order)
    (h6 : order ≤ 6) (hsm : 48 * u * big G ≤ 1) {x : ℕ → F} (hx : ∀ j < order.toNat, isFin (x j) = true) (hg : ∀ j < order.toNat, |A.val (x j)| ≤ Γ)
    (m : ℕ) (hm : m ≤ order.toNat) :
    Near A ((List.range m).foldl (fun a j => a + bdfC order j * x j) (lit 0)) (∑ j ∈ Finset.range m, (bdfC order j : ℝ) * A.val (x j))
        (m * (7 * (u * big G))) ∧ |∑ j ∈ Finset.range m, (bdfC order j : ℝ) * A.val (x j)| ≤ m * (4 * Γ) := by
  have hG1 : 1 ≤ G := by linarith
  obtain ⟨b1, -⟩ := big_facts hG1
  have hub : 0 ≤ u * big G := by positivity
  have hub1 : u ≤ u * big G := le_mul_of_one_le_right hu b1
  induction m with
  | zero =>
    obtain ⟨k1, k2⟩ := A.int 0 (by norm_num)
    rw [Nat.cast_zero] at k1 k2
    rw [Nat.cast_zero] at k2
    simp only [List.range_zero, List.foldl_nil, Finset.range_zero, Finset.sum_empty, Nat.cast_zero, zero_mul, abs_zero, le_refl, and_true]
    exact ⟨k1, by rw [k2]; simp⟩
  | succ m ih =>
    obtain ⟨i1, i2⟩ := ih (by omega)
    rw [List.range_succ, List.foldl_append, Finset.sum_range_succ]
    obtain ⟨c1, c2⟩ := bdfC_near A hu hBB h0 h6 m (by omega)
    obtain ⟨g1, g2⟩ := ab_term hu (G := G) (Γ := Γ) (d := 0) (by linarith) hΓ hB (by linarith) zero_le_one c1 c2 (Near.self (hx m (by omega))) (hg m (by omega))
    have hm6 : (m : ℝ) ≤ 5 := by exact_mod_cast (show m ≤ 5 by omega)
    have e1 : (m : ℝ) * (4 * Γ) ≤ 5 * (4 * Γ) := mul_le_mul_of_nonneg_right hm6 (by linarith)
    have e2 : (m : ℝ) * (7 * (u * big G)) ≤ 5 * (7 * (u * big G)) := mul_le_mul_of_nonneg_right hm6 (by linarith)
    have := near_add hG1 hB hu i1 g1 (by linarith) (by linarith) (by linarith) (by linarith)
    refine ⟨this.mono (by push_cast; linarith), (abs_add_le _ _).trans ?_⟩
    push_cast
    linarith

/-- the step times the weight -/
theorem bdfHW_near (hu : 0 ≤ u) {G H : ℝ} (hG1 : 4 ≤ G) (hB : big G ≤ B) (hBB : 10000 ≤ B) {order : ℤ} (h0 : 0 < order)
    (h6 : order ≤ 6) (hsm : 48 * u * big G ≤ 1) {h : F} (hh : isFin h = true) (hH : A.val h = H) (hH0 : 0 ≤ H) (hH1 : H ≤ 1) :
    Near A (h * bdfW order) (H * bdfW order) (3 * (u * big G)) ∧ |H * (bdfW order : ℝ)| ≤ H := by
  obtain ⟨b1, -⟩ := big_facts (show 1 ≤ G by linarith)
  have hub1 : u ≤ u * big G := le_mul_of_one_le_right hu b1
  obtain ⟨w0, w1⟩ := bdfW_bounds h0 h6
  have := near_mul (show 1 ≤ G by linarith) hB hu (Near.self hh) (bdfW_near A hu hBB h0 h6) (by rw [hH, abs_of_nonneg hH0]; linarith)
    (by rw [abs_of_nonneg w0]; linarith) le_rfl zero_le_one (by linarith)
  rw [hH, abs_of_nonneg hH0] at this
  refine ⟨this.mono ?_, ?_⟩
  · have : H * (2 * u) ≤ 1 * (2 * u) := mul_le_mul_of_nonneg_right hH1 (by linarith)
    linarith
  · rw [abs_of_nonneg (mul_nonneg hH0 w0)]
    exact mul_le_of_le_one_right hH0 w1

/-- the rounding error of one component of the equation -/
theorem bdfFn_near (hu : 0 ≤ u) {G Γ H ε : ℝ} (hG : 25 * Γ + 4 ≤ G) (hΓ : 0 ≤ Γ) (hB : big G ≤ B) (hBB : 10000 ≤ B) {order : ℤ} (h0 : 0 < order)
    (h6 : order ≤ 6) (hsm : 48 * (u * big G ^ 2) + ε ≤ 1) {h : F} (hh : isFin h = true) (hH : A.val h = H) (hH0 : 0 ≤ H) (hH1 : H ≤ 1)
    {v : ℕ → F} (hv : ∀ j < order.toNat, isFin (v j) = true) (hvΓ : ∀ j < order.toNat, |A.val (v j)| ≤ Γ) {x g : F} {r : ℝ} (hx : isFin x = true)
    (hxΓ : |A.val x| ≤ Γ) (hg : Near A g r ε) (hr : |r| ≤ G) :
    Near A (x + (List.range order.toNat).foldl (fun a j => a + bdfC order j * v j) (lit 0) - h * bdfW order * g)
      (A.val x + ∑ j ∈ Finset.range order.toNat, (bdfC order j : ℝ) * A.val (v j) - H * bdfW order * r) (H * ε + 48 * (u * big G ^ 2)) := by
  have hG1 : 1 ≤ G := by linarith
  obtain ⟨b1, -⟩ := big_facts hG1
  have hub : 0 ≤ u * big G := by positivity
  have hε0 : 0 ≤ ε := (abs_nonneg _).trans hg.2
  have hμ : u * big G ≤ u * big G ^ 2 := by
    rw [sq, ← mul_assoc]; exact le_mul_of_one_le_right hub b1
  obtain ⟨k1, k2⟩ := bdfHist_near (A := A) hu (show 24 * Γ + 4 ≤ G by linarith) hΓ hB hBB h0 h6 (by linarith) hv hvΓ order.toNat le_rfl
  obtain ⟨w1, w2⟩ := bdfHW_near (A := A) hu (show 4 ≤ G by linarith) hB hBB h0 h6 (by linarith) hh hH hH0 hH1
  have hk6 : (order.toNat : ℝ) ≤ 6 := by exact_mod_cast (show order.toNat ≤ 6 by omega)
  have e1 : (order.toNat : ℝ) * (4 * Γ) ≤ 6 * (4 * Γ) := mul_le_mul_of_nonneg_right hk6 (by linarith)
  have e2 : (order.toNat : ℝ) * (7 * (u * big G)) ≤ 6 * (7 * (u * big G)) := mul_le_mul_of_nonneg_right hk6 (by linarith)
  have s1 := near_add hG1 hB hu (Near.self hx) k1 (by linarith) (by linarith) zero_le_one (by linarith)
  have s2 := near_mul hG1 hB hu w1 hg (by linarith) hr (by linarith) (by linarith) (by linarith)
  have e3 : 3 * (u * big G) * big G = 3 * (u * big G ^ 2) := by ring
  rw [e3] at s2
  have e4 : |H * (bdfW order : ℝ)| * ε ≤ H * ε := mul_le_mul_of_nonneg_right w2 hε0
  have e5 : H * ε ≤ ε := mul_le_of_le_one_left hε0 hH1
  have e6 : |H * (bdfW order : ℝ) * r| ≤ G := by
    rw [abs_mul]
    calc |H * (bdfW order : ℝ)| * |r| ≤ 1 * G := mul_le_mul (w2.trans hH1) hr (abs_nonneg _) zero_le_one
      _ = G := one_mul G
  have s3 := near_sub hG1 hB hu s1 s2 ((abs_add_le _ _).trans (by linarith)) e6 (by linarith) (by linarith)
  exact s3.mono (by linarith)

/-- the rounding error of one entry of the matrix -/
theorem bdfJac_near (hu : 0 ≤ u) {G H : ℝ} (hG : 4 ≤ G) (hB : big G ≤ B) (hBB : 10000 ≤ B) {order : ℤ} (h0 : 0 < order)
    (h6 : order ≤ 6) (hsm : 48 * (u * big G ^ 2) ≤ 1) {h : F} (hh : isFin h = true) (hH : A.val h = H) (hH0 : 0 ≤ H) (hH1 : H ≤ 1)
    {g : F} (hg : isFin g = true) (hr : |A.val g| ≤ G) (i l : Fin n) :
    isFin (eye n i l - h * bdfW order * g) = true ∧
      |A.val (eye n i l - h * bdfW order * g) - (if i = l then 1 else 0)| ≤ H * |A.val g| + 5 * (u * big G ^ 2) := by
  have hG1 : 1 ≤ G := by linarith
  obtain ⟨b1, -⟩ := big_facts hG1
  have hub : 0 ≤ u * big G := by positivity
  have hμ : u * big G ≤ u * big G ^ 2 := by
    rw [sq, ← mul_assoc]; exact le_mul_of_one_le_right hub b1
  obtain ⟨w1, w2⟩ := bdfHW_near (A := A) hu hG hB hBB h0 h6 (by linarith) hh hH hH0 hH1
  have s2 := near_mul hG1 hB hu w1 (Near.self hg) (by linarith) hr (by linarith) (by linarith) zero_le_one
  have e3 : 3 * (u * big G) * big G = 3 * (u * big G ^ 2) := by ring
  rw [e3, mul_zero] at s2
  have e6 : |H * (bdfW order : ℝ) * A.val g| ≤ H * |A.val g| := by
    rw [abs_mul]
    exact mul_le_mul_of_nonneg_right w2 (abs_nonneg _)
  have e7 : H * |A.val g| ≤ G := (mul_le_of_le_one_left (abs_nonneg _) hH1).trans hr
  have hI : Near A (eye n i l : F) (if i = l then 1 else 0) 0 := by
    obtain ⟨k1, k2⟩ := A.int 0 (by norm_num)
    obtain ⟨k3, k4⟩ := A.int 1 (by norm_num)
    rw [Nat.cast_zero] at k1 k2
    rw [Nat.cast_zero] at k2
    rw [Nat.cast_one] at k3 k4
    rw [Nat.cast_one] at k4
    unfold eye
    split_ifs
    · exact ⟨k3, by rw [k4]; simp⟩
    · exact ⟨k1, by rw [k2]; simp⟩
  have s3 := near_sub hG1 hB hu hI s2 (by split_ifs <;> norm_num <;> linarith) (e6.trans e7) zero_le_one (by linarith)
  refine ⟨s3.1, ?_⟩
  have e8 := abs_le.mp s3.2
  have e9 := abs_le.mp e6
  exact abs_le.mpr ⟨by linarith, by linarith⟩

/-- the rounding error of one component of a Newton update -/
theorem newtonUpd_near (hu : 0 ≤ u) {G : ℝ} (hG : 4 ≤ G) (hB : big G ≤ B) (hsm : 2 * (u * big G) ≤ 1) {x z : F} (hx : isFin x = true) (hz : isFin z = true)
    (hxG : |A.val x| ≤ G) (hzG : |A.val z| ≤ G) : Near A (x + lit 1 * (-z)) (A.val x - A.val z) (2 * (u * big G)) := by
  have hG1 : 1 ≤ G := by linarith
  obtain ⟨b1, -⟩ := big_facts hG1
  obtain ⟨k3, k4⟩ := A.int 1 (by norm_num)
  rw [Nat.cast_one] at k3 k4
  rw [Nat.cast_one] at k4
  obtain ⟨z1, z2⟩ := A.neg z hz
  have hub : 0 ≤ u * big G := by positivity
  have h1 : Near A (lit 1 : F) 1 0 := ⟨k3, by rw [k4]; simp⟩
  have s1 := near_mul hG1 hB hu h1 (Near.self z1) (by norm_num; linarith) (by rw [z2, abs_neg]; exact hzG) le_rfl zero_le_one zero_le_one
  rw [z2] at s1
  have s2 := near_add hG1 hB hu (Near.self hx) s1 hxG (by rw [one_mul, abs_neg]; exact hzG) zero_le_one (by linarith)
  have e : A.val x + 1 * -A.val z = A.val x - A.val z := by ring
  rw [e] at s2
  exact s2.mono (by linarith)

end

/-! ### an inexact Newton iteration -/

theorem inexact_update {n : ℕ} {Fr : Vec ℝ n → Vec ℝ n} {J : Fin n → Fin n → ℝ} {X Z X' r : Vec ℝ n} {η ρ ζ q b : ℝ} (hη : 0 ≤ η) (hρ : 0 ≤ ρ)
    (hζ : 0 ≤ ζ) (hq0 : 0 ≤ q) (hb0 : 0 ≤ b) (hq : q ≤ 1 / 4) (hqb : q + b ≤ 3 / 8) (hr : ∀ i, |r i - Fr X i| ≤ η)
    (hz : ∀ i, |∑ l, J i l * Z l - r i| ≤ ρ) (hJ : ∀ i, ∑ l, |J i l - if i = l then 1 else 0| ≤ q) (hx : ∀ i, |X' i - (X i - Z i)| ≤ ζ) :
    ‖X' - X‖ ≤ 4 / 3 * (‖Fr X‖ + η + ρ) + ζ ∧
      (‖Fr X' - Fr X - (X' - X)‖ ≤ b * ‖X' - X‖ → ‖Fr X'‖ ≤ 4 / 3 * (q + b) * ‖Fr X‖ + 2 * (η + ρ + ζ)) := by
  have hZn : 0 ≤ ‖Z‖ := norm_nonneg Z
  have h1 : ‖Fr X - Z‖ ≤ q * ‖Z‖ + ρ + η := by
    rw [pi_norm_le_iff_of_nonneg (by positivity)]
    intro i
    have e1 : ∑ l, J i l * Z l = Z i + ∑ l, (J i l - if i = l then 1 else 0) * Z l := by
      simp only [sub_mul, Finset.sum_sub_distrib, ite_mul, one_mul, zero_mul, Finset.sum_ite_eq, Finset.mem_univ, if_true]
      ring
    have e2 : |∑ l, (J i l - if i = l then 1 else 0) * Z l| ≤ q * ‖Z‖ := by
      refine (Finset.abs_sum_le_sum_abs _ _).trans ?_
      refine le_trans ?_ (mul_le_mul_of_nonneg_right (hJ i) hZn)
      rw [Finset.sum_mul]
      refine Finset.sum_le_sum fun l _ => ?_
      rw [abs_mul]
      exact mul_le_mul_of_nonneg_left (norm_le_pi_norm Z l) (abs_nonneg _)
    have e3 := abs_le.mp (hz i)
    have e4 := abs_le.mp (hr i)
    have e5 := abs_le.mp e2
    rw [e1] at e3
    rw [Real.norm_eq_abs, Pi.sub_apply]
    exact abs_le.mpr ⟨by linarith, by linarith⟩
  have h2 : ‖Z‖ ≤ 4 / 3 * (‖Fr X‖ + η + ρ) := by
    have e : Z = Fr X - (Fr X - Z) := by abel
    have := norm_sub_le (Fr X) (Fr X - Z)
    rw [← e] at this
    have := mul_le_mul_of_nonneg_right hq hZn
    linarith
  have h3 : ‖X' - (X - Z)‖ ≤ ζ := by
    rw [pi_norm_le_iff_of_nonneg hζ]
    exact fun i => hx i
  have h4 : ‖X' - X‖ ≤ ‖Z‖ + ζ := by
    have e : X' - X = (X' - (X - Z)) - Z := by abel
    rw [e]
    exact (norm_sub_le _ _).trans (by linarith)
  refine ⟨by linarith, fun hl => ?_⟩
  have e : Fr X' = (Fr X' - Fr X - (X' - X)) + (X' - (X - Z)) + (Fr X - Z) := by abel
  have h5 : ‖Fr X'‖ ≤ b * (‖Z‖ + ζ) + ζ + (q * ‖Z‖ + ρ + η) := by
    rw [e]
    refine (norm_add_le _ _).trans (add_le_add ((norm_add_le _ _).trans (add_le_add (hl.trans ?_) h3)) h1)
    exact mul_le_mul_of_nonneg_left h4 hb0
  have h6 : (q + b) * ‖Z‖ ≤ (q + b) * (4 / 3 * (‖Fr X‖ + η + ρ)) := mul_le_mul_of_nonneg_left h2 (by linarith)
  have h7 : (q + b) * (η + ρ) ≤ 3 / 8 * (η + ρ) := mul_le_mul_of_nonneg_right hqb (by linarith)
  have h8 : b * ζ ≤ 3 / 8 * ζ := mul_le_mul_of_nonneg_right (by linarith) hζ
  linarith

theorem inexact_newton {n : ℕ} {Fr : Vec ℝ n → Vec ℝ n} {xs : ℕ → Vec ℝ n} {good : ℕ → Prop} {K : ℕ} {a0 η ρ ζ q b : ℝ} (hη : 0 ≤ η) (hρ : 0 ≤ ρ)
    (hζ : 0 ≤ ζ) (hq0 : 0 ≤ q) (hb0 : 0 ≤ b) (hq : q ≤ 1 / 4) (hqb : q + b ≤ 3 / 8) (h0 : good 0) (ha : ‖Fr (xs 0)‖ ≤ a0)
    (hlip : ∀ z w, ‖z - xs 0‖ ≤ 6 * a0 + 16 * (η + ρ + ζ) → ‖w - xs 0‖ ≤ 6 * a0 + 16 * (η + ρ + ζ) → ‖Fr z - Fr w - (z - w)‖ ≤ b * ‖z - w‖)
    (hstep : ∀ k < K, good k → ‖xs k - xs 0‖ ≤ 4 * a0 + 8 * (η + ρ + ζ) → ‖Fr (xs k)‖ ≤ a0 + 4 * (η + ρ + ζ) →
      good (k + 1) ∧ ∃ (J : Fin n → Fin n → ℝ) (Z r : Vec ℝ n), (∀ i, |r i - Fr (xs k) i| ≤ η) ∧ (∀ i, |∑ l, J i l * Z l - r i| ≤ ρ) ∧
        (∀ i, ∑ l, |J i l - if i = l then 1 else 0| ≤ q) ∧ ∀ i, |xs (k + 1) i - (xs k i - Z i)| ≤ ζ) :
    ∀ k ≤ K, good k ∧ ‖xs k - xs 0‖ ≤ 4 * a0 + 8 * (η + ρ + ζ) ∧ ‖Fr (xs k)‖ ≤ a0 + 4 * (η + ρ + ζ) ∧
      (1 ≤ k → ‖Fr (xs k)‖ ≤ 4 / 3 * (q + b) * a0 + 4 * (η + ρ + ζ)) := by
  have ha0 : 0 ≤ a0 := (norm_nonneg _).trans ha
  intro k
  induction k with
  | zero =>
    intro _
    exact ⟨h0, by rw [sub_self, norm_zero]; positivity, by linarith, by omega⟩
  | succ k ih =>
    intro hk
    obtain ⟨g1, g2, g3, -⟩ := ih (by omega)
    obtain ⟨k1, J, Z, r, k2, k3, k4, k5⟩ := hstep k (by omega) g1 g2 g3
    obtain ⟨m1, m2⟩ := inexact_update hη hρ hζ hq0 hb0 hq hqb k2 k3 k4 k5
    have hball : ‖xs (k + 1) - xs 0‖ ≤ 6 * a0 + 16 * (η + ρ + ζ) := by
      have e : xs (k + 1) - xs 0 = (xs (k + 1) - xs k) + (xs k - xs 0) := by abel
      rw [e]
      exact (norm_add_le _ _).trans (by linarith)
    have m3 := m2 (hlip _ _ hball (by linarith))
    have m4 : 4 / 3 * (q + b) * ‖Fr (xs k)‖ ≤ 4 / 3 * (q + b) * (a0 + 4 * (η + ρ + ζ)) := mul_le_mul_of_nonneg_left g3 (by linarith)
    have m5 : (q + b) * (η + ρ + ζ) ≤ 3 / 8 * (η + ρ + ζ) := mul_le_mul_of_nonneg_right hqb (by linarith)
    have m6 : (q + b) * a0 ≤ 3 / 8 * a0 := mul_le_mul_of_nonneg_right hqb ha0
    have m7 : ‖Fr (xs (k + 1))‖ ≤ 4 / 3 * (q + b) * a0 + 4 * (η + ρ + ζ) := by linarith
    have m8 : ‖Fr (xs (k + 1))‖ ≤ a0 + 4 * (η + ρ + ζ) := by linarith
    refine ⟨k1, ?_, m8, fun _ => m7⟩
    have l1 := hlip (xs (k + 1)) (xs 0) hball (by rw [sub_self, norm_zero]; positivity)
    have e : xs (k + 1) - xs 0 = (Fr (xs (k + 1)) - Fr (xs 0)) - (Fr (xs (k + 1)) - Fr (xs 0) - (xs (k + 1) - xs 0)) := by abel
    have l2 := norm_sub_le (Fr (xs (k + 1)) - Fr (xs 0)) (Fr (xs (k + 1)) - Fr (xs 0) - (xs (k + 1) - xs 0))
    rw [← e] at l2
    have l3 := norm_sub_le (Fr (xs (k + 1))) (Fr (xs 0))
    have l4 : b * ‖xs (k + 1) - xs 0‖ ≤ 3 / 8 * ‖xs (k + 1) - xs 0‖ := mul_le_mul_of_nonneg_right (by linarith) (norm_nonneg _)
    linarith

/-! ### the Newton iteration of `bdf` with rounding errors -/

section
variable {F : Type} [Add F] [Sub F] [Mul F] [Div F] [Neg F] [Scalar F] {n : ℕ} {u B : ℝ}

/-- Systems near the identity with right-hand sides up to one, if solved at all, are solved with finite results and a residual of at most `ρ`. -/
def SolveAccurate (A : FloatArith F u B) (la : LinAlg F) (n : ℕ) (ρ : ℝ) : Prop :=
  ∀ (J : Mat F n) (r z : Vec F n), (∀ i l, isFin (J i l) = true) → (∀ i, ∑ l, |A.val (J i l) - if i = l then 1 else 0| ≤ 1 / 4) →
    (∀ i, isFin (r i) = true) → (∀ i, |A.val (r i)| ≤ 1) → la.solve J r = some z →
    (∀ i, isFin (z i) = true) ∧ ∀ i, |∑ l, A.val (J i l) * A.val (z l) - A.val (r i)| ≤ ρ

/-- The computed "Jacobi matrix" has finite entries and row sums of at most `Jb` at all representable points with time in `[a, b]` and value
within two of `U`.  Nothing is said about its being near the derivative of anything. -/
def JacBounded (A : FloatArith F u B) (U : ℝ → Vec ℝ n) (a b Jb : ℝ) (jF : F → Vec F n → Mat F n) : Prop :=
  ∀ (t : F) (y : Vec F n), isFin t = true → (∀ k, isFin (y k) = true) → a ≤ A.val t → A.val t ≤ b → ‖A.vec y - U (A.val t)‖ ≤ 2 →
    ∀ i, (∀ l, isFin (jF t y i l) = true) ∧ ∑ l, |A.val (jF t y i l)| ≤ Jb

/-- what is known of a solution and its right-hand side near it -/
structure SolFacts (f : ℝ → Vec ℝ n → Vec ℝ n) (U : ℝ → Vec ℝ n) (a b R L Bf K : ℝ) : Prop where
  hR : 0 ≤ R
  hL : 0 ≤ L
  hBf : 0 ≤ Bf
  hK : 0 ≤ K
  hub : ∀ t ∈ Icc a b, ‖U t‖ ≤ R
  hlip : ∀ t ∈ Icc a b, ∀ y z, ‖y‖ ≤ R + 100 → ‖z‖ ≤ R + 100 → ‖f t y - f t z‖ ≤ L * ‖y - z‖
  hbd : ∀ t ∈ Icc a b, ∀ y, ‖y‖ ≤ R + 100 → ‖f t y‖ ≤ Bf
  hul : ∀ s ∈ Icc a b, ∀ t ∈ Icc a b, ‖U s - U t‖ ≤ Bf * |s - t|
  hcons : ∀ s ∈ Icc a b, ∀ t ∈ Icc a b, ‖U s - U t - (s - t) • f t (U t)‖ ≤ K * (s - t) ^ 2

/-- the equation of `bdf` in exact arithmetic -/
noncomputable def bdfReal (f : ℝ → Vec ℝ n → Vec ℝ n) (order : ℤ) (H t : ℝ) (v : ℕ → Vec ℝ n) : Vec ℝ n → Vec ℝ n :=
  (bdfEq ⟨f, fun _ _ _ _ => 0⟩ order H t v).fn

theorem bdfReal_eq (f : ℝ → Vec ℝ n → Vec ℝ n) (order : ℤ) (H t : ℝ) (v : ℕ → Vec ℝ n) (z : Vec ℝ n) :
    bdfReal f order H t v z = z + ∑ j ∈ Finset.range order.toNat, (bdfC order j : ℝ) • v j - (H * bdfW order) • f t z :=
  bdfEq_vec order H t v z

/-- the residual of the newest value -/
theorem bdfReal_start {f : ℝ → Vec ℝ n → Vec ℝ n} {U : ℝ → Vec ℝ n} {a b R L Bf K : ℝ} (S : SolFacts f U a b R L Bf K) {order : ℤ} (h0 : 0 < order)
    (h6 : order ≤ 6) {H ω σ τ : ℝ} {s : ℕ → ℝ} {V : ℕ → Vec ℝ n} (hH0 : 0 ≤ H) (hω : 0 ≤ ω) (hτ : τ ∈ Icc a b) (hs : ∀ j < order.toNat, s j ∈ Icc a b)
    (hs0 : ∀ j < order.toNat, |s j - s 0| ≤ 5 * (H + ω)) (hV : ∀ j < order.toNat, ‖V j - U (s j)‖ ≤ σ) (hσ : σ ≤ 1) :
    ‖bdfReal f order H τ V (V 0)‖ ≤ 22 * σ + 177 * (Bf * (H + ω)) := by
  have hk : 0 < order.toNat := by omega
  have hV0 : ‖V 0‖ ≤ R + 100 := by
    have e : V 0 = (V 0 - U (s 0)) + U (s 0) := by abel
    rw [e]
    exact (norm_add_le _ _).trans (by linarith [hV 0 hk, S.hub _ (hs 0 hk)])
  have hBHω : 0 ≤ Bf * (H + ω) := mul_nonneg S.hBf (by linarith)
  have hBω : 0 ≤ Bf * ω := mul_nonneg S.hBf hω
  have := bdf_start_residual (fn := ⟨f, fun _ _ _ _ => 0⟩) (t := τ) (v := V) (U := fun _ => U (s 0)) (σ := σ + 5 * (Bf * (H + ω))) h0 h6 hH0 S.hBf ?_ ?_
    (S.hbd τ hτ _ hV0)
  · refine this.trans ?_
    linarith
  · intro j hj
    have e : V j - U (s 0) = (V j - U (s j)) + (U (s j) - U (s 0)) := by abel
    rw [e]
    refine (norm_add_le _ _).trans (add_le_add (hV j hj) ((S.hul _ (hs j hj) _ (hs 0 hk)).trans ?_))
    refine (mul_le_mul_of_nonneg_left (hs0 j hj) S.hBf).trans (le_of_eq (by ring))
  · intro j _
    rw [sub_self, norm_zero]
    exact mul_nonneg S.hBf (by linarith)

theorem bdf_float_newton {A : FloatArith F u B} {la : LinAlg F} {fn : OdeFun F n} {f : ℝ → Vec ℝ n → Vec ℝ n} {U : ℝ → Vec ℝ n} {a b R L Bf K Jb ε ρ G : ℝ}
    (S : SolFacts f U a b R L Bf K) (hu : 0 ≤ u) (hε : 0 ≤ ε) (hρ : 0 ≤ ρ) (hJb : 0 ≤ Jb) (hacc : RhsAccurate A f U a b ε fn.fn)
    (hjac : JacBounded A U a b Jb fn.jac) (hsol : SolveAccurate A la n ρ) (hG : 25 * R + 79 + Bf + Jb ≤ G) (hGB : big G ≤ B) (hBB : 10000 ≤ B)
    {order : ℤ} (h0 : 0 < order) (h6 : order ≤ 6) {h : F} {H ω σ : ℝ} (hfh : isFin h = true) (hH : A.val h = H) (hH0 : 0 ≤ H) (hH1 : H ≤ 1) (hω : 0 ≤ ω)
    (hc1 : H * (Jb + L) + 5 * n * (u * big G ^ 2) ≤ 1 / 4) (hc2 : 177 * (Bf * (H + ω)) ≤ 1 / 100) (hc3 : H * ε + 50 * (u * big G ^ 2) + ρ ≤ 1 / 100)
    (hc4 : 48 * (u * big G ^ 2) + ε ≤ 1) {t' : F} (ht' : isFin t' = true) (htm : A.val t' ∈ Icc a b) {v : ℕ → Vec F n} {s : ℕ → ℝ}
    (hvf : ∀ j < order.toNat, ∀ k, isFin (v j k) = true) (hs : ∀ j < order.toNat, s j ∈ Icc a b) (hs0 : ∀ j < order.toNat, |s j - s 0| ≤ 5 * (H + ω))
    (hst : |A.val t' - s 0| ≤ H + ω) (hV : ∀ j < order.toNat, ‖A.vec (v j) - U (s j)‖ ≤ σ) (hσ : σ ≤ 1 / 100) {y' : Vec F n} {st st' : NewtonStatus F}
    (hn : newtonIterate la (bdfEq fn order h t' v) (v 0) bdfNewton st true = some (.ret (y', st'))) (hconv : st'.conv = 0) :
    (∀ k, isFin (y' k) = true) ∧ ‖A.vec y'‖ ≤ R + 100 ∧
      ‖bdfReal f order H (A.val t') (fun j => A.vec (v j)) (A.vec y')‖ ≤
        4 / 3 * (H * (Jb + L) + 5 * n * (u * big G ^ 2)) * (22 * σ + 177 * (Bf * (H + ω))) + 4 * (H * ε + 50 * (u * big G ^ 2) + ρ) := by
  have hR := S.hR
  have hL := S.hL
  have hBf := S.hBf
  have hk : 0 < order.toNat := by omega
  have hG1 : 1 ≤ G := by linarith
  obtain ⟨b1, bG, -⟩ := big_facts hG1
  have hub : 0 ≤ u * big G := by positivity
  have hμ : u * big G ≤ u * big G ^ 2 := by
    rw [sq, ← mul_assoc]; exact le_mul_of_one_le_right hub b1
  obtain ⟨μ, hμe⟩ : ∃ μ, μ = u * big G ^ 2 := ⟨_, rfl⟩
  rw [← hμe] at hc1 hc3 hc4 hμ ⊢
  have hμ0 : 0 ≤ μ := by linarith
  have hσ0 : 0 ≤ σ := (norm_nonneg _).trans (hV 0 hk)
  have hHε : 0 ≤ H * ε := by positivity
  have hHJ : 0 ≤ H * Jb := by positivity
  have hHL : 0 ≤ H * L := by positivity
  have hnμ : 0 ≤ 5 * n * μ := by positivity
  have hBHω : 0 ≤ Bf * (H + ω) := by positivity
  have hms : ltb (lit 0 : F) (-lit 1) = false := by
    obtain ⟨k1, k2⟩ := A.int 0 (by norm_num)
    obtain ⟨k3, k4⟩ := A.int 1 (by norm_num)
    rw [Nat.cast_zero] at k1 k2
    rw [Nat.cast_zero] at k2
    rw [Nat.cast_one] at k3 k4
    rw [Nat.cast_one] at k4
    obtain ⟨z1, z2⟩ := A.neg _ k3
    rw [← Bool.not_eq_true, A.lt _ _ k1 z1, k2, z2, k4]
    norm_num
  obtain ⟨xs, ds, x0, hupd, -, hsucc, -⟩ := C27_success hms (by simp [bdfNewton]) hn
  obtain ⟨i1, -, -, -, i2, -⟩ := hsucc hconv
  -- the history
  have hvΓ : ∀ j < order.toNat, ∀ k, |A.val (v j k)| ≤ R + 3 := by
    intro j hj k
    have e : A.vec (v j) = (A.vec (v j) - U (s j)) + U (s j) := by abel
    have h1 := norm_add_le (A.vec (v j) - U (s j)) (U (s j))
    rw [← e] at h1
    have h2 := norm_le_pi_norm (A.vec (v j)) k
    rw [Real.norm_eq_abs] at h2
    exact h2.trans (by linarith [hV j hj, S.hub _ (hs j hj)])
  have hstart := bdfReal_start S h0 h6 hH0 hω htm hs hs0 hV (by linarith)
  obtain ⟨a0, ha0⟩ : ∃ a0, a0 = 22 * σ + 177 * (Bf * (H + ω)) := ⟨_, rfl⟩
  have ha1 : a0 ≤ 1 / 4 := by rw [ha0]; linarith
  have ha00 : 0 ≤ a0 := by rw [ha0]; positivity
  have hx0U : ‖A.vec (v 0) - U (A.val t')‖ ≤ 1 / 10 := by
    have e : A.vec (v 0) - U (A.val t') = (A.vec (v 0) - U (s 0)) + (U (s 0) - U (A.val t')) := by abel
    rw [e]
    have h1 := S.hul _ (hs 0 hk) _ htm
    rw [abs_sub_comm] at h1
    have h2 := mul_le_mul_of_nonneg_left hst hBf
    exact (norm_add_le _ _).trans (by linarith [hV 0 hk])
  have hx0R : ‖A.vec (v 0)‖ ≤ R + 1 := by
    have e : A.vec (v 0) = (A.vec (v 0) - U (A.val t')) + U (A.val t') := by abel
    rw [e]
    exact (norm_add_le _ _).trans (by linarith [S.hub _ htm])
  obtain ⟨hw0, hw1⟩ := bdfW_bounds h0 h6
  have hHW0 : 0 ≤ H * (bdfW order : ℝ) := mul_nonneg hH0 hw0
  have hHW : H * (bdfW order : ℝ) ≤ H := mul_le_of_le_one_right hH0 hw1
  have key := inexact_newton (Fr := bdfReal f order H (A.val t') fun j => A.vec (v j)) (xs := fun k => A.vec (xs k))
    (good := fun k => ∀ p, isFin (xs k p) = true) (K := st'.iters) (a0 := a0) (η := H * ε + 48 * μ) (ρ := ρ) (ζ := 2 * μ) (q := H * Jb + 5 * n * μ) (b := H * L)
    (by positivity) hρ (by positivity) (by positivity) hHL (by linarith) (by linarith) (by rw [x0]; exact hvf 0 hk)
    (by rw [x0, ha0]; exact hstart) ?_ ?_ st'.iters le_rfl
  · obtain ⟨g1, g2, -, g4⟩ := key
    rw [i2]
    refine ⟨g1, ?_, ?_⟩
    · have e : A.vec (xs st'.iters) = (A.vec (xs st'.iters) - A.vec (xs 0)) + A.vec (v 0) := by rw [x0]; abel
      rw [e]
      exact (norm_add_le _ _).trans (by linarith)
    · refine (g4 i1).trans (le_of_eq ?_)
      rw [ha0]
      ring
  · -- the equation is near the identity
    have hball : ∀ z : Vec ℝ n, ‖z - A.vec (xs 0)‖ ≤ 6 * a0 + 16 * (H * ε + 48 * μ + ρ + 2 * μ) → ‖z‖ ≤ R + 100 := by
      intro z hz
      have e : z = (z - A.vec (xs 0)) + A.vec (v 0) := by rw [x0]; abel
      rw [e]
      exact (norm_add_le _ _).trans (by linarith)
    intro z w hz hw
    have e : bdfReal f order H (A.val t') (fun j => A.vec (v j)) z - bdfReal f order H (A.val t') (fun j => A.vec (v j)) w - (z - w) =
        -((H * (bdfW order : ℝ)) • (f (A.val t') z - f (A.val t') w)) := by
      rw [bdfReal_eq, bdfReal_eq, smul_sub]; abel
    rw [e, norm_neg, norm_smul, Real.norm_eq_abs, abs_of_nonneg hHW0]
    calc _ ≤ H * (L * ‖z - w‖) := mul_le_mul hHW (S.hlip _ htm z w (hball z hz) (hball w hw)) (norm_nonneg _) hH0
      _ = _ := by ring
  · -- one update
    intro k hkK hfin hdist hres
    obtain ⟨z, Sc, -, -, hsolve, hd, hx'⟩ := hupd k hkK
    have hnear : ‖A.vec (xs k) - U (A.val t')‖ ≤ 2 := by
      have e : A.vec (xs k) - U (A.val t') = (A.vec (xs k) - A.vec (xs 0)) + (A.vec (v 0) - U (A.val t')) := by rw [x0]; abel
      rw [e]
      exact (norm_add_le _ _).trans (by linarith)
    have hxR : ‖A.vec (xs k)‖ ≤ R + 3 := by
      have e : A.vec (xs k) = (A.vec (xs k) - U (A.val t')) + U (A.val t') := by abel
      rw [e]
      exact (norm_add_le _ _).trans (by linarith [S.hub _ htm])
    have hxΓ : ∀ p, |A.val (xs k p)| ≤ R + 3 := fun p => (norm_le_pi_norm (A.vec (xs k)) p).trans hxR
    have hr := hacc t' (xs k) ht' hfin htm.1 htm.2 hnear
    have hj := hjac t' (xs k) ht' hfin htm.1 htm.2 hnear
    have hfb : ∀ p, |f (A.val t') (A.vec (xs k)) p| ≤ G := fun p =>
      ((norm_le_pi_norm (f (A.val t') (A.vec (xs k))) p).trans (S.hbd _ htm _ (by linarith))).trans (by linarith)
    -- the residual
    have hresN : ∀ p, Near A ((bdfEq fn order h t' v).fn (xs k) p) (bdfReal f order H (A.val t') (fun j => A.vec (v j)) (A.vec (xs k)) p) (H * ε + 48 * μ) := by
      intro p
      have := bdfFn_near (A := A) hu (G := G) (Γ := R + 3) (H := H) (ε := ε) (order := order) (h := h) (v := fun j => v j p) (x := xs k p)
        (g := fn.fn t' (xs k) p) (r := f (A.val t') (A.vec (xs k)) p) (by linarith) (by linarith) hGB hBB h0 h6 (by rw [← hμe]; exact hc4)
        hfh hH hH0 hH1 (fun j hj => hvf j hj p) (fun j hj => hvΓ j hj p) (hfin p) (hxΓ p) (hr p) (hfb p)
      rw [← hμe] at this
      rw [bdfReal_eq]
      simpa [bdfEq, Finset.sum_apply, FloatArith.vec] using this
    -- the matrix
    have hjG : ∀ p l, |A.val (fn.jac t' (xs k) p l)| ≤ G := fun p l =>
      ((Finset.single_le_sum (f := fun l => |A.val (fn.jac t' (xs k) p l)|) (fun _ _ => abs_nonneg _) (Finset.mem_univ l)).trans (hj p).2).trans
        (by linarith)
    have hjN := fun p l => bdfJac_near (A := A) hu (G := G) (H := H) (order := order) (h := h) (g := fn.jac t' (xs k) p l) (by linarith) hGB hBB h0 h6
      (by rw [← hμe]; linarith) hfh hH hH0 hH1 ((hj p).1 l) (hjG p l) p l
    rw [← hμe] at hjN
    have hrow : ∀ p, ∑ l, |A.val ((bdfEq fn order h t' v).jac (xs k) p l) - if p = l then 1 else 0| ≤ H * Jb + 5 * n * μ := by
      intro p
      refine (Finset.sum_le_sum fun l _ => (hjN p l).2).trans ?_
      rw [Finset.sum_add_distrib, ← Finset.mul_sum, Finset.sum_const, Finset.card_univ, Fintype.card_fin, nsmul_eq_mul]
      have := mul_le_mul_of_nonneg_left (hj p).2 hH0
      linarith
    have hsolve' : la.solve ((bdfEq fn order h t' v).jac (xs k)) ((bdfEq fn order h t' v).fn (xs k)) = some z := by
      simpa [bdfNewton, NewtonOpts.dflt] using hsolve
    obtain ⟨q1, q2⟩ := hsol ((bdfEq fn order h t' v).jac (xs k)) ((bdfEq fn order h t' v).fn (xs k)) z (fun p l => (hjN p l).1) (fun p => (hrow p).trans (by linarith)) (fun p => (hresN p).1) (fun p => by
      have h1 := (hresN p).abs_le
      have h2 := (norm_le_pi_norm (bdfReal f order H (A.val t') (fun j => A.vec (v j)) (A.vec (xs k))) p).trans hres
      rw [Real.norm_eq_abs] at h2
      linarith) hsolve'
    have hzn : ‖A.vec z‖ ≤ G := by
      have h1 : ∀ p, |A.val (z p) - A.val ((bdfEq fn order h t' v).fn (xs k) p)| ≤ 1 / 4 * ‖A.vec z‖ + ρ := by
        intro p
        have e1 : ∑ l, A.val ((bdfEq fn order h t' v).jac (xs k) p l) * A.val (z l) =
            A.val (z p) + ∑ l, (A.val ((bdfEq fn order h t' v).jac (xs k) p l) - if p = l then 1 else 0) * A.val (z l) := by
          simp only [sub_mul, Finset.sum_sub_distrib, ite_mul, one_mul, zero_mul, Finset.sum_ite_eq, Finset.mem_univ, if_true]
          ring
        have e2 : |∑ l, (A.val ((bdfEq fn order h t' v).jac (xs k) p l) - if p = l then 1 else 0) * A.val (z l)| ≤ 1 / 4 * ‖A.vec z‖ := by
          refine (Finset.abs_sum_le_sum_abs _ _).trans ?_
          refine le_trans ?_ (mul_le_mul_of_nonneg_right ((hrow p).trans (by linarith)) (norm_nonneg _))
          rw [Finset.sum_mul]
          refine Finset.sum_le_sum fun l _ => ?_
          rw [abs_mul]
          exact mul_le_mul_of_nonneg_left (norm_le_pi_norm (A.vec z) l) (abs_nonneg _)
        have e3 := abs_le.mp (q2 p)
        have e5 := abs_le.mp e2
        rw [e1] at e3
        exact abs_le.mpr ⟨by linarith, by linarith⟩
      have h2 : ‖A.vec z‖ ≤ 1 / 4 * ‖A.vec z‖ + ρ + 1 := by
        rw [pi_norm_le_iff_of_nonneg (by positivity)]
        intro p
        have h3 := (hresN p).abs_le
        have h4 := (norm_le_pi_norm (bdfReal f order H (A.val t') (fun j => A.vec (v j)) (A.vec (xs k))) p).trans hres
        rw [Real.norm_eq_abs] at h4
        have h5 := abs_le.mp (h1 p)
        have h6 := abs_le.mp h3
        rw [Real.norm_eq_abs]
        exact abs_le.mpr ⟨by show _ ≤ A.val (z p); linarith, by show A.val (z p) ≤ _; linarith⟩
      linarith
    have hzG : ∀ p, |A.val (z p)| ≤ G := fun p => (norm_le_pi_norm (A.vec z) p).trans hzn
    have hx1 : xs (k + 1) = fun p => xs k p + lit 1 * (-z p) := by
      rcases hd with hd | ⟨hm, -⟩
      · rw [hx', hd]
        simp [bdfNewton, NewtonOpts.dflt]
      · exfalso
        have : bdfNewton.maxStep = (-lit 1 : F) := by simp [bdfNewton, NewtonOpts.dflt]
        rw [this, hms] at hm
        cases hm
    have hupN := fun p => newtonUpd_near (A := A) hu (G := G) (by linarith) hGB (by linarith) (hfin p) (q1 p) ((hxΓ p).trans (by linarith)) (hzG p)
    refine ⟨fun p => by rw [hx1]; exact (hupN p).1, fun p l => A.val ((bdfEq fn order h t' v).jac (xs k) p l), A.vec z,
      fun p => A.val ((bdfEq fn order h t' v).fn (xs k) p), fun p => (hresN p).2, q2, hrow, fun p => ?_⟩
    rw [hx1]
    exact (hupN p).2.trans (by linarith)

end
end Verif
