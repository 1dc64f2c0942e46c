import Verif.ErkFloat
import Verif.FloatInst
import Verif.Prop.MsConverge

/-!
# Adams-Bashforth in arithmetic with rounding errors
-/

set_option autoImplicit false

namespace Verif
open Set

section
variable {F : Type} [Add F] [Sub F] [Mul F] [Div F] [Neg F] [Scalar F] {n : ℕ}

/-- the values of a run of `adams_bashforth` as a sequence, in any arithmetic -/
theorem ab_sequence {nd : Bool} {la : LinAlg F} {fn : OdeFun F n} {t0 t1 : F} {y0 : Vec F n} {order : ℤ} {dt : F} {st0 : NewtonStatus F}
    {fuelB fuel : ℕ} {out : MsOutput F n} (h5 : order ≤ 5) (h : adamsBashforth nd la fn t0 t1 y0 order dt st0 fuelB fuel = some (.ret out)) :
    ∃ y : ℕ → Vec F n, (∀ (i : ℕ) y', out.yVals[i]? = some y' → y' = y i) ∧ (∀ i < order.toNat, y i = y0) ∧
      ∀ i, order.toNat ≤ i → i < out.yVals.length → y i = fun k => y (i - 1) k + clipDt t0 t1 dt *
        abComb order fun j => fn.fn (gridPt (clipDt t0 t1 dt) t0 (i - 1)) (y (i - 1 - j)) k := by
  obtain ⟨ho, acc, t, y, hR, hboot, ht, hy, hs, hl, hend⟩ := ab_run h
  have hval : ∀ (i : ℕ) (y' : Vec F n), (acc.map Prod.snd)[i]? = some y' → y' = ((acc.map Prod.snd)[i]?).getD y0 := by
    intro i y' h; rw [h]; rfl
  refine ⟨fun i => ((acc.map Prod.snd)[i]?).getD y0, ?_, ?_, ?_⟩
  · intro i y' h; rw [hy] at h; exact hval i y' h
  · intro i hi
    have h1 := congrArg (fun l => l[i]?) hboot
    simp only [List.getElem?_take, if_pos hi, List.getElem?_map, List.getElem?_range hi, Option.map_some] at h1
    simp only [List.getElem?_map, h1, Option.map_some, Option.getD_some]
  · intro i hi hlt
    rw [hy, List.length_map] at hlt
    have ha : acc[i]? = some acc[i] := List.getElem?_eq_getElem hlt
    obtain ⟨tl, yl, v, e1, e2, e3⟩ := hR.step i _ hi ha h5
    have hrec := recent_index hlt.le e2
    rw [List.getLast?_eq_getElem?] at e1
    have hlen : (acc.take i).length - 1 = i - 1 := by simp; omega
    rw [hlen, List.getElem?_take, if_pos (by omega)] at e1
    have htl : tl = gridPt (clipDt t0 t1 dt) t0 (i - 1) := by
      have h1 : (acc.map Prod.fst)[i - 1]? = some tl := by rw [List.getElem?_map, e1]; rfl
      rw [hR.times, List.getElem?_map, List.getElem?_range (by omega), Option.map_some, Option.some.injEq] at h1
      exact h1.symm
    have hyi : ((acc.map Prod.snd)[i]?).getD y0 = acc[i].2 := by rw [List.getElem?_map, ha]; rfl
    have hyl : ((acc.map Prod.snd)[i - 1]?).getD y0 = yl := by rw [List.getElem?_map, e1]; rfl
    have hcong : ∀ (g g' : ℕ → F), (∀ j < order.toNat, g j = g' j) → abComb order g = abComb order g' := by
      intro g g' hg
      have : order = 1 ∨ order = 2 ∨ order = 3 ∨ order = 4 ∨ order = 5 := by omega
      rcases this with rfl | rfl | rfl | rfl | rfl
      · exact hg 0 (by decide)
      · show abC 2 0 * g 0 + _ = _
        rw [hg 0 (by decide), hg 1 (by decide)]; rfl
      · show abC 3 0 * g 0 + abC 3 1 * g 1 + _ = _
        rw [hg 0 (by decide), hg 1 (by decide), hg 2 (by decide)]; rfl
      · show abC 4 0 * g 0 + abC 4 1 * g 1 + abC 4 2 * g 2 + _ = _
        rw [hg 0 (by decide), hg 1 (by decide), hg 2 (by decide), hg 3 (by decide)]; rfl
      · show abC 5 0 * g 0 + abC 5 1 * g 1 + abC 5 2 * g 2 + abC 5 3 * g 3 + _ = _
        rw [hg 0 (by decide), hg 1 (by decide), hg 2 (by decide), hg 3 (by decide), hg 4 (by decide)]; rfl
    simp only []
    rw [hyi, e3, hyl, htl]
    funext p
    congr 2
    refine hcong _ _ fun j hj => ?_
    rw [← hval _ _ (hrec j hj).2]

variable {u B : ℝ} {A : FloatArith F u B}

/-- the weights: rounded, and at most 4 -/
theorem abC_near (A : FloatArith F u B) (hB : 10000 ≤ B) {order : ℤ} (h0 : 0 < order) (h5 : order ≤ 5) (j : ℕ) (hj : j < order.toNat) :
    NearCoef A (abC order j) (abC order j : ℝ) ∧ |(abC order j : ℝ)| ≤ 4 := by
  have hl : ∀ r : ℚ, |(r : ℝ)| ≤ 4 → NearCoef A (lit r) (lit r : ℝ) := fun r hr => nearCoef_lit A r (by linarith)
  have hq : ∀ a b : ℕ, a ≤ 10000 → b ≤ 10000 → 0 < b → NearCoef A (q a b) (q a b : ℝ) := fun a b ha hb hb0 =>
    nearCoef_q A (by omega) (by omega) hb0 (le_trans (by exact_mod_cast ha) hB)
  have hn : ∀ a b : ℕ, a ≤ 10000 → b ≤ 10000 → 0 < b → NearCoef A (nq a b) (nq a b : ℝ) := fun a b ha hb hb0 =>
    nearCoef_nq A (by omega) (by omega) hb0 (le_trans (by exact_mod_cast ha) hB)
  have : order = 1 ∨ order = 2 ∨ order = 3 ∨ order = 4 ∨ order = 5 := by omega
  rcases this with rfl | rfl | rfl | rfl | rfl
  · have : j = 0 := by have : (1 : ℤ).toNat = 1 := rfl
                       omega
    subst this
    exact ⟨hl 1 (by norm_num), by norm_num [abC, abRow]⟩
  · have : j = 0 ∨ j = 1 := by have : (2 : ℤ).toNat = 2 := rfl
                               omega
    rcases this with rfl | rfl
    · exact ⟨hl (3 / 2) (by norm_num [abs_of_pos]), by norm_num [abC, abRow, abs_of_pos]⟩
    · exact ⟨hl (-1 / 2) (by norm_num [abs_div]), by norm_num [abC, abRow, abs_div]⟩
  · have : j = 0 ∨ j = 1 ∨ j = 2 := by have : (3 : ℤ).toNat = 3 := rfl
                                       omega
    rcases this with rfl | rfl | rfl
    · exact ⟨by simpa [abC, abRow] using hq 23 12 (by norm_num) (by norm_num) (by norm_num), by norm_num [abC, abRow, q, abs_div]⟩
    · exact ⟨by simpa [abC, abRow] using hn 16 12 (by norm_num) (by norm_num) (by norm_num), by norm_num [abC, abRow, nq, abs_div]⟩
    · exact ⟨by simpa [abC, abRow] using hq 5 12 (by norm_num) (by norm_num) (by norm_num), by norm_num [abC, abRow, q, abs_div]⟩
  · have : j = 0 ∨ j = 1 ∨ j = 2 ∨ j = 3 := by have : (4 : ℤ).toNat = 4 := rfl
                                               omega
    rcases this with rfl | rfl | rfl | rfl
    · exact ⟨by simpa [abC, abRow] using hq 55 24 (by norm_num) (by norm_num) (by norm_num), by norm_num [abC, abRow, q, abs_div]⟩
    · exact ⟨by simpa [abC, abRow] using hn 59 24 (by norm_num) (by norm_num) (by norm_num), by norm_num [abC, abRow, nq, abs_div]⟩
    · exact ⟨by simpa [abC, abRow] using hq 37 24 (by norm_num) (by norm_num) (by norm_num), by norm_num [abC, abRow, q, abs_div]⟩
    · exact ⟨by simpa [abC, abRow] using hn 9 24 (by norm_num) (by norm_num) (by norm_num), by norm_num [abC, abRow, nq, abs_div]⟩
  · have : j = 0 ∨ j = 1 ∨ j = 2 ∨ j = 3 ∨ j = 4 := by have : (5 : ℤ).toNat = 5 := rfl
                                                       omega
    rcases this with rfl | rfl | rfl | rfl | rfl
    · exact ⟨by simpa [abC, abRow] using hq 1901 720 (by norm_num) (by norm_num) (by norm_num), by norm_num [abC, abRow, q, abs_div]⟩
    · exact ⟨by simpa [abC, abRow] using hn 2774 720 (by norm_num) (by norm_num) (by norm_num), by norm_num [abC, abRow, nq, abs_div]⟩
    · exact ⟨by simpa [abC, abRow] using hq 2616 720 (by norm_num) (by norm_num) (by norm_num), by norm_num [abC, abRow, q, abs_div]⟩
    · exact ⟨by simpa [abC, abRow] using hn 1274 720 (by norm_num) (by norm_num) (by norm_num), by norm_num [abC, abRow, nq, abs_div]⟩
    · exact ⟨by simpa [abC, abRow] using hq 251 720 (by norm_num) (by norm_num) (by norm_num), by norm_num [abC, abRow, q, abs_div]⟩

/-- a weight times a slope -/
theorem ab_term (hu : 0 ≤ u) {G Γ d : ℝ} (hG : 20 * Γ + 4 ≤ G) (hΓ : 0 ≤ Γ) (hB : big G ≤ B) (h5u : 5 * u ≤ 1) (hd1 : d ≤ 1) {c x : F} {r g : ℝ}
    (hc : NearCoef A c r) (hr : |r| ≤ 4) (hx : Near A x g d) (hg : |g| ≤ Γ) : Near A (c * x) (r * g) (4 * d + 6 * u * big G) ∧ |r * g| ≤ 4 * Γ := by
  have hG1 : 1 ≤ G := by linarith
  obtain ⟨b1, -⟩ := big_facts hG1
  have hd0 : 0 ≤ d := (abs_nonneg _).trans hx.2
  have hc' : Near A c r (5 * u) := hc.mono (by
    have := mul_le_mul_of_nonneg_left (show 1 + |r| ≤ 5 by linarith) hu
    linarith)
  have := near_mul hG1 hB hu hc' hx (by linarith) (by linarith) (by positivity) h5u hd1
  refine ⟨this.mono ?_, ?_⟩
  · have := mul_le_mul_of_nonneg_right hr hd0
    linarith
  · rw [abs_mul]
    exact mul_le_mul hr hg (abs_nonneg _) (by norm_num)

/-- the sum of the weighted slopes -/
theorem abComb_near (hu : 0 ≤ u) {G Γ d : ℝ} (hG : 20 * Γ + 4 ≤ G) (hΓ : 0 ≤ Γ) (hB : big G ≤ B) (hBB : 10000 ≤ B) {order : ℤ} (h0 : 0 < order)
    (h5 : order ≤ 5) (hsm : 20 * d + 34 * u * big G ≤ 1) {gF : ℕ → F} {g : ℕ → ℝ} (hx : ∀ j < order.toNat, Near A (gF j) (g j) d)
    (hg : ∀ j < order.toNat, |g j| ≤ Γ) :
    Near A (abComb order gF) (abComb order g) (20 * d + 34 * u * big G) ∧ |abComb order g| ≤ G := by
  have hG1 : 1 ≤ G := by linarith
  obtain ⟨b1, -⟩ := big_facts hG1
  have hd0 : 0 ≤ d := (abs_nonneg _).trans (hx 0 (by omega)).2
  have hub : 0 ≤ u * big G := by positivity
  have hub1 : u ≤ u * big G := le_mul_of_one_le_right hu b1
  obtain ⟨z, hz⟩ : ∃ z, z = u * big G := ⟨_, rfl⟩
  have e34 : 34 * u * big G = 34 * z := by rw [hz]; ring
  rw [e34] at hsm ⊢
  rw [← hz] at hub hub1
  have term : ∀ j < order.toNat, Near A (abC order j * gF j) (abC order j * g j) (4 * d + 6 * z) ∧ |(abC order j : ℝ) * g j| ≤ 4 * Γ := by
    intro j hj
    obtain ⟨c1, c2⟩ := abC_near A hBB h0 h5 j hj
    have := ab_term hu hG hΓ hB (by linarith) (by linarith) c1 c2 (hx j hj) (hg j hj)
    rw [show 6 * u * big G = 6 * z by rw [hz]; ring] at this
    exact this
  have sum : ∀ {x y : F} {v w e : ℝ} {m : ℕ}, m ≤ 4 → Near A x v e ∧ |v| ≤ m * (4 * Γ) → e ≤ 1 → Near A y w (4 * d + 6 * z) ∧ |w| ≤ 4 * Γ →
      Near A (x + y) (v + w) (e + (4 * d + 6 * z) + z) ∧ |v + w| ≤ (m + 1 : ℕ) * (4 * Γ) := by
    intro x y v w e m hm h1 he h2
    have hm' : (m : ℝ) ≤ 4 := by exact_mod_cast hm
    have := mul_le_mul_of_nonneg_right hm' (show 0 ≤ 4 * Γ by linarith)
    have h3 := near_add hG1 hB hu h1.1 h2.1 (h1.2.trans (by linarith)) (h2.2.trans (by linarith)) he (by linarith)
    rw [← hz] at h3
    refine ⟨h3, (abs_add_le _ _).trans ?_⟩
    push_cast
    linarith [h1.2, h2.2]
  have fin : ∀ {x : F} {v e : ℝ} {m : ℕ}, m ≤ 5 → Near A x v e ∧ |v| ≤ m * (4 * Γ) → e ≤ 20 * d + 34 * z → Near A x v (20 * d + 34 * z) ∧ |v| ≤ G := by
    intro x v e m hm h1 he
    have hm' : (m : ℝ) ≤ 5 := by exact_mod_cast hm
    have := mul_le_mul_of_nonneg_right hm' (show 0 ≤ 4 * Γ by linarith)
    exact ⟨h1.1.mono he, h1.2.trans (by linarith)⟩
  have one : ∀ {x : F} {v e : ℝ}, Near A x v e ∧ |v| ≤ 4 * Γ → Near A x v e ∧ |v| ≤ (1 : ℕ) * (4 * Γ) := fun h => by simpa using h
  have : order = 1 ∨ order = 2 ∨ order = 3 ∨ order = 4 ∨ order = 5 := by omega
  rcases this with rfl | rfl | rfl | rfl | rfl
  · exact ⟨(hx 0 (by decide)).mono (by linarith), (hg 0 (by decide)).trans (by linarith)⟩
  · have s1 := sum (by norm_num) (one (term 0 (by decide))) (by linarith) (term 1 (by decide))
    exact fin (by norm_num) s1 (by linarith)
  · have s1 := sum (by norm_num) (one (term 0 (by decide))) (by linarith) (term 1 (by decide))
    have s2 := sum (by norm_num) s1 (by linarith) (term 2 (by decide))
    exact fin (by norm_num) s2 (by linarith)
  · have s1 := sum (by norm_num) (one (term 0 (by decide))) (by linarith) (term 1 (by decide))
    have s2 := sum (by norm_num) s1 (by linarith) (term 2 (by decide))
    have s3 := sum (by norm_num) s2 (by linarith) (term 3 (by decide))
    exact fin (by norm_num) s3 (by linarith)
  · have s1 := sum (by norm_num) (one (term 0 (by decide))) (by linarith) (term 1 (by decide))
    have s2 := sum (by norm_num) s1 (by linarith) (term 2 (by decide))
    have s3 := sum (by norm_num) s2 (by linarith) (term 3 (by decide))
    have s4 := sum (by norm_num) s3 (by linarith) (term 4 (by decide))
    exact fin (by norm_num) s4 (by linarith)

/-- the rounding error of one component of a step -/
theorem abStep_near (hu : 0 ≤ u) {G Γ d H : ℝ} (hG : 20 * Γ + 4 ≤ G) (hΓ : 0 ≤ Γ) (hB : big G ≤ B) (hBB : 10000 ≤ B) {order : ℤ} (h0 : 0 < order)
    (h5 : order ≤ 5) (hsm : 20 * d + 36 * u * big G ≤ 1) {gF : ℕ → F} {g : ℕ → ℝ} (hx : ∀ j < order.toNat, Near A (gF j) (g j) d)
    (hg : ∀ j < order.toNat, |g j| ≤ Γ) {dt y : F} (hdt : isFin dt = true) (hH : A.val dt = H) (hH0 : 0 ≤ H) (hH1 : H ≤ 1)
    (hy : isFin y = true) (hyG : |A.val y| ≤ G) :
    Near A (y + dt * abComb order gF) (A.val y + H * abComb order g) (20 * H * d + 36 * u * big G) := by
  have hG1 : 1 ≤ G := by linarith
  obtain ⟨b1, -⟩ := big_facts hG1
  have hd0 : 0 ≤ d := (abs_nonneg _).trans (hx 0 (by omega)).2
  have hub : 0 ≤ u * big G := by positivity
  obtain ⟨c1, c2⟩ := abComb_near hu hG hΓ hB hBB h0 h5 (by linarith) hx hg
  obtain ⟨z, hz⟩ : ∃ z, z = u * big G := ⟨_, rfl⟩
  have e34 : 34 * u * big G = 34 * z := by rw [hz]; ring
  have e36 : 36 * u * big G = 36 * z := by rw [hz]; ring
  rw [e34] at c1
  rw [e36] at hsm ⊢
  rw [← hz] at hub
  have m1 := near_mul hG1 hB hu (Near.self hdt) c1 (by rw [hH, abs_of_nonneg hH0]; linarith) c2 le_rfl zero_le_one (by linarith)
  rw [hH, abs_of_nonneg hH0, ← hz] at m1
  have hHd : H * (20 * d + 34 * z) ≤ 20 * H * d + 34 * z := by nlinarith
  have hHd1 : H * d ≤ d := mul_le_of_le_one_left hd0 hH1
  have hm : |H * abComb order g| ≤ G := by
    rw [abs_mul, abs_of_nonneg hH0]
    exact (mul_le_of_le_one_left (abs_nonneg _) hH1).trans c2
  have m2 := near_add hG1 hB hu (Near.self hy) m1 hyG hm zero_le_one (by linarith)
  rw [← hz] at m2
  exact m2.mono (by linarith)

/-! ### the times -/

/-- the times of a run: finite, in the interval, one step apart up to rounding -/
theorem ab_times {t0 t1 h : F} {a b δ W H : ℝ} {first N : ℕ} (hu : 0 ≤ u) (hf0 : isFin t0 = true) (hf1 : isFin t1 = true) (hfh : isFin h = true)
    (hH : A.val h = H) (hH0 : 0 ≤ H) (hH1 : H ≤ 1) (ha : |a| ≤ W) (hb : |b| ≤ W) (hWB : W + 1 ≤ B) (h0 : a + δ ≤ A.val t0)
    (h01 : A.val t0 ≤ A.val t1) (h1 : A.val t1 ≤ b - δ) (hδ : 11 * (H + u * (W + 2)) ≤ δ) (hN : N * (u * (W + 2)) ≤ δ) (hfirst : first ≤ 10)
    (hbef : ∀ i, first ≤ i + 1 → i + 1 < N → ltb (gridPt h t0 i) t1 = true) :
    (∀ i < N, isFin (gridPt h t0 i) = true ∧ a ≤ A.val (gridPt h t0 i) ∧ A.val (gridPt h t0 i) ≤ b ∧
      |A.val (gridPt h t0 i) - (A.val t0 + i * H)| ≤ i * (u * (W + 2))) ∧
    ∀ i, i + 1 < N → |A.val (gridPt h t0 (i + 1)) - A.val (gridPt h t0 i) - H| ≤ u * (W + 2) := by
  have hW : 0 ≤ W := (abs_nonneg _).trans ha
  obtain ⟨ω, hω⟩ : ∃ ω, ω = u * (W + 2) := ⟨_, rfl⟩
  have hω0 : 0 ≤ ω := by rw [hω]; positivity
  rw [← hω] at hδ hN
  have hstep : ∀ i, isFin (gridPt h t0 i) = true → a ≤ A.val (gridPt h t0 i) → A.val (gridPt h t0 i) ≤ b →
      isFin (gridPt h t0 (i + 1)) = true ∧ |A.val (gridPt h t0 (i + 1)) - A.val (gridPt h t0 i) - H| ≤ ω := by
    intro i e1 e2 e3
    have g1 := abs_le.mp ha
    have g2 := abs_le.mp hb
    have e4 : |A.val (gridPt h t0 i) + A.val h| ≤ W + 1 := by rw [hH]; exact abs_le.mpr ⟨by linarith, by linarith⟩
    obtain ⟨k1, k2⟩ := A.add _ _ e1 hfh (by linarith)
    refine ⟨k1, ?_⟩
    rw [hω, sub_sub]
    rw [hH] at k2 e4
    exact k2.trans (mul_le_mul_of_nonneg_left (by linarith) hu)
  have hall : ∀ i < N, isFin (gridPt h t0 i) = true ∧ a ≤ A.val (gridPt h t0 i) ∧ A.val (gridPt h t0 i) ≤ b ∧
      |A.val (gridPt h t0 i) - (A.val t0 + i * H)| ≤ i * ω := by
    intro i
    induction i with
    | zero => intro _; exact ⟨hf0, by show a ≤ A.val t0; linarith, by show A.val t0 ≤ b; linarith, by simp [gridPt]⟩
    | succ i ih =>
      intro hi
      obtain ⟨e1, e2, e3, e4⟩ := ih (by omega)
      obtain ⟨k1, k2⟩ := hstep i e1 e2 e3
      have k3 := abs_le.mp k2
      have e5 := abs_le.mp e4
      have hcast : ((i + 1 : ℕ) : ℝ) = i + 1 := by push_cast; ring
      have k4 : |A.val (gridPt h t0 (i + 1)) - (A.val t0 + (i + 1 : ℕ) * H)| ≤ (i + 1 : ℕ) * ω := by
        rw [hcast]
        exact abs_le.mpr ⟨by linarith, by linarith⟩
      refine ⟨k1, ?_, ?_, k4⟩
      · have k5 := (abs_le.mp k4).1
        have k6 : ((i + 1 : ℕ) : ℝ) * ω ≤ N * ω := mul_le_mul_of_nonneg_right (by exact_mod_cast hi.le) hω0
        have k7 : 0 ≤ ((i + 1 : ℕ) : ℝ) * H := by positivity
        linarith
      · by_cases hc : first ≤ i + 1
        · have := (A.lt _ _ e1 hf1).mp (hbef i hc hi)
          linarith
        · have k5 := (abs_le.mp k4).2
          have k6 : ((i + 1 : ℕ) : ℝ) * (H + ω) ≤ 10 * (H + ω) :=
            mul_le_mul_of_nonneg_right (by exact_mod_cast (show i + 1 ≤ 10 by omega)) (by linarith)
          linarith
  rw [← hω]
  exact ⟨hall, fun i hi => (hstep i (hall i (by omega)).1 (hall i (by omega)).2.1 (hall i (by omega)).2.2.1).2⟩

end

/-- times `j` steps apart -/
theorem times_apart {T : ℕ → ℝ} {H ω : ℝ} {N : ℕ} (hH : 0 ≤ H) (hs : ∀ i, i + 1 < N → |T (i + 1) - T i - H| ≤ ω) (i j : ℕ)
    (hij : i + j < N) : |T (i + j) - T i| ≤ j * (H + ω) := by
  induction j with
  | zero => simp
  | succ j ih =>
    have h1 := ih (by omega)
    have h2 := abs_le.mp (hs (i + j) (by omega))
    have h3 := abs_le.mp h1
    rw [show i + (j + 1) = i + j + 1 from rfl]
    push_cast
    exact abs_le.mpr ⟨by linarith, by linarith⟩

/-! ### the error of one step -/

theorem abC_le {order : ℤ} (h0 : 0 < order) (h5 : order ≤ 5) (j : ℕ) (hj : j < order.toNat) : |(abC order j : ℝ)| ≤ 4 :=
  (abC_near (realArith 10000) le_rfl h0 h5 j hj).2

/-- how the error of a step depends on the errors before it, for the exact right-hand side -/
theorem ab_recursion {n : ℕ} {f : ℝ → Vec ℝ n → Vec ℝ n} {U : ℝ → Vec ℝ n} {a b R L Bf K : ℝ} (hL : 0 ≤ L) (hBf : 0 ≤ Bf)
    (hub : ∀ t ∈ Icc a b, ‖U t‖ ≤ R)
    (hlip : ∀ t ∈ Icc a b, ∀ y z, ‖y‖ ≤ R + 100 → ‖z‖ ≤ R + 100 → ‖f t y - f t z‖ ≤ L * ‖y - z‖)
    (hbd : ∀ t ∈ Icc a b, ∀ y, ‖y‖ ≤ R + 100 → ‖f t y‖ ≤ Bf)
    (hul : ∀ s ∈ Icc a b, ∀ t ∈ Icc a b, ‖U s - U t‖ ≤ Bf * |s - t|)
    (hcons : ∀ s ∈ Icc a b, ∀ t ∈ Icc a b, ‖U s - U t - (s - t) • f t (U t)‖ ≤ K * (s - t) ^ 2) (hK : 0 ≤ K)
    {order : ℤ} (h0 : 0 < order) (h5 : order ≤ 5) {τ τ' H ω r E : ℝ} (hτ : τ ∈ Icc a b) (hτ' : τ' ∈ Icc a b) (hH : 0 ≤ H) (hω : 0 ≤ ω)
    (hω1 : ω ≤ 1) (hd : |τ' - τ - H| ≤ ω) {Y Y' : Vec ℝ n} {V : ℕ → Vec ℝ n} {s : ℕ → ℝ} (hE1 : E ≤ 1) (hY : ‖Y - U τ‖ ≤ E)
    (hs : ∀ j < order.toNat, s j ∈ Icc a b ∧ |s j - τ| ≤ 4 * (H + ω) ∧ ‖V j - U (s j)‖ ≤ E) (hr0 : 0 ≤ r)
    (hr : ∀ k, |Y' k - (Y k + H * abComb order fun j => f τ (V j) k)| ≤ r) :
    ‖Y' - U τ'‖ ≤ (1 + 20 * L * H) * E + (H * (80 * L * Bf * (H + ω) + K * (H + 2 * ω)) + (r + (K + Bf) * ω)) := by
  have hR : 0 ≤ R := (norm_nonneg _).trans (hub τ hτ)
  have hV : ∀ j < order.toNat, ‖V j - U τ‖ ≤ E + 4 * Bf * (H + ω) ∧ ‖V j‖ ≤ R + 100 := by
    intro j hj
    obtain ⟨s1, s2, s3⟩ := hs j hj
    constructor
    · have e : V j - U τ = (V j - U (s j)) + (U (s j) - U τ) := by abel
      rw [e]
      refine (norm_add_le _ _).trans ?_
      have := (hul _ s1 _ hτ).trans (mul_le_mul_of_nonneg_left s2 hBf)
      linarith
    · have e : V j = (V j - U (s j)) + U (s j) := by abel
      rw [e]
      refine (norm_add_le _ _).trans ?_
      linarith [hub _ s1]
  have hE0 : 0 ≤ E := (norm_nonneg _).trans hY
  -- the sum of the slopes
  have hsum : ‖(∑ j ∈ Finset.range order.toNat, (abC order j : ℝ) • f τ (V j)) - f τ (U τ)‖ ≤ 20 * (L * (E + 4 * Bf * (H + ω))) := by
    have e : (∑ j ∈ Finset.range order.toNat, (abC order j : ℝ) • f τ (V j)) - f τ (U τ) =
        ∑ j ∈ Finset.range order.toNat, (abC order j : ℝ) • (f τ (V j) - f τ (U τ)) := by
      simp only [smul_sub, Finset.sum_sub_distrib, ← Finset.sum_smul, abC_sum h0 h5, one_smul]
    rw [e]
    refine (norm_sum_le _ _).trans ?_
    have hle : ∀ j ∈ Finset.range order.toNat, ‖(abC order j : ℝ) • (f τ (V j) - f τ (U τ))‖ ≤ 4 * (L * (E + 4 * Bf * (H + ω))) := by
      intro j hj
      have hj' := Finset.mem_range.mp hj
      rw [norm_smul, Real.norm_eq_abs]
      refine mul_le_mul (abC_le h0 h5 j hj') ?_ (norm_nonneg _) (by norm_num)
      exact (hlip τ hτ _ _ (hV j hj').2 (by linarith [hub τ hτ])).trans (mul_le_mul_of_nonneg_left (hV j hj').1 hL)
    refine (Finset.sum_le_sum hle).trans ?_
    rw [Finset.sum_const, Finset.card_range, nsmul_eq_mul, ← mul_assoc]
    have : ((order.toNat : ℕ) : ℝ) ≤ 5 := by exact_mod_cast (show order.toNat ≤ 5 by omega)
    exact mul_le_mul_of_nonneg_right (by linarith) (by positivity)
  have hrnd : ‖Y' - (Y + H • ∑ j ∈ Finset.range order.toNat, (abC order j : ℝ) • f τ (V j))‖ ≤ r := by
    rw [pi_norm_le_iff_of_nonneg hr0]
    intro k
    have := hr k
    rw [abComb_real h0 h5] at this
    simpa [Finset.sum_apply] using this
  have key : Y' - U τ' = (Y' - (Y + H • ∑ j ∈ Finset.range order.toNat, (abC order j : ℝ) • f τ (V j))) + (Y - U τ) +
      H • ((∑ j ∈ Finset.range order.toNat, (abC order j : ℝ) • f τ (V j)) - f τ (U τ)) -
      (U τ' - U τ - (τ' - τ) • f τ (U τ)) - (τ' - τ - H) • f τ (U τ) := by
    simp only [smul_sub, sub_smul]
    abel
  have hc := hcons _ hτ' _ hτ
  have hd' := abs_le.mp hd
  have hsq : (τ' - τ) ^ 2 ≤ H * (H + 2 * ω) + ω := by
    have h1 : (τ' - τ - H) ^ 2 ≤ ω := by
      have : (τ' - τ - H) ^ 2 ≤ ω ^ 2 := sq_le_sq' hd'.1 hd'.2
      nlinarith
    nlinarith
  have hfU : ‖(τ' - τ - H) • f τ (U τ)‖ ≤ ω * Bf := by
    rw [norm_smul, Real.norm_eq_abs]
    exact mul_le_mul hd (hbd τ hτ _ (by linarith [hub τ hτ])) (norm_nonneg _) hω
  have hHs : ‖H • ((∑ j ∈ Finset.range order.toNat, (abC order j : ℝ) • f τ (V j)) - f τ (U τ))‖ ≤ H * (20 * (L * (E + 4 * Bf * (H + ω)))) := by
    rw [norm_smul, Real.norm_eq_abs, abs_of_nonneg hH]
    exact mul_le_mul_of_nonneg_left hsum hH
  have hKsq := mul_le_mul_of_nonneg_left hsq hK
  rw [key]
  refine (norm_sub_le _ _).trans ?_
  refine (add_le_add (norm_sub_le _ _) le_rfl).trans ?_
  refine (add_le_add (add_le_add (norm_add_le _ _) le_rfl) le_rfl).trans ?_
  refine (add_le_add (add_le_add (add_le_add (norm_add_le _ _) le_rfl) le_rfl) le_rfl).trans ?_
  have : (1 + 20 * L * H) * E + (H * (80 * L * Bf * (H + ω) + K * (H + 2 * ω)) + (r + (K + Bf) * ω)) =
      r + E + H * (20 * (L * (E + 4 * Bf * (H + ω)))) + K * (H * (H + 2 * ω) + ω) + ω * Bf := by ring
  rw [this]
  linarith

/-! ### the error of a run -/

/-- the bound for the error of sample `i` -/
noncomputable def abBnd (Λ H D X c : ℝ) (i : ℕ) : ℝ := Real.exp (Λ * (i * H)) * (i * H * D + (X + i * c))

theorem abBnd_mono {Λ H D X c : ℝ} (hΛ : 0 ≤ Λ) (hH : 0 ≤ H) (hD : 0 ≤ D) (hX : 0 ≤ X) (hc : 0 ≤ c) {i j : ℕ} (hij : i ≤ j) :
    abBnd Λ H D X c i ≤ abBnd Λ H D X c j := by
  have h : (i : ℝ) ≤ j := by exact_mod_cast hij
  have h1 : (i : ℝ) * H ≤ j * H := mul_le_mul_of_nonneg_right h hH
  unfold abBnd
  refine mul_le_mul (Real.exp_le_exp.mpr (mul_le_mul_of_nonneg_left h1 hΛ)) ?_ (by positivity) (Real.exp_nonneg _)
  have h2 := mul_le_mul_of_nonneg_right h1 hD
  have h3 := mul_le_mul_of_nonneg_right h hc
  linarith

theorem abBnd_ge {Λ H D X c : ℝ} (hΛ : 0 ≤ Λ) (hH : 0 ≤ H) (hD : 0 ≤ D) (hX : 0 ≤ X) (hc : 0 ≤ c) (i : ℕ) : X ≤ abBnd Λ H D X c i := by
  refine le_trans ?_ (abBnd_mono hΛ hH hD hX hc (Nat.zero_le i))
  simp [abBnd]

theorem abBnd_succ {Λ H D X c e e' : ℝ} (hΛ : 0 ≤ Λ) (hH : 0 ≤ H) (hD : 0 ≤ D) (hX : 0 ≤ X) (hc : 0 ≤ c) {i : ℕ} (he : e ≤ abBnd Λ H D X c i)
    (he' : e' ≤ (1 + Λ * H) * e + (H * D + c)) : e' ≤ abBnd Λ H D X c (i + 1) := by
  have hS : ((i + 1 : ℕ) : ℝ) * H = i * H + H := by push_cast; ring
  have := gronwall_step (S := i * H) (S' := ((i + 1 : ℕ) : ℝ) * H) (X := X + i * c) hΛ (by positivity) hH hD (by positivity) hc he he' hS.ge
  refine this.trans (le_of_eq ?_)
  unfold abBnd
  push_cast
  ring

section
variable {F : Type} [Add F] [Sub F] [Mul F] [Div F] [Neg F] [Scalar F] {n : ℕ} {u B : ℝ} {A : FloatArith F u B}

theorem ab_errors {f : ℝ → Vec ℝ n → Vec ℝ n} {U : ℝ → Vec ℝ n} {a b R L Bf K : ℝ} (hR : 0 ≤ R) (hL : 0 ≤ L) (hBf : 0 ≤ Bf) (hK : 0 ≤ K)
    (hub : ∀ t ∈ Icc a b, ‖U t‖ ≤ R)
    (hlip : ∀ t ∈ Icc a b, ∀ y z, ‖y‖ ≤ R + 100 → ‖z‖ ≤ R + 100 → ‖f t y - f t z‖ ≤ L * ‖y - z‖)
    (hbd : ∀ t ∈ Icc a b, ∀ y, ‖y‖ ≤ R + 100 → ‖f t y‖ ≤ Bf)
    (hul : ∀ s ∈ Icc a b, ∀ t ∈ Icc a b, ‖U s - U t‖ ≤ Bf * |s - t|)
    (hcons : ∀ s ∈ Icc a b, ∀ t ∈ Icc a b, ‖U s - U t - (s - t) • f t (U t)‖ ≤ K * (s - t) ^ 2)
    {fF : F → Vec F n → Vec F n} {ε : ℝ} (hu : 0 ≤ u) (hε : 0 ≤ ε) (hacc : RhsAccurate A f U a b ε fF)
    {order : ℤ} (h0 : 0 < order) (h5 : order ≤ 5) {h : F} {tF : ℕ → F} {y : ℕ → Vec F n} {N : ℕ} {H ω G e0 : ℝ}
    (hG : 20 * Bf + 4 + R ≤ G) (hGB : big G ≤ B) (hBB : 10000 ≤ B)
    (hfh : isFin h = true) (hH : A.val h = H) (hH0 : 0 ≤ H) (hH1 : H ≤ 1) (hω0 : 0 ≤ ω) (hω1 : ω ≤ 1)
    (hT : ∀ i < N, isFin (tF i) = true ∧ A.val (tF i) ∈ Icc a b) (hstep : ∀ i, i + 1 < N → |A.val (tF (i + 1)) - A.val (tF i) - H| ≤ ω)
    (hsm : 20 * ε + 36 * u * big G ≤ 1) (hsB : 4 * Bf * (H + ω) ≤ 1)
    (hfin0 : ∀ i < order.toNat, ∀ k, isFin (y i k) = true) (hy0 : ∀ i < order.toNat, y i = y 0) (he0 : ‖A.vec (y 0) - U (A.val (tF 0))‖ ≤ e0)
    (hy : ∀ i, order.toNat ≤ i → i < N → y i = fun k => y (i - 1) k + h * abComb order fun j => fF (tF (i - 1)) (y (i - 1 - j)) k)
    (hbnd : ∀ i < N, abBnd (20 * L) H (80 * L * Bf * (H + ω) + K * (H + 2 * ω) + 20 * ε) (e0 + 5 * Bf * (H + ω)) (36 * u * big G + (K + Bf) * ω) i ≤ 1) :
    ∀ i < N, (∀ k, isFin (y i k) = true) ∧ ‖A.vec (y i) - U (A.val (tF i))‖ ≤
      abBnd (20 * L) H (80 * L * Bf * (H + ω) + K * (H + 2 * ω) + 20 * ε) (e0 + 5 * Bf * (H + ω)) (36 * u * big G + (K + Bf) * ω) i := by
  have he00 : 0 ≤ e0 := (norm_nonneg _).trans he0
  have hG1 : 1 ≤ G := by linarith
  obtain ⟨b1, -⟩ := big_facts hG1
  have hub0 : 0 ≤ 36 * u * big G := by positivity
  obtain ⟨Λ, hΛ⟩ : ∃ Λ, Λ = 20 * L := ⟨_, rfl⟩
  obtain ⟨D, hD⟩ : ∃ D, D = 80 * L * Bf * (H + ω) + K * (H + 2 * ω) + 20 * ε := ⟨_, rfl⟩
  obtain ⟨X, hX⟩ : ∃ X, X = e0 + 5 * Bf * (H + ω) := ⟨_, rfl⟩
  obtain ⟨c, hc⟩ : ∃ c, c = 36 * u * big G + (K + Bf) * ω := ⟨_, rfl⟩
  have hΛ0 : 0 ≤ Λ := by rw [hΛ]; positivity
  have hD0 : 0 ≤ D := by rw [hD]; positivity
  have hX0 : 0 ≤ X := by rw [hX]; positivity
  have hc0 : 0 ≤ c := by rw [hc]; positivity
  rw [← hΛ, ← hD, ← hX, ← hc] at hbnd
  rw [← hΛ, ← hD, ← hX, ← hc]
  have hap := times_apart (T := fun i => A.val (tF i)) hH0 hstep
  intro i
  induction i using Nat.strong_induction_on with
  | _ i ih =>
    intro hi
    by_cases hlt : i < order.toNat
    · refine ⟨hfin0 i hlt, le_trans ?_ (abBnd_ge hΛ0 hH0 hD0 hX0 hc0 i)⟩
      have e : A.vec (y i) - U (A.val (tF i)) = (A.vec (y 0) - U (A.val (tF 0))) + (U (A.val (tF 0)) - U (A.val (tF i))) := by
        rw [hy0 i hlt]; abel
      rw [e, hX]
      refine (norm_add_le _ _).trans (add_le_add he0 ?_)
      refine (hul _ (hT 0 (by omega)).2 _ (hT i hi).2).trans ?_
      have h1 := hap 0 i (by omega)
      rw [zero_add, abs_sub_comm] at h1
      have h2 : (i : ℝ) * (H + ω) ≤ 5 * (H + ω) := mul_le_mul_of_nonneg_right (by exact_mod_cast (show i ≤ 5 by omega)) (by linarith)
      calc Bf * |A.val (tF 0) - A.val (tF i)| ≤ Bf * (5 * (H + ω)) := mul_le_mul_of_nonneg_left (h1.trans h2) hBf
        _ = 5 * Bf * (H + ω) := by ring
    · obtain ⟨m, rfl⟩ : ∃ m, i = m + 1 := ⟨i - 1, by omega⟩
      have hym := hy (m + 1) (by omega) hi
      rw [Nat.add_sub_cancel] at hym
      obtain ⟨t1, t2⟩ := hT m (by omega)
      obtain ⟨t1', t2'⟩ := hT (m + 1) hi
      have hE1 : abBnd Λ H D X c m ≤ 1 := hbnd m (by omega)
      obtain ⟨m1, m2⟩ := ih m (by omega) (by omega)
      -- the values used
      have hval : ∀ j < order.toNat, (∀ k, isFin (y (m - j) k) = true) ∧ A.val (tF (m - j)) ∈ Icc a b ∧
          |A.val (tF (m - j)) - A.val (tF m)| ≤ 4 * (H + ω) ∧ ‖A.vec (y (m - j)) - U (A.val (tF (m - j)))‖ ≤ abBnd Λ H D X c m := by
        intro j hj
        obtain ⟨g1, g2⟩ := ih (m - j) (by omega) (by omega)
        refine ⟨g1, (hT (m - j) (by omega)).2, ?_, g2.trans (abBnd_mono hΛ0 hH0 hD0 hX0 hc0 (by omega))⟩
        have h1 := hap (m - j) j (by omega)
        rw [Nat.sub_add_cancel (by omega), abs_sub_comm] at h1
        exact h1.trans (mul_le_mul_of_nonneg_right (by exact_mod_cast (show j ≤ 4 by omega)) (by linarith))
      have hnear : ∀ j < order.toNat, ‖A.vec (y (m - j)) - U (A.val (tF m))‖ ≤ 2 := by
        intro j hj
        obtain ⟨-, g2, g3, g4⟩ := hval j hj
        have e : A.vec (y (m - j)) - U (A.val (tF m)) = (A.vec (y (m - j)) - U (A.val (tF (m - j)))) + (U (A.val (tF (m - j))) - U (A.val (tF m))) := by abel
        rw [e]
        refine (norm_add_le _ _).trans ?_
        have := (hul _ g2 _ t2).trans (mul_le_mul_of_nonneg_left g3 hBf)
        linarith
      have hsize : ∀ j < order.toNat, ‖A.vec (y (m - j))‖ ≤ R + 2 := by
        intro j hj
        have e : A.vec (y (m - j)) = (A.vec (y (m - j)) - U (A.val (tF m))) + U (A.val (tF m)) := by abel
        rw [e]
        exact (norm_add_le _ _).trans (by linarith [hnear j hj, hub _ t2])
      have hround : ∀ k, Near A (y (m + 1) k) (A.vec (y m) k + H * abComb order fun j => f (A.val (tF m)) (A.vec (y (m - j))) k)
          (20 * H * ε + 36 * u * big G) := by
        intro k
        rw [hym]
        refine abStep_near hu (G := G) (Γ := Bf) (by linarith) hBf hGB hBB h0 h5 hsm ?_ ?_ hfh hH hH0 hH1 (m1 k) ?_
        · intro j hj
          exact hacc (tF m) (y (m - j)) t1 (hval j hj).1 t2.1 t2.2 (hnear j hj) k
        · intro j hj
          have := norm_le_pi_norm (f (A.val (tF m)) (A.vec (y (m - j)))) k
          rw [Real.norm_eq_abs] at this
          exact this.trans (hbd _ t2 _ (by linarith [hsize j hj]))
        · have h1 := norm_le_pi_norm (A.vec (y m)) k
          rw [Real.norm_eq_abs] at h1
          have h2 := hsize 0 (by omega)
          rw [Nat.sub_zero] at h2
          exact h1.trans (by linarith)
      refine ⟨fun k => (hround k).1, ?_⟩
      have hrec := ab_recursion (order := order) (V := fun j => A.vec (y (m - j))) (s := fun j => A.val (tF (m - j))) (Y := A.vec (y m)) (Y' := A.vec (y (m + 1)))
        (r := 20 * H * ε + 36 * u * big G) hL hBf hub hlip hbd hul hcons hK h0 h5 t2 t2' hH0 hω0 hω1
        (hstep m hi) hE1 m2 (fun j hj => (hval j hj).2) (by positivity) (fun k => (hround k).2)
      refine abBnd_succ hΛ0 hH0 hD0 hX0 hc0 le_rfl (hrec.trans (le_of_eq ?_))
      rw [hΛ, hc, hD]
      ring

end

/-- **Adams-Bashforth converges in arithmetic with rounding errors** -/
theorem ab_float_converges {n : ℕ} {f : ℝ → Vec ℝ n → Vec ℝ n} {U : ℝ → Vec ℝ n} {a b δ : ℝ}
    (hf : ContDiff ℝ 1 fun q : ℝ × (Fin n → ℝ) => f q.1 q.2) (hδ : 0 < δ)
    (hU : ∀ t ∈ Icc a b, HasDerivWithinAt U (f t (U t)) (Icc a b) t) :
    ∃ C : ℝ, 0 < C ∧
      ∀ (F : Type) [Add F] [Sub F] [Mul F] [Div F] [Neg F] [Scalar F] (u B ε : ℝ) (A : FloatArith F u B) (fn : OdeFun F n),
        0 ≤ u → 0 ≤ ε → C ≤ B → RhsAccurate A f U a b ε fn.fn →
        ∀ (nd : Bool) (la : LinAlg F) (order : ℤ) (t0 t1 : F) (y0 : Vec F n) (dt : F) (st0 : NewtonStatus F) (fuelB fuel : ℕ) (out : MsOutput F n)
          (e0 : ℝ), order ≤ 5 →
          isFin t0 = true → isFin t1 = true → (∀ k, isFin (y0 k) = true) → isFin dt = true →
          a + δ ≤ A.val t0 → A.val t0 ≤ A.val t1 → A.val t1 ≤ b - δ → ‖A.vec y0 - U (A.val t0)‖ ≤ e0 → 0 ≤ A.val dt →
          adamsBashforth nd la fn t0 t1 y0 order dt st0 fuelB fuel = some (.ret out) → C * (A.val dt + ε + e0 + out.tVals.length * u) ≤ 1 →
          ∀ (i : ℕ) (t : F) (y : Vec F n), out.tVals[i]? = some t → out.yVals[i]? = some y →
            isFin t = true ∧ (∀ k, isFin (y k) = true) ∧ ‖A.vec y - U (A.val t)‖ ≤ C * (A.val dt + ε + e0 + out.tVals.length * u) := by
  obtain ⟨R, L, Bf, K, hR, hL, hBf, hK, hub, hlip, hbd, hul, hcons⟩ := solution_facts hf hU
  obtain ⟨W, hW⟩ : ∃ W, W = |a| + |b| + 1 := ⟨_, rfl⟩
  have hW1 : 1 ≤ W := by rw [hW]; linarith [abs_nonneg a, abs_nonneg b]
  have haW : |a| ≤ W := by rw [hW]; linarith [abs_nonneg b]
  have hbW : |b| ≤ W := by rw [hW]; linarith [abs_nonneg a]
  obtain ⟨G, hG⟩ : ∃ G, G = 20 * Bf + 4 + R := ⟨_, rfl⟩
  have hG1 : 1 ≤ G := by rw [hG]; linarith
  obtain ⟨b1, -⟩ := big_facts hG1
  obtain ⟨g, hg⟩ : ∃ g, g = big G := ⟨_, rfl⟩
  rw [← hg] at b1
  -- `q` bounds the step and the rounding of a time
  obtain ⟨q, hq⟩ : ∃ q, q = 1 + 2 * (2 * W + 3) + (W + 2) := ⟨_, rfl⟩
  have hq1 : 1 ≤ q := by rw [hq]; linarith
  obtain ⟨Tt, hTt⟩ : ∃ Tt, Tt = 2 * W + δ := ⟨_, rfl⟩
  have hTt0 : 0 ≤ Tt := by rw [hTt]; linarith
  obtain ⟨M, hM⟩ : ∃ M, M = Real.exp (20 * L * Tt) * (Tt * (80 * L * Bf * q + K * (2 * q) + 20) + (1 + 5 * Bf * q + (36 * g + (K + Bf) * q))) := ⟨_, rfl⟩
  have hM0 : 0 ≤ M := by rw [hM]; positivity
  obtain ⟨C, hC⟩ : ∃ C, C = M + 11 * q / δ + q + 4 * Bf * q + 20 + 36 * g + 10000 + (2 * W + 3) := ⟨_, rfl⟩
  have hqd : 0 ≤ 11 * q / δ := by positivity
  have hBq : 0 ≤ 4 * Bf * q := by positivity
  refine ⟨C, by rw [hC]; linarith, ?_⟩
  intro F _ _ _ _ _ _ u B ε A fn hu hε hCB hacc nd la order t0 t1 y0 dt st0 fuelB fuel out e0 h5 f0 f1 fy fdt ha h01 hb he hdt h hsm
  obtain ⟨N, -, hN1, hN2, ho, hoN, htimes, -, hbef⟩ := C53_ab_grid h
  obtain ⟨y, hy1, hy2, hy3⟩ := ab_sequence h5 h
  rw [hN1] at hsm ⊢
  rw [hN2] at hy3
  have he0 : 0 ≤ e0 := (norm_nonneg _).trans he
  have hN : (1 : ℝ) ≤ N := by exact_mod_cast (show 1 ≤ N by omega)
  have huN : u ≤ N * u := le_mul_of_one_le_left hu hN
  obtain ⟨ξ, hξ⟩ : ∃ ξ, ξ = A.val dt + ε + e0 + N * u := ⟨_, rfl⟩
  rw [← hξ] at hsm ⊢
  have hξ0 : 0 ≤ ξ := by rw [hξ]; positivity
  have hNu0 : 0 ≤ N * u := by positivity
  have x1 : A.val dt ≤ ξ := by rw [hξ]; linarith
  have x2 : ε ≤ ξ := by rw [hξ]; linarith
  have x3 : e0 ≤ ξ := by rw [hξ]; linarith
  have x4 : N * u ≤ ξ := by rw [hξ]; linarith
  have x5 : u ≤ ξ := huN.trans x4
  have part : ∀ z, z ≤ C → z * ξ ≤ 1 := fun z hz => (mul_le_mul_of_nonneg_right hz hξ0).trans hsm
  have p1 : q * ξ ≤ 1 := part q (by rw [hC]; linarith)
  have p2 : 11 * q / δ * ξ ≤ 1 := part _ (by rw [hC]; linarith)
  have p3 : 4 * Bf * q * ξ ≤ 1 := part _ (by rw [hC]; linarith)
  have p4 : (20 + 36 * g) * ξ ≤ 1 := part _ (by rw [hC]; linarith)
  have p5 : (2 * W + 3) * ξ ≤ 1 := part _ (by rw [hC]; linarith)
  have p6 : 1 * ξ ≤ 1 := part 1 (by rw [hC]; linarith)
  have p7 : M * ξ ≤ 1 := part M (by rw [hC]; linarith)
  have v0 : |A.val t0| ≤ W := abs_le.mpr ⟨by linarith [(abs_le.mp haW).1], by linarith [(abs_le.mp hbW).2]⟩
  have v1 : |A.val t1| ≤ W := abs_le.mpr ⟨by linarith [(abs_le.mp haW).1], by linarith [(abs_le.mp hbW).2]⟩
  obtain ⟨c1, c2, c3, -⟩ := clip_float (A := A) (dt := dt) hu hW1 (by rw [hC] at hCB; linarith)
    ((mul_comm u _).le.trans ((mul_le_mul_of_nonneg_left x5 (by linarith)).trans p5)) f0 f1 fdt h01 v0 v1 hdt (by linarith)
  obtain ⟨H, hH⟩ : ∃ H, A.val (clipDt t0 t1 dt) = H := ⟨_, rfl⟩
  rw [hH] at c2 c3
  obtain ⟨ω, hω⟩ : ∃ ω, ω = u * (W + 2) := ⟨_, rfl⟩
  have hω0 : 0 ≤ ω := by rw [hω]; positivity
  have hHq : H + ω ≤ q * ξ := by
    have z1 : (2 * (2 * W + 3)) * u ≤ (2 * (2 * W + 3)) * ξ := mul_le_mul_of_nonneg_left x5 (by linarith)
    have z2 : u * (W + 2) ≤ ξ * (W + 2) := mul_le_mul_of_nonneg_right x5 (by linarith)
    rw [hω, hq]
    linarith
  have hH1 : H ≤ 1 := by linarith
  have hω1 : ω ≤ 1 := by linarith
  have hNω : N * ω ≤ q * ξ := by
    have z1 : N * u * (W + 2) ≤ ξ * (W + 2) := mul_le_mul_of_nonneg_right x4 (by linarith)
    have z2 : (1 + 2 * (2 * W + 3)) * ξ ≥ 0 := mul_nonneg (by linarith) hξ0
    rw [hω, hq]
    linarith
  have hqδ : 11 * (q * ξ) ≤ δ := by
    rw [div_mul_eq_mul_div, div_le_iff₀ hδ] at p2
    linarith
  have hqξ0 : 0 ≤ q * ξ := by positivity
  obtain ⟨T1, T2⟩ := ab_times (A := A) (first := order.toNat) (N := N) (δ := δ) (a := a) (b := b) (W := W) hu f0 f1 c1 hH c2 hH1 haW hbW
    (by rw [hC] at hCB; linarith) ha h01 hb (by rw [← hω]; linarith) (by rw [← hω]; linarith) (by omega)
    (fun i h1 h2 => hbef i (by omega) h2)
  rw [← hω] at T1 T2
  have hS : ∀ i < N, (i : ℝ) * H ≤ Tt := by
    intro i hi
    obtain ⟨-, -, s3, s4⟩ := T1 i hi
    have s5 := abs_le.mp s4
    have s6 : (i : ℝ) * ω ≤ N * ω := mul_le_mul_of_nonneg_right (by exact_mod_cast hi.le) hω0
    rw [hTt]
    linarith [(abs_le.mp haW).1, (abs_le.mp hbW).2, s5.1]
  have hfinal : ∀ i < N, abBnd (20 * L) H (80 * L * Bf * (H + ω) + K * (H + 2 * ω) + 20 * ε) (e0 + 5 * Bf * (H + ω)) (36 * u * big G + (K + Bf) * ω) i ≤ M * ξ := by
    intro i hi
    have s1 := hS i hi
    have s0 : 0 ≤ (i : ℝ) * H := by positivity
    have hiu : (i : ℝ) * u ≤ ξ := (mul_le_mul_of_nonneg_right (by exact_mod_cast hi.le) hu).trans x4
    have hiω : (i : ℝ) * ω ≤ q * ξ := (mul_le_mul_of_nonneg_right (by exact_mod_cast hi.le) hω0).trans hNω
    have d1 : 80 * L * Bf * (H + ω) ≤ 80 * L * Bf * (q * ξ) := mul_le_mul_of_nonneg_left hHq (by positivity)
    have d2 : K * (H + 2 * ω) ≤ K * (2 * (q * ξ)) := mul_le_mul_of_nonneg_left (by linarith) hK
    have d3 : 5 * Bf * (H + ω) ≤ 5 * Bf * (q * ξ) := mul_le_mul_of_nonneg_left hHq (by positivity)
    have d4 : (K + Bf) * ((i : ℝ) * ω) ≤ (K + Bf) * (q * ξ) := mul_le_mul_of_nonneg_left hiω (by positivity)
    have d5 : 36 * g * ((i : ℝ) * u) ≤ 36 * g * ξ := mul_le_mul_of_nonneg_left hiu (by linarith)
    have d6 : (i : ℝ) * H * (80 * L * Bf * (H + ω) + K * (H + 2 * ω) + 20 * ε) ≤ Tt * (80 * L * Bf * (q * ξ) + K * (2 * (q * ξ)) + 20 * ξ) :=
      mul_le_mul s1 (by linarith) (by positivity) hTt0
    have d7 : Real.exp (20 * L * (i * H)) ≤ Real.exp (20 * L * Tt) := Real.exp_le_exp.mpr (mul_le_mul_of_nonneg_left s1 (by linarith))
    unfold abBnd
    rw [← hg]
    have d8 : M * ξ = Real.exp (20 * L * Tt) * (Tt * (80 * L * Bf * (q * ξ) + K * (2 * (q * ξ)) + 20 * ξ) +
        (ξ + 5 * Bf * (q * ξ) + (36 * g * ξ + (K + Bf) * (q * ξ)))) := by rw [hM]; ring
    rw [d8]
    have hg0 : 0 ≤ 36 * u * g := by positivity
    refine mul_le_mul d7 ?_ (by positivity) (Real.exp_nonneg _)
    have e1 : (i : ℝ) * (36 * u * g + (K + Bf) * ω) = 36 * g * (i * u) + (K + Bf) * (i * ω) := by ring
    rw [e1]
    linarith
  have hall := ab_errors (A := A) (fF := fn.fn) (tF := gridPt (clipDt t0 t1 dt) t0) (y := y) (N := N) (ω := ω) (G := G) (e0 := e0) (H := H)
    (h := clipDt t0 t1 dt) hR hL hBf hK hub hlip hbd hul hcons hu hε hacc ho h5 hG.ge
    (by rw [← hg]; rw [hC] at hCB; linarith) (by rw [hC] at hCB; linarith) c1 hH c2 hH1 hω0 hω1
    (fun i hi => ⟨(T1 i hi).1, (T1 i hi).2.1, (T1 i hi).2.2.1⟩) T2
    (by
      rw [← hg]
      have z1 : 36 * g * u ≤ 36 * g * ξ := mul_le_mul_of_nonneg_left x5 (by linarith)
      linarith)
    (by
      have z1 : 4 * Bf * (H + ω) ≤ 4 * Bf * (q * ξ) := mul_le_mul_of_nonneg_left hHq (by positivity)
      linarith)
    (fun i hi k => by rw [hy2 i hi]; exact fy k) (fun i hi => by rw [hy2 i hi, hy2 0 (by omega)])
    (by rw [hy2 0 (by omega)]; exact he) hy3 (fun i hi => (hfinal i hi).trans p7)
  have hMC : M * ξ ≤ C * ξ := mul_le_mul_of_nonneg_right (by rw [hC]; linarith) hξ0
  intro i t y' ht hy'
  have hi : i < N := by rw [← hN1]; exact (List.getElem?_eq_some_iff.mp ht).1
  rw [htimes i hi] at ht
  obtain rfl := Option.some.inj ht
  rw [hy1 i y' hy']
  obtain ⟨r1, r2⟩ := hall i hi
  exact ⟨(T1 i hi).1, r1, r2.trans ((hfinal i hi).trans hMC)⟩

end Verif
