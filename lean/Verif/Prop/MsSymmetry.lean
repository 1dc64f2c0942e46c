import Verif.Prop.IrkSymmetry
import Verif.Prop.Causal
import Verif.Prop.MsConverge
import Verif.Prop.MsLinear

/-!
# C114: the multistep integrators in other variables
-/

namespace Verif
open Change

variable {n m : ℕ}

/-! ### times -/

theorem T_grid (w : Change n m) (t0 h : ℝ) (i : ℕ) : w.T t0 + i * (w.lam * h) = w.T (t0 + i * h) := by
  unfold Change.T
  ring

theorem T_lt (w : Change n m) (hl : 0 < w.lam) (a b : ℝ) : w.T a < w.T b ↔ a < b := by
  unfold Change.T
  rw [add_lt_add_iff_right, mul_lt_mul_iff_right₀ hl]

theorem T_le (w : Change n m) (hl : 0 < w.lam) (a b : ℝ) : w.T a ≤ w.T b ↔ a ≤ b := by
  rw [← not_lt, ← not_lt, T_lt w hl]

theorem T_clip (w : Change n m) (hl : 0 < w.lam) (t0 t1 dt : ℝ) :
    min (w.lam * dt) (w.T t1 - w.T t0) = w.lam * min dt (t1 - t0) := by
  rw [mul_min_of_nonneg _ _ hl.le]
  congr 1
  unfold Change.T
  ring

/-- lists of the same length whose members correspond -/
theorem map_of_values {A B : Type} {l : List A} {l' : List B} (f : A → B) (hlen : l'.length = l.length)
    (h : ∀ (i : ℕ) a b, l[i]? = some a → l'[i]? = some b → b = f a) : l' = l.map f := by
  apply List.ext_getElem (by rw [List.length_map, hlen])
  intro i h1 h2
  rw [List.getElem_map]
  rw [List.length_map] at h2
  exact h i _ _ (List.getElem?_eq_getElem h2) (List.getElem?_eq_getElem h1)

/-! ### `adams_bashforth` -/

/-- **C114 (`adams_bashforth`).**  An affine change of the unknowns (not even injective) and of the time changes nothing but the variables. -/
theorem C114_adams_bashforth {fn : OdeFun ℝ n} {gn : OdeFun ℝ m} (w : Change n m) (hl : 0 < w.lam)
    (hs : ∀ t y, gn.fn (w.T t) (w.Y y) = w.K (fn.fn t y)) {nd nd' : Bool} {la la' : LinAlg ℝ} {t0 t1 dt : ℝ} {y0 : Vec ℝ n} {order : ℤ}
    (h5 : order ≤ 5) {st0 st0' : NewtonStatus ℝ} {fuelB fuel fuelB' fuel' : ℕ} {out : MsOutput ℝ n} {out' : MsOutput ℝ m}
    (h : adamsBashforth nd la fn t0 t1 y0 order dt st0 fuelB fuel = some (.ret out))
    (h' : adamsBashforth nd' la' gn (w.T t0) (w.T t1) (w.Y y0) order (w.lam * dt) st0' fuelB' fuel' = some (.ret out')) :
    out'.status = out.status ∧ out'.tVals = out.tVals.map w.T ∧ out'.yVals = out.yVals.map w.Y := by
  obtain ⟨N, a1, a2, a3, a4, a5, a6, a7⟩ := C53_adams_bashforth h
  obtain ⟨N', b1, b2, b3, b4, b5, b6, b7⟩ := C53_adams_bashforth h'
  obtain ⟨y, c1, c2, c3⟩ := ab_values h5 h
  obtain ⟨z, d1, d2, d3⟩ := ab_values h5 h'
  have ho : 0 < order := (ab_run h).1
  rw [T_clip w hl] at b5 b6 b7 d3
  simp only [T_grid, T_lt w hl, T_le w hl] at b5 b6 b7 d3
  have hN : N' = N := by
    rcases lt_trichotomy N' N with hlt | rfl | hlt
    · have := a7 (N' - 1) (by omega) (by omega)
      linarith
    · rfl
    · have := b7 (N - 1) (by omega) (by omega)
      linarith
  subst hN
  have key : ∀ i < N', z i = w.Y (y i) := by
    intro i
    induction i using Nat.strong_induction_on with
    | _ i ih =>
      intro hi
      by_cases hio : i < order.toNat
      · rw [c2 i hio, d2 i hio]
      · rw [c3 i (by omega) (by omega), d3 i (by omega) (by omega), ih (i - 1) (by omega) (by omega)]
        have e : ∀ j ∈ Finset.range order.toNat,
            (abC order j : ℝ) • gn.fn (w.T (t0 + (i - 1 : ℕ) * min dt (t1 - t0))) (z (i - 1 - j)) =
            (abC order j : ℝ) • w.K (fn.fn (t0 + (i - 1 : ℕ) * min dt (t1 - t0)) (y (i - 1 - j))) := by
          intro j _
          rw [ih (i - 1 - j) (by omega) (by omega), hs]
        rw [Finset.sum_congr rfl e]
        simp only [Change.Y, Change.K, map_add, map_smul, map_sum]
        have e2 : ∀ j ∈ Finset.range order.toNat,
            (abC order j : ℝ) • w.lam⁻¹ • w.L (fn.fn (t0 + (i - 1 : ℕ) * min dt (t1 - t0)) (y (i - 1 - j))) =
            w.lam⁻¹ • (abC order j : ℝ) • w.L (fn.fn (t0 + (i - 1 : ℕ) * min dt (t1 - t0)) (y (i - 1 - j))) :=
          fun j _ => smul_comm _ _ _
        rw [Finset.sum_congr rfl e2, ← Finset.smul_sum, smul_smul, mul_comm w.lam, mul_assoc, mul_inv_cancel₀ hl.ne', mul_one]
        abel
  refine ⟨by rw [a1, b1], map_of_values _ (by omega) ?_, map_of_values _ (by omega) ?_⟩
  · intro i a b ha hb
    have hi : i < N' := by rw [← a2]; exact (List.getElem?_eq_some_iff.1 ha).1
    rw [a5 i hi] at ha
    rw [b5 i hi] at hb
    cases ha
    cases hb
    rfl
  · intro i a b ha hb
    have hi : i < N' := by rw [← a3]; exact (List.getElem?_eq_some_iff.1 ha).1
    rw [c1 i a ha, d1 i b hb, key i hi]

/-! ### the Newton iteration of `bdf` -/

/-- `L` preserves the maximum norm -/
def Change.MaxNorm (w : Change n n) : Prop := ∀ v, ‖w.L v‖ = ‖v‖

theorem maxNorm_bijective {w : Change n n} (hw : w.MaxNorm) : Function.Bijective w.L := by
  have hi : Function.Injective w.L := by
    intro u v huv
    have h1 := hw (u - v)
    rw [map_sub, huv, sub_self, norm_zero] at h1
    exact sub_eq_zero.mp (norm_eq_zero.mp h1.symm)
  exact ⟨hi, LinearMap.injective_iff_surjective.mp hi⟩

/-- states of the two Newton iterations that correspond -/
structure NewtonSim (w : Change n n) (s s' : NewtonState ℝ n) : Prop where
  xn : s'.xn = w.Y s.xn
  r : s'.r = w.L s.r
  J : ∀ v, (Matrix.of s'.J).mulVec (w.L v) = w.L ((Matrix.of s.J).mulVec v)
  iters : s'.iters = s.iters
  term : s'.term = s.term

/-- outcomes of the two Newton iterations that correspond -/
def NewtonOut (w : Change n n) (r r' : Outcome (Vec ℝ n × NewtonStatus ℝ)) : Prop :=
  ∃ a b, r = .ret a ∧ r' = .ret b ∧ b.1 = w.Y a.1 ∧ b.2.conv = a.2.conv

theorem newton_change {w : Change n n} (hw : w.MaxNorm) {E E' : NFun ℝ n} (hf : ∀ z, E'.fn (w.Y z) = w.L (E.fn z))
    (hj : ∀ z v, (Matrix.of (E'.jac (w.Y z))).mulVec (w.L v) = w.L ((Matrix.of (E.jac z)).mulVec v)) (x : Vec ℝ n)
    (st st' : NewtonStatus ℝ) :
    ∃ r r', newtonIterate laReal E x bdfNewton st true = some r ∧ newtonIterate laReal E' (w.Y x) bdfNewton st' true = some r' ∧
      NewtonOut w r r' := by
  have hb : newtonSwitch (newtonBits (bdfNewton : NewtonOpts ℝ) true) = ⟨1, false, true, false, true⟩ := by
    simp [newtonBits, bdfNewton, NewtonOpts.dflt, newtonSwitch]
  have hms : maxStep2 (bdfNewton : NewtonOpts ℝ) = -1 := by
    simp [maxStep2, bdfNewton, NewtonOpts.dflt, ltb_real]
  have hng : ltb (0 : ℝ) (-1) = false := by rw [ltb_real_false]; norm_num
  unfold newtonIterate newtonImpl
  rw [hb]
  have hsim := runLoop_sim (body := newtonBody laReal E x bdfNewton ⟨1, false, true, false, true⟩ st)
    (body' := newtonBody laReal E' (w.Y x) bdfNewton ⟨1, false, true, false, true⟩ st')
    (Sim := NewtonSim w) (P := NewtonOut w) ?_ ((bdfNewton : NewtonOpts ℝ).maxit.toNat + 1)
    (s := newtonInit laReal E x ⟨1, false, true, false, true⟩) (s' := newtonInit laReal E' (w.Y x) ⟨1, false, true, false, true⟩) ?_
  · rcases hsim with ⟨h1, -⟩ | h
    · obtain ⟨r, _, hr⟩ := newtonImpl_returns laReal ⟨1, false, true, false, true⟩ E x bdfNewton st
      unfold newtonImpl at hr
      rw [h1] at hr
      cases hr
    · exact h
  · intro s s' hs
    unfold newtonBody
    rw [hs.iters, hs.term]
    by_cases hgo : s.term = false ∧ (s.iters : ℤ) < (bdfNewton : NewtonOpts ℝ).maxit
    · rw [if_pos hgo, if_pos hgo]
      have hd : newtonDir laReal ⟨1, false, true, false, true⟩ s = (laReal.solve s.J s.r).map fun z => (s.lup, fun i => - z i) := by
        simp only [newtonDir, Bool.false_eq_true, if_false]
        cases laReal.solve s.J s.r <;> rfl
      have hd' : newtonDir laReal ⟨1, false, true, false, true⟩ s' = (laReal.solve s'.J s'.r).map fun z => (s'.lup, fun i => - z i) := by
        simp only [newtonDir, Bool.false_eq_true, if_false]
        cases laReal.solve s'.J s'.r <;> rfl
      rw [hd, hd', hs.r, solve_conj (maxNorm_bijective hw) hs.J]
      cases laReal.solve s.J s.r with
      | none => exact .done ⟨_, _, rfl, rfl, rfl, rfl⟩
      | some z =>
        simp only [Option.map_some, newtonLambda, Bool.false_eq_true, if_false, lit_real, Rat.cast_one, one_mul, hms, limitDir, Rat.cast_zero, hng]
        have ex : (fun i => s'.xn i + - w.L z i) = w.Y (fun i => s.xn i + - z i) := by
          rw [hs.xn]
          have : (fun i => s.xn i + - z i) = s.xn - z := by funext i; simp [sub_eq_add_neg]
          rw [this]
          funext i
          simp only [Change.Y, map_sub, Pi.add_apply, Pi.sub_apply]
          ring
        refine .next ⟨ex, ?_, ?_, rfl, ?_⟩
        · show E'.fn _ = _
          rw [ex, hf]
        · intro v
          simp only [ne_eq, one_ne_zero, not_false_eq_true, if_true]
          rw [ex, hj]
        · show ltb (normInf _) _ = ltb (normInf _) _
          have e1 : (fun i => - w.L z i) = - w.L z := rfl
          have e2 : (fun i => - z i) = - z := rfl
          rw [normInf_real, normInf_real, e1, e2, norm_neg, norm_neg, hw]
    · rw [if_neg hgo, if_neg hgo]
      refine .done ⟨_, _, rfl, rfl, ?_, ?_⟩
      · simp only [newtonFinish, hs.iters, isFin_real, if_true, hs.xn]
        split_ifs <;> rfl
      · simp only [newtonFinish, hs.iters, isFin_real, if_true]
  · exact ⟨rfl, hf x, fun v => hj x v, rfl, rfl⟩

/-! ### `bdf` -/

theorem bdf_change {fn gn : OdeFun ℝ n} {w : Change n n} (hl : 0 < w.lam) (hw : w.MaxNorm) (hs : w.Same fn gn) {order : ℤ} (h0 : 0 < order)
    (h6 : order ≤ 6) (h t : ℝ) {v v' : ℕ → Vec ℝ n} (hv : ∀ j : ℕ, (j : ℤ) < order → v' j = w.Y (v j)) {st st2 st' st2' : NewtonStatus ℝ}
    {x x' : Vec ℝ n} (h1 : newtonIterate laReal (bdfEq fn order h t v) (v 0) bdfNewton st true = some (.ret (x, st2)))
    (h2 : newtonIterate laReal (bdfEq gn order (w.lam * h) (w.T t) v') (v' 0) bdfNewton st' true = some (.ret (x', st2'))) :
    x' = w.Y x ∧ st2'.conv = st2.conv := by
  have hc : w.lam * h * bdfW order * w.lam⁻¹ = h * bdfW order := by
    field_simp
  obtain ⟨r, r', e1, e2, a, b, rfl, rfl, e3, e4⟩ := newton_change hw (E := bdfEq fn order h t v) (E' := bdfEq gn order (w.lam * h) (w.T t) v')
    (by
      intro z
      rw [bdfEq_vec, bdfEq_vec, hs.1]
      have e : ∀ j ∈ Finset.range order.toNat, (bdfC order j : ℝ) • v' j = (bdfC order j : ℝ) • w.L (v j) + (bdfC order j : ℝ) • w.c := by
        intro j hj
        rw [hv j (by have := Finset.mem_range.mp hj; omega), Change.Y, smul_add]
      rw [Finset.sum_congr rfl e, Finset.sum_add_distrib, ← Finset.sum_smul, bdfC_sum h0 h6]
      simp only [Change.Y, Change.K, map_add, map_sub, map_sum, map_smul, smul_smul, hc, neg_smul, one_smul]
      abel)
    (by
      intro z u
      rw [bdfEq_jac, bdfEq_jac, hs.2]
      simp only [Change.K, map_sub, map_smul, smul_smul, hc]) (v 0) st st'
  rw [h1] at e1
  rw [← hv 0 (by omega), h2] at e2
  simp only [Option.some.injEq, Outcome.ret.injEq] at e1 e2
  subst e1 e2
  exact ⟨e3, e4⟩

/-- **C114 (`bdf`).**  Changes of the unknowns that keep the maximum norm, and any change of the unit and of the origin of time, change nothing but
the variables; the status included. -/
theorem C114_bdf_partial {fn gn : OdeFun ℝ n} (w : Change n n) (hl : 0 < w.lam) (hw : w.MaxNorm) (hs : w.Same fn gn) {nd nd' : Bool}
    {t0 t1 dt : ℝ} {y0 : Vec ℝ n} {order : ℤ} (h0 : 0 < order) (h6 : order ≤ 6) {st0 st0' : NewtonStatus ℝ} {fuelB fuel fuelB' fuel' : ℕ}
    {out out' : MsOutput ℝ n} (h : bdf nd laReal fn t0 t1 y0 order dt st0 fuelB fuel = some (.ret out))
    (h' : bdf nd' laReal gn (w.T t0) (w.T t1) (w.Y y0) order (w.lam * dt) st0' fuelB' fuel' = some (.ret out')) :
    out'.status = out.status ∧ out'.tVals = out.tVals.map w.T ∧ out'.yVals = out.yVals.map w.Y := by
  obtain ⟨N, a2, a3, a4, a5, a6, a7⟩ := C53_bdf h0 h6 h
  obtain ⟨N', b2, b3, b4, b5, b6, b7⟩ := C53_bdf h0 h6 h'
  obtain ⟨y, c1, c2, -, -⟩ := bdf_values h0 h6 h
  obtain ⟨z, d1, d2, -, -⟩ := bdf_values h0 h6 h'
  have s1 := fun i y' => C54_samples (i := i) (y' := y') h0 h6 h
  have s2 := fun i y' => C54_samples (i := i) (y' := y') h0 h6 h'
  have f1 := C54_failure h0 h6 h
  have f2 := C54_failure h0 h6 h'
  simp only [gridPt_real, clipDt_real] at s1 s2 f1 f2
  rw [T_clip w hl] at b5 b6 b7 s2 f2
  simp only [T_grid, T_lt w hl, T_le w hl] at b5 b6 b7 s2 f2
  have hg : ∀ (i : ℕ), i < N → out.yVals[i]? = some (y i) := fun i hi => by
    have := List.getElem?_eq_getElem (l := out.yVals) (i := i) (by omega)
    rw [this, ← c1 i _ this]
  have hg' : ∀ (i : ℕ), i < N' → out'.yVals[i]? = some (z i) := fun i hi => by
    have := List.getElem?_eq_getElem (l := out'.yVals) (i := i) (by omega)
    rw [this, ← d1 i _ this]
  have key : ∀ i, i < N → i < N' → z i = w.Y (y i) := by
    intro i
    induction i using Nat.strong_induction_on with
    | _ i ih =>
      intro hi hi'
      by_cases hio : i < order.toNat + 1
      · rw [c2 i hio, d2 i hio]
      · obtain ⟨v, st, st2, g1, g2, -⟩ := s1 i (y i) (by omega) (hg i hi)
        obtain ⟨v', st', st2', k1, k2, -⟩ := s2 i (z i) (by omega) (hg' i hi')
        refine (bdf_change hl hw hs h0 h6 _ _ ?_ g2 k2).1
        intro j hj
        have e1 := g1 j hj
        have e2 := k1 j hj
        rw [hg _ (by omega), Option.some.injEq] at e1
        rw [hg' _ (by omega), Option.some.injEq] at e2
        rw [← e1, ← e2, ih _ (by omega) (by omega) (by omega)]
  have hN : N' = N := by
    rcases lt_trichotomy N' N with hlt | rfl | hlt
    · exfalso
      have hlt' := a7 (N' - 1) (by omega) (by omega)
      rcases f2 with e | ⟨-, -, v', st', x', st2', k1, k2, k3⟩
      · have := b6.mp e
        linarith
      · rw [b3] at k1 k2
        obtain ⟨v, st, st2, g1, g2, g3⟩ := s1 N' (y N') (by omega) (hg N' hlt)
        refine k3 ?_
        rw [(bdf_change hl hw hs h0 h6 _ _ ?_ g2 k2).2, g3]
        intro j hj
        have e1 := g1 j hj
        have e2 := k1 j hj
        rw [hg _ (by omega), Option.some.injEq] at e1
        rw [hg' _ (by omega), Option.some.injEq] at e2
        rw [← e1, ← e2, key _ (by omega) (by omega)]
    · rfl
    · exfalso
      have hlt' := b7 (N - 1) (by omega) (by omega)
      rcases f1 with e | ⟨-, -, v, st, x, st2, k1, k2, k3⟩
      · have := a6.mp e
        linarith
      · rw [a3] at k1 k2
        obtain ⟨v', st', st2', g1, g2, g3⟩ := s2 N (z N) (by omega) (hg' N hlt)
        refine k3 ?_
        rw [← (bdf_change hl hw hs h0 h6 _ _ ?_ k2 g2).2, g3]
        intro j hj
        have e1 := g1 j hj
        have e2 := k1 j hj
        rw [hg' _ (by omega), Option.some.injEq] at e1
        rw [hg _ (by omega), Option.some.injEq] at e2
        rw [← e1, ← e2, key _ (by omega) (by omega)]
  subst hN
  refine ⟨?_, map_of_values _ (by omega) ?_, map_of_values _ (by omega) ?_⟩
  · have hz : out'.status = 0 ↔ out.status = 0 := by rw [a6, b6]
    rcases f1 with e | ⟨e, -⟩
    · rw [e, hz.mpr e]
    · rcases f2 with e' | ⟨e', -⟩
      · rw [e', hz.mp e']
      · rw [e, e']
  · intro i a b ha hb
    have hi : i < N' := by rw [← a2]; exact (List.getElem?_eq_some_iff.1 ha).1
    rw [a5 i hi] at ha
    rw [b5 i hi] at hb
    cases ha
    cases hb
    rfl
  · intro i a b ha hb
    have hi : i < N' := by rw [← a3]; exact (List.getElem?_eq_some_iff.1 ha).1
    rw [c1 i a ha, d1 i b hb, key i hi hi]

/-! ### C114 is false for other changes of the unknowns -/

/-- **C114, the claim.**  The multistep integrators commute with changes of the unit and the origin of time and with all changes of the unknowns that
multiply lengths by a constant. -/
def C114_claim : Prop :=
  ∀ (n : ℕ) (fn gn : OdeFun ℝ n) (w : Change n n), 0 < w.lam → 0 < w.mu → (∀ v, ‖w.L v‖ = w.mu * ‖v‖) → w.Same fn gn →
    ∀ (nd : Bool) (t0 t1 dt : ℝ) (y0 : Vec ℝ n) (order : ℤ) (st0 : NewtonStatus ℝ) (fuelB fuel fuel' : ℕ) (out out' : MsOutput ℝ n),
      0 < order → order ≤ 5 →
      (adamsBashforth nd laReal fn t0 t1 y0 order dt st0 fuelB fuel = some (.ret out) →
        adamsBashforth nd laReal gn (w.T t0) (w.T t1) (w.Y y0) order (w.lam * dt) st0 fuelB fuel' = some (.ret out') →
        out'.status = out.status ∧ out'.tVals = out.tVals.map w.T ∧ out'.yVals = out.yVals.map w.Y) ∧
      (bdf nd laReal fn t0 t1 y0 order dt st0 fuelB fuel = some (.ret out) →
        bdf nd laReal gn (w.T t0) (w.T t1) (w.Y y0) order (w.lam * dt) st0 fuelB fuel' = some (.ret out') →
        out'.status = out.status ∧ out'.tVals = out.tVals.map w.T ∧ out'.yVals = out.yVals.map w.Y)

/-! #### the Newton iteration for one unknown -/

theorem solve_one (M : Mat ℝ 1) (v : Vec ℝ 1) (h : M 0 0 ≠ 0) : laReal.solve M v = some fun _ => v 0 / M 0 0 := by
  have hu : IsUnit (Matrix.of M).det := by
    rw [Matrix.det_fin_one]
    exact isUnit_iff_ne_zero.mpr h
  rw [laReal_exact.solve _ _ hu]
  congr 1
  have e : (Matrix.of M).mulVec (fun _ => v 0 / M 0 0) = v := by
    funext i
    fin_cases i
    simp [Matrix.mulVec, dotProduct]
    field_simp
  have := congrArg ((Matrix.of M)⁻¹.mulVec) e
  rw [Matrix.mulVec_mulVec, Matrix.nonsing_inv_mul _ hu, Matrix.one_mulVec] at this
  exact this.symm

/-- the quotient of a Newton step -/
noncomputable def quot (E : NFun ℝ 1) (x : ℝ) : ℝ := E.fn (fun _ => x) 0 / E.jac (fun _ => x) 0 0

theorem newton_pass {E : NFun ℝ 1} {x0 : Vec ℝ 1} {st : NewtonStatus ℝ} {s : NewtonState ℝ 1} {x : ℝ} (hx : s.xn = fun _ => x)
    (hr : s.r = E.fn s.xn) (hJ : s.J = E.jac s.xn) (ht : s.term = false) (hi : s.iters < 500) (h : E.jac (fun _ => x) 0 0 ≠ 0) :
    ∃ s', newtonBody laReal E x0 bdfNewton ⟨1, false, true, false, true⟩ st s = .next s' ∧ (s'.xn = fun _ => x - quot E x) ∧ s'.r = E.fn s'.xn ∧
      s'.J = E.jac s'.xn ∧ s'.iters = s.iters + 1 ∧ s'.term = decide (|quot E x| < 1 / 10 ^ 10) := by
  have hms : maxStep2 (bdfNewton : NewtonOpts ℝ) = -1 := by
    simp [maxStep2, bdfNewton, NewtonOpts.dflt, ltb_real]
  have hng : ltb (0 : ℝ) (-1) = false := by rw [ltb_real_false]; norm_num
  have hdir : newtonDir laReal ⟨1, false, true, false, true⟩ s = some (s.lup, fun _ => - quot E x) := by
    simp only [newtonDir, Bool.false_eq_true, if_false]
    rw [solve_one _ _ (by rw [hJ, hx]; exact h), hr, hJ, hx]
    rfl
  have hg : s.term = false ∧ (s.iters : ℤ) < (bdfNewton : NewtonOpts ℝ).maxit := ⟨ht, by simp only [bdfNewton]; omega⟩
  unfold newtonBody
  rw [if_pos hg, hdir]
  simp only [newtonLambda, Bool.false_eq_true, if_false, lit_real, Rat.cast_one, one_mul, hms, limitDir, Rat.cast_zero, hng]
  refine ⟨_, rfl, ?_, rfl, rfl, rfl, ?_⟩
  · simp only [hx]
    rfl
  · have e : ‖(fun _ => - quot E x : Vec ℝ 1)‖ = |quot E x| := by
      rw [pi_norm_const, norm_neg, Real.norm_eq_abs]
    have hdx : (bdfNewton : NewtonOpts ℝ).dxDelta = 1 / 10 ^ 10 := by simp [bdfNewton]
    show ltb (normInf _) _ = _
    rw [normInf_real, e, hdx]
    rw [Bool.eq_iff_iff, ltb_real, decide_eq_true_eq]

theorem newton_end {E : NFun ℝ 1} {x0 : Vec ℝ 1} {st : NewtonStatus ℝ} {s : NewtonState ℝ 1} (ht : s.term = true) (hi : s.iters < 500) :
    ∃ st', newtonBody laReal E x0 bdfNewton ⟨1, false, true, false, true⟩ st s = .done (.ret (s.xn, st')) ∧ st'.conv = 0 := by
  unfold newtonBody
  rw [if_neg (by rw [ht]; simp)]
  have : ¬ ((s.iters : ℤ) = (bdfNewton : NewtonOpts ℝ).maxit) := by simp only [bdfNewton]; omega
  simp only [newtonFinish, if_neg this, isFin_real, if_true]
  exact ⟨_, rfl, rfl⟩

theorem run_next {S R : Type} {body : S → LoopStep S R} {s s' : S} (h : body s = .next s') (k : ℕ) :
    runLoop body (k + 1) s = runLoop body k s' := by
  rw [runLoop, h]

theorem run_done {S R : Type} {body : S → LoopStep S R} {s : S} {r : Outcome R} (h : body s = .done r) (k : ℕ) :
    runLoop body (k + 1) s = some r := by
  rw [runLoop, h]

theorem newton_one {E : NFun ℝ 1} {x : ℝ} (st : NewtonStatus ℝ) (hJ : E.jac (fun _ => x) 0 0 ≠ 0) (hq : |quot E x| < 1 / 10 ^ 10) :
    ∃ st', newtonIterate laReal E (fun _ => x) bdfNewton st true = some (.ret (fun _ => x - quot E x, st')) ∧ st'.conv = 0 := by
  have hb : newtonSwitch (newtonBits (bdfNewton : NewtonOpts ℝ) true) = ⟨1, false, true, false, true⟩ := by
    simp [newtonBits, bdfNewton, NewtonOpts.dflt, newtonSwitch]
  obtain ⟨s, h1, h2, h3, h4, h5, h6⟩ := newton_pass (E := E) (x0 := fun _ => x) (st := st)
    (s := newtonInit laReal E (fun _ => x) ⟨1, false, true, false, true⟩) rfl rfl rfl rfl (by simp [newtonInit]) hJ
  obtain ⟨st', h7, h8⟩ := newton_end (E := E) (x0 := fun _ => x) (st := st) (s := s) (by rw [h6]; simpa using hq) (by rw [h5]; simp [newtonInit])
  refine ⟨st', ?_, h8⟩
  unfold newtonIterate newtonImpl
  rw [hb]
  have hf : (bdfNewton : NewtonOpts ℝ).maxit.toNat + 1 = 499 + 1 + 1 := rfl
  rw [hf, run_next h1, run_done h7, h2]

theorem newton_two {E : NFun ℝ 1} {x : ℝ} (st : NewtonStatus ℝ) (hJ : E.jac (fun _ => x) 0 0 ≠ 0) (hq : 1 / 10 ^ 10 ≤ |quot E x|)
    (hJ2 : E.jac (fun _ => x - quot E x) 0 0 ≠ 0) (hq2 : |quot E (x - quot E x)| < 1 / 10 ^ 10) :
    ∃ st', newtonIterate laReal E (fun _ => x) bdfNewton st true = some (.ret (fun _ => x - quot E x - quot E (x - quot E x), st')) ∧
      st'.conv = 0 := by
  have hb : newtonSwitch (newtonBits (bdfNewton : NewtonOpts ℝ) true) = ⟨1, false, true, false, true⟩ := by
    simp [newtonBits, bdfNewton, NewtonOpts.dflt, newtonSwitch]
  obtain ⟨s, h1, h2, h3, h4, h5, h6⟩ := newton_pass (E := E) (x0 := fun _ => x) (st := st)
    (s := newtonInit laReal E (fun _ => x) ⟨1, false, true, false, true⟩) rfl rfl rfl rfl (by simp [newtonInit]) hJ
  have i1 : s.iters = 1 := by rw [h5]; simp [newtonInit]
  obtain ⟨s', k1, k2, k3, k4, k5, k6⟩ := newton_pass (E := E) (x0 := fun _ => x) (st := st) (s := s) h2 h3 h4
    (by rw [h6]; simpa using hq) (by omega) hJ2
  obtain ⟨st', h7, h8⟩ := newton_end (E := E) (x0 := fun _ => x) (st := st) (s := s') (by rw [k6]; simpa using hq2) (by omega)
  refine ⟨st', ?_, h8⟩
  unfold newtonIterate newtonImpl
  rw [hb]
  have hf : (bdfNewton : NewtonOpts ℝ).maxit.toNat + 1 = 498 + 1 + 1 + 1 := rfl
  rw [hf, run_next h1, run_next k1, run_done h7, k2]

/-! #### the witness -/

/-- `y' = 0` until `1.5e-6`, `y' = a y²` afterwards -/
noncomputable def sqFun (a : ℝ) : OdeFun ℝ 1 :=
  ⟨fun t y _ => if t ≤ 3 / 2 / 10 ^ 6 then 0 else a * y 0 ^ 2, fun t y _ _ => if t ≤ 3 / 2 / 10 ^ 6 then 0 else 2 * a * y 0⟩

theorem sq_returns (a y0 : ℝ) (st0 : NewtonStatus ℝ) : ∃ fuel out, bdf false laReal (sqFun a) 0 (3 / 2 / 10 ^ 6) (fun _ => y0) 1
      (1 / 10 ^ 6) st0 2 fuel = some (.ret out) := by
  have hmin : min (1 / 10 ^ 6 : ℝ) (3 / 2 / 10 ^ 6 - 0) = 1 / 10 ^ 6 := min_eq_left (by norm_num)
  obtain ⟨l, hl⟩ := bootstrap_const (n := 1) (by norm_num) (fun _ => 0) (by simp) (dt := 1 / 10 ^ 6) (by norm_num) (le_refl _) 2 0 (fun _ => y0)
  have hl2 : bootstrap false laReal (sqFun a) 2 (1 + 1) (fun _ => y0) 0 (min (1 / 10 ^ 6) (3 / 2 / 10 ^ 6 - 0)) = some (.ret l) := by
    rw [hmin, ← hl, one_add_one_eq_two]
    have hag : AgreeOn (sqFun a) (constFun fun _ => 0) 0 (1 / 10 ^ 6) := by
      intro t y _ h2
      have : t ≤ 3 / 2 / 10 ^ 6 := h2.trans (by norm_num)
      exact ⟨by simp [sqFun, constFun, this], by simp [sqFun, constFun, this]⟩
    have hT : (0 : ℝ) + ((2 - 1 : ℤ).toNat : ℕ) * (1 / 10 ^ 6) ≤ 1 / 10 ^ 6 := by norm_num
    exact bootstrap_agree (by norm_num) hT hag _
  exact C53_bdf_returns one_pos (by norm_num) (by norm_num) (by norm_num) hl2

theorem sq_eq (a y0 : ℝ) {v : ℕ → Vec ℝ 1} (hv : v 0 = fun _ => y0) (x : ℝ) :
    (bdfEq (sqFun a) 1 (1 / 10 ^ 6) (0 + (2 : ℕ) * (1 / 10 ^ 6)) v).fn (fun _ => x) 0 = x - y0 - 1 / 10 ^ 6 * (a * x ^ 2) ∧
    (bdfEq (sqFun a) 1 (1 / 10 ^ 6) (0 + (2 : ℕ) * (1 / 10 ^ 6)) v).jac (fun _ => x) 0 0 = 1 - 1 / 10 ^ 6 * (2 * a * x) := by
  have e : ¬ ((0 : ℝ) + (2 : ℕ) * (1 / 10 ^ 6) ≤ 3 / 2 / 10 ^ 6) := by norm_num
  constructor
  · rw [bdfEq_vec]
    simp only [sqFun, if_neg e, Int.toNat_one, Finset.sum_range_one, hv, bdfC, bdfRow, bdfW, Pi.add_apply, Pi.sub_apply, Pi.smul_apply, smul_eq_mul]
    simp
    ring
  · simp only [bdfEq, sqFun, if_neg e, eye_real, bdfW]
    simp

/-- the third sample of the run is the result of the Newton iteration, whatever the status object said before -/
theorem sq_value {a y0 X : ℝ} {st0 : NewtonStatus ℝ} {fuelB fuel : ℕ} {out : MsOutput ℝ 1}
    (hX : ∀ (v : ℕ → Vec ℝ 1), (v 0 = fun _ => y0) → ∀ st, ∃ st', newtonIterate laReal
      (bdfEq (sqFun a) 1 (1 / 10 ^ 6) (0 + (2 : ℕ) * (1 / 10 ^ 6)) v) (fun _ => y0) bdfNewton st true = some (.ret (fun _ => X, st')) ∧ st'.conv = 0)
    (ho : bdf false laReal (sqFun a) 0 (3 / 2 / 10 ^ 6) (fun _ => y0) 1 (1 / 10 ^ 6) st0 fuelB fuel = some (.ret out)) :
    out.yVals[2]? = some fun _ => X := by
  have hmin : min (1 / 10 ^ 6 : ℝ) (3 / 2 / 10 ^ 6 - 0) = 1 / 10 ^ 6 := min_eq_left (by norm_num)
  obtain ⟨N, a2, a3, a4, a5, a6, a7⟩ := C53_bdf one_pos (by norm_num) ho
  obtain ⟨y, c1, c2, c3, c4⟩ := bdf_values one_pos (by norm_num) ho
  rw [hmin] at a6 c3 c4
  have hy1 : y 1 = fun _ => y0 := c2 1 (by norm_num)
  have hN : 3 ≤ N := by
    by_contra hlt
    have hN2 : N = 2 := by omega
    have hs : out.status ≠ 0 := by
      intro e
      have := a6.mp e
      rw [hN2] at this
      norm_num at this
    obtain ⟨y', st, st', k1, k2⟩ := c4 hs
    rw [a3, hN2] at k1
    obtain ⟨st'', k3, k4⟩ := hX (fun j => y (2 - 1 - j)) (by exact hy1) st
    rw [show y (2 - 1) = fun _ => y0 from hy1, k3] at k1
    simp only [Option.some.injEq, Outcome.ret.injEq, Prod.mk.injEq] at k1
    exact k2 (by rw [← k1.2]; exact k4)
  obtain ⟨st, st', k1⟩ := c3 2 (by norm_num) (by omega)
  obtain ⟨st'', k3, k4⟩ := hX (fun j => y (2 - 1 - j)) (by exact hy1) st
  rw [show y (2 - 1) = fun _ => y0 from hy1, k3] at k1
  simp only [Option.some.injEq, Outcome.ret.injEq, Prod.mk.injEq] at k1
  have := List.getElem?_eq_getElem (l := out.yVals) (i := 2) (by omega)
  rw [this, c1 2 _ this, k1.1]

/-- in the unit of the problem the iteration makes two steps -/
theorem sq_coarse : ∃ X : ℝ, X ≠ 1 + 1 / 999998 ∧ ∀ (v : ℕ → Vec ℝ 1), (v 0 = fun _ => 1) → ∀ st, ∃ st', newtonIterate laReal
      (bdfEq (sqFun 1) 1 (1 / 10 ^ 6) (0 + (2 : ℕ) * (1 / 10 ^ 6)) v) (fun _ => 1) bdfNewton st true = some (.ret (fun _ => X, st')) ∧ st'.conv = 0 := by
  refine ⟨999999 / 999998 - (999999 / 999998 - 1 - 1 / 10 ^ 6 * (1 * (999999 / 999998) ^ 2)) / (1 - 1 / 10 ^ 6 * (2 * 1 * (999999 / 999998))),
    by norm_num, fun v hv st => ?_⟩
  have hq1 : quot (bdfEq (sqFun 1) 1 (1 / 10 ^ 6) (0 + (2 : ℕ) * (1 / 10 ^ 6)) v) 1 = - (1 / 999998) := by
    rw [quot, (sq_eq 1 1 hv 1).1, (sq_eq 1 1 hv 1).2]
    norm_num
  have hx1 : (1 : ℝ) - quot (bdfEq (sqFun 1) 1 (1 / 10 ^ 6) (0 + (2 : ℕ) * (1 / 10 ^ 6)) v) 1 = 999999 / 999998 := by
    rw [hq1]
    norm_num
  have hq2 : quot (bdfEq (sqFun 1) 1 (1 / 10 ^ 6) (0 + (2 : ℕ) * (1 / 10 ^ 6)) v) (999999 / 999998) =
      (999999 / 999998 - 1 - 1 / 10 ^ 6 * (1 * (999999 / 999998) ^ 2)) / (1 - 1 / 10 ^ 6 * (2 * 1 * (999999 / 999998))) := by
    rw [quot, (sq_eq 1 1 hv _).1, (sq_eq 1 1 hv _).2]
  obtain ⟨st', h1, h2⟩ := newton_two (E := bdfEq (sqFun 1) 1 (1 / 10 ^ 6) (0 + (2 : ℕ) * (1 / 10 ^ 6)) v) (x := 1) st
    (by rw [(sq_eq 1 1 hv _).2]; norm_num) (by rw [hq1]; norm_num) (by rw [hx1, (sq_eq 1 1 hv _).2]; norm_num)
    (by rw [hx1, hq2]; norm_num [abs_lt])
  rw [hx1, hq2] at h1
  exact ⟨st', h1, h2⟩

/-- measured in a unit `10^5` times as large it makes one -/
theorem sq_fine (v : ℕ → Vec ℝ 1) (hv : v 0 = fun _ => 1 / 10 ^ 5) (st : NewtonStatus ℝ) : ∃ st', newtonIterate laReal
      (bdfEq (sqFun (10 ^ 5)) 1 (1 / 10 ^ 6) (0 + (2 : ℕ) * (1 / 10 ^ 6)) v) (fun _ => 1 / 10 ^ 5) bdfNewton st true =
        some (.ret (fun _ => 1 / 10 ^ 5 * (1 + 1 / 999998), st')) ∧ st'.conv = 0 := by
  have hq1 : quot (bdfEq (sqFun (10 ^ 5)) 1 (1 / 10 ^ 6) (0 + (2 : ℕ) * (1 / 10 ^ 6)) v) (1 / 10 ^ 5) = - (1 / 10 ^ 5 * (1 / 999998)) := by
    rw [quot, (sq_eq _ _ hv _).1, (sq_eq _ _ hv _).2]
    norm_num
  obtain ⟨st', h1, h2⟩ := newton_one (E := bdfEq (sqFun (10 ^ 5)) 1 (1 / 10 ^ 6) (0 + (2 : ℕ) * (1 / 10 ^ 6)) v) (x := 1 / 10 ^ 5) st
    (by rw [(sq_eq _ _ hv _).2]; norm_num) (by rw [hq1]; norm_num)
  refine ⟨st', ?_, h2⟩
  have e : (1 / 10 ^ 5 : ℝ) - - (1 / 10 ^ 5 * (1 / 999998)) = 1 / 10 ^ 5 * (1 + 1 / 999998) := by norm_num
  rw [hq1, e] at h1
  exact h1

/-- the unknowns in a unit that is `10^5` times as large -/
noncomputable def largeUnit : Change 1 1 := ⟨1, 0, 1 / 10 ^ 5, (1 / 10 ^ 5 : ℝ) • LinearMap.id, 0⟩

/-- **C114 is false**: the tolerance of the Newton iteration in `bdf` is absolute, so a step that is refined in one unit of the unknowns is accepted as
it is in another. -/
theorem C114_refuted : ¬ C114_claim := by
  intro h
  obtain ⟨fuel, out, h1⟩ := sq_returns 1 1 nStat
  obtain ⟨fuel', out', h2⟩ := sq_returns (10 ^ 5) (1 / 10 ^ 5) nStat
  have hT : ∀ t, largeUnit.T t = t := fun t => by simp [Change.T, largeUnit]
  have hY : ∀ x : ℝ, largeUnit.Y (fun _ => x) = fun _ => 1 / 10 ^ 5 * x := fun x => by funext; simp [Change.Y, largeUnit]
  have hk := ((h 1 (sqFun 1) (sqFun (10 ^ 5)) largeUnit (by simp [largeUnit]) (by simp [largeUnit])
    (fun v => by simp [largeUnit, norm_smul]) ⟨fun t y => ?_, fun t y u => ?_⟩ false 0 (3 / 2 / 10 ^ 6) (1 / 10 ^ 6) (fun _ => 1) 1 nStat 2 fuel fuel' out out' one_pos
      (by norm_num)).2 h1 (by rw [hT, hT, hY, mul_one, show largeUnit.lam = 1 from rfl, one_mul]; exact h2)).2.2
  · obtain ⟨X, hX, hc⟩ := sq_coarse
    have e1 := sq_value hc h1
    have e2 := sq_value sq_fine h2
    rw [hk, List.getElem?_map, e1, Option.map_some, hY, Option.some.injEq] at e2
    have := congrFun e2 0
    exact hX (mul_left_cancel₀ (by norm_num) this)
  · rw [hT]
    funext i
    fin_cases i
    simp only [sqFun, Change.Y, Change.K, largeUnit]
    split
    · simp
    · simp
      ring
  · rw [hT]
    have hmv : ∀ (x : ℝ) (u : Vec ℝ 1), (Matrix.of (fun _ _ => x : Mat ℝ 1)).mulVec u = fun _ => x * u 0 := fun x u => by
      funext i
      simp [Matrix.mulVec, dotProduct]
    simp only [sqFun, hmv]
    funext i
    simp only [Change.Y, Change.K, largeUnit]
    split
    · simp
    · simp
      ring

/-- the new variables of the examples: another origin and another unit of time, the two unknowns interchanged, one of them negated and shifted -/
noncomputable def swapChange : Change 2 2 where
  lam := 1 / 2
  tau := 3
  mu := 1
  L := { toFun := fun v i => if i = 0 then - v 1 else v 0
         map_add' := fun u v => by funext i; fin_cases i <;> simp [add_comm]
         map_smul' := fun a v => by funext i; fin_cases i <;> simp }
  c := fun i => if i = 0 then 5 else 0

theorem swap_maxNorm : swapChange.MaxNorm := by
  intro v
  apply le_antisymm
  · refine (pi_norm_le_iff_of_nonneg (norm_nonneg _)).mpr fun i => ?_
    fin_cases i
    · simpa [swapChange] using norm_le_pi_norm v 1
    · simpa [swapChange] using norm_le_pi_norm v 0
  · refine (pi_norm_le_iff_of_nonneg (norm_nonneg _)).mpr fun i => ?_
    fin_cases i
    · simpa [swapChange] using norm_le_pi_norm (swapChange.L v) 1
    · simpa [swapChange] using norm_le_pi_norm (swapChange.L v) 0

/-- the hypotheses of `C114_adams_bashforth` and `C114_bdf_partial` hold for runs of order 3 in both sets of variables -/
example : ∃ v : ℝ, 0 < v ∧ ∃ f1 o1 f2 o2 f3 o3 f4 o4,
    adamsBashforth false laReal (constFun (n := 2) fun i => if i = 0 then v / 2 else 0) 0 (1 / 10 ^ 5) (fun i => i) 3 (1 / 10 ^ 6) nStat 2 f1 =
      some (.ret o1) ∧
    adamsBashforth false laReal (constFun (n := 2) fun i => if i = 0 then 0 else v) (swapChange.T 0) (swapChange.T (1 / 10 ^ 5))
      (swapChange.Y fun i => i) 3 (swapChange.lam * (1 / 10 ^ 6)) nStat 2 f2 = some (.ret o2) ∧ o2.yVals = o1.yVals.map swapChange.Y ∧
    bdf false laReal (constFun (n := 2) fun i => if i = 0 then v / 2 else 0) 0 (1 / 10 ^ 5) (fun i => i) 3 (1 / 10 ^ 6) nStat 2 f3 =
      some (.ret o3) ∧
    bdf false laReal (constFun (n := 2) fun i => if i = 0 then 0 else v) (swapChange.T 0) (swapChange.T (1 / 10 ^ 5))
      (swapChange.Y fun i => i) 3 (swapChange.lam * (1 / 10 ^ 6)) nStat 2 f4 = some (.ret o4) ∧ o4.yVals = o3.yVals.map swapChange.Y := by
  obtain ⟨v, hv0, hv⟩ := slope_exists
  have hmin : min (1 / 10 ^ 6 : ℝ) (1 / 10 ^ 5 - 0) = 1 / 10 ^ 6 := min_eq_left (by norm_num)
  have hmin' : min (swapChange.lam * (1 / 10 ^ 6) : ℝ) (swapChange.T (1 / 10 ^ 5) - swapChange.T 0) = 1 / 2 * (1 / 10 ^ 6) := by
    simp only [Change.T, swapChange]
    exact min_eq_left (by norm_num)
  have hs : ∀ t (y : Vec ℝ 2), (constFun (n := 2) fun i => if i = 0 then 0 else v).fn (swapChange.T t) (swapChange.Y y) =
      swapChange.K ((constFun (n := 2) fun i => if i = 0 then v / 2 else 0).fn t y) := by
    intro t y
    funext i
    fin_cases i <;> simp [constFun, Change.K, swapChange, mul_div_cancel₀]
  have hS : swapChange.Same (constFun (n := 2) fun i => if i = 0 then v / 2 else 0) (constFun (n := 2) fun i => if i = 0 then 0 else v) := by
    refine ⟨hs, fun t y u => ?_⟩
    have hz : Matrix.of (fun _ _ => 0 : Mat ℝ 2) = 0 := rfl
    simp [constFun, hz, Change.K]
  have b1 := fun order => bootstrap_const (n := 2) (by norm_num) (fun i => if i = 0 then v / 2 else 0) (fun k => by
    split
    · rw [abs_le] at hv ⊢
      constructor <;> linarith [hv.1, hv.2]
    · simp) (dt := 1 / 10 ^ 6) (by norm_num) (le_refl _) order 0 (fun i => i)
  have b2 := fun order => bootstrap_const (n := 2) (by norm_num) (fun i => if i = 0 then 0 else v) (fun k => by
    split
    · simp
    · exact hv) (dt := 1 / 2 * (1 / 10 ^ 6)) (by norm_num) (by norm_num) order (swapChange.T 0) (swapChange.Y fun i => i)
  have hlam : 0 < swapChange.lam * (1 / 10 ^ 6) := by simp [swapChange]
  have hT : swapChange.T 0 < swapChange.T (1 / 10 ^ 5) := by simp only [Change.T, swapChange]; norm_num
  obtain ⟨l1, h1⟩ := b1 3
  obtain ⟨l2, h2⟩ := b2 3
  obtain ⟨l3, h3⟩ := b1 (3 + 1)
  obtain ⟨l4, h4⟩ := b2 (3 + 1)
  rw [← hmin] at h1 h3
  rw [← hmin'] at h2 h4
  obtain ⟨f1, o1, k1⟩ := C53_ab_returns (st0 := nStat) (by norm_num) (by norm_num) (by norm_num) (by norm_num) h1
  obtain ⟨f2, o2, k2⟩ := C53_ab_returns (st0 := nStat) (by norm_num) (by norm_num) hlam hT h2
  obtain ⟨f3, o3, k3⟩ := C53_bdf_returns (st0 := nStat) (by norm_num) (by norm_num) (by norm_num) (by norm_num) h3
  obtain ⟨f4, o4, k4⟩ := C53_bdf_returns (st0 := nStat) (by norm_num) (by norm_num) hlam hT h4
  exact ⟨v, hv0, f1, o1, f2, o2, f3, o3, f4, o4, k1, k2, (C114_adams_bashforth swapChange (by simp [swapChange]) hs (by norm_num) k1 k2).2.2, k3, k4,
    (C114_bdf_partial swapChange (by simp [swapChange]) swap_maxNorm hS (by norm_num) (by norm_num) k3 k4).2.2⟩

end Verif
