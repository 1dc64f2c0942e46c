import Verif.Prop.ErkSens
import Verif.Prop.Multistep
import Verif.TestEq

/-!
# C137: `adams_bashforth` of order 1 and EULER
-/

set_option autoImplicit false

namespace Verif
open Spec Set

section
variable {n : ℕ} {nd nd' : Bool} {la : LinAlg ℝ} {fn : OdeFun ℝ n} {t0 t1 : ℝ} {y0 : Vec ℝ n} {dt : ℝ} {st0 : NewtonStatus ℝ} {fuelB fuel : ℕ}
  {out : MsOutput ℝ n} {o : ErkOpts ℝ} {oo : OutOpts}

/-- the samples of `adams_bashforth` of order 1 with the step `d = min dt (t1 - t0)`: times `t0 + i d`, values by Euler's method -/
theorem ab_one (h : adamsBashforth nd la fn t0 t1 y0 1 dt st0 fuelB fuel = some (.ret out)) :
    out.yVals.length = out.tVals.length ∧ 0 < out.tVals.length ∧ out.yVals[0]? = some y0 ∧
      (∀ i < out.tVals.length, out.tVals[i]? = some (t0 + i * min dt (t1 - t0))) ∧
      t1 ≤ t0 + ((out.tVals.length - 1 : ℕ) : ℝ) * min dt (t1 - t0) ∧
      (∀ i : ℕ, i + 1 < out.tVals.length → t0 + i * min dt (t1 - t0) < t1) ∧
      ∀ (i : ℕ) (y : Vec ℝ n), out.yVals[i + 1]? = some y → ∃ x, out.yVals[i]? = some x ∧
        y = x + min dt (t1 - t0) • fn.fn (t0 + i * min dt (t1 - t0)) x := by
  obtain ⟨N, -, hN1, hN2, -, hN3, hN4, hN5, hN6⟩ := C53_ab_grid h
  obtain ⟨-, acc, t, y, hR, hboot, ht, hy, -, hl, -⟩ := ab_run h
  have hlen : acc.length = out.tVals.length := by rw [ht]; simp
  have hpos : 0 < out.tVals.length := by omega
  rw [← Bool.not_eq_true] at hN5
  simp only [gridPt_real, clipDt_real, ltb_real, not_lt] at hN4 hN5 hN6
  subst hN1
  refine ⟨hN2, hpos, ?_, hN4, hN5, fun i hi => hN6 i (by omega) hi, ?_⟩
  · rw [hy]
    have : acc[0]? = some (t0, y0) := by
      have := congrArg (·[0]?) hboot
      simp only [Int.toNat_one, List.getElem?_take_of_lt one_pos] at this
      rw [this]; rfl
    rw [List.getElem?_map, this]; rfl
  · intro i y' hy'
    rw [hy, List.getElem?_map] at hy'
    obtain ⟨p, hp, rfl⟩ := Option.map_eq_some_iff.mp hy'
    obtain ⟨hi, -⟩ := List.getElem?_eq_some_iff.mp hp
    obtain ⟨s, x, v, hl1, hv, he⟩ := hR.step (i + 1) p (by simp) hp (by norm_num)
    have hlast : acc[i]? = some (s, x) := by
      rw [List.getLast?_eq_getElem?] at hl1
      have e : (acc.take (i + 1)).length - 1 = i := by rw [List.length_take]; omega
      rw [e, List.getElem?_take_of_lt (by omega)] at hl1
      exact hl1
    have hs : s = t0 + i * min dt (t1 - t0) := by
      have h1 := hN4 i (by omega)
      rw [ht, List.getElem?_map, hlast] at h1
      exact Option.some.inj h1
    have hv0 : v 0 = x := by
      have h1 := hv 0 (by simp)
      rw [List.getElem?_reverse (by simp; omega)] at h1
      have e : (List.map Prod.snd (acc.take (i + 1))).length - 1 - 0 = i := by rw [List.length_map, List.length_take]; omega
      rw [e, List.getElem?_map, List.getElem?_take_of_lt (by omega), hlast] at h1
      exact (Option.some.inj h1).symm
    refine ⟨x, by rw [hy, List.getElem?_map, hlast]; rfl, ?_⟩
    rw [he, ← hs]
    funext k
    simp [abComb, hv0, clipDt_real]

/-- **C137.**  A run of `adams_bashforth` of order 1 that returns has as many samples as the run of EULER with the same data, which returns with SUCCESS.
All samples whose time `t0 + i d`, `d = min dt (t1 - t0)`, is not behind `t1` are the same, time and value.  Only the last sample can differ: EULER
shortens its last step to end at `t1`, `adams_bashforth` does not. -/
theorem C137_same (h : adamsBashforth nd la fn t0 t1 y0 1 dt st0 fuelB fuel = some (.ret out)) (hdt : 0 < dt) (h01 : t0 < t1) (hs : StreamOK oo)
    (hms : o.maxSteps < 0) :
    ∃ fuel' out', erkOdeint nd' fn.fn t0 t1 y0 o oo 100 dt fuel' = some (.ret out') ∧ out'.status = 0 ∧ out.tVals.length = out'.tVals.length ∧
      (∀ i < out.tVals.length, t0 + i * min dt (t1 - t0) ≤ t1 → out.tVals[i]? = out'.tVals[i]? ∧ out.yVals[i]? = out'.yVals[i]?) ∧
      ∀ i, i + 1 < out.tVals.length → t0 + i * min dt (t1 - t0) < t1 := by
  obtain ⟨a1, a2, a3, a4, a5, a6, a7⟩ := ab_one h
  obtain ⟨fuel', out', h1, h2, h3⟩ := C19_fixed_grid (nd := nd') (f := fn.fn) (y0 := y0) (m := 100) (o := o) (oo := oo) (by decide) hs (Or.inr rfl) hdt h01
    (Or.inl hms)
  have hpos : nd' = false ∨ (0 < dt ∧ t0 < t1) := Or.inr ⟨hdt, h01⟩
  obtain ⟨d, hd⟩ : ∃ d, d = min dt (t1 - t0) := ⟨_, rfl⟩
  have hd0 : 0 < d := by rw [hd]; exact lt_min hdt (by linarith)
  have hdle : d ≤ t1 - t0 := by rw [hd]; exact min_le_right _ _
  rw [← hd] at a4 a5 a6 a7 ⊢
  -- the grid of EULER
  obtain ⟨c, hc⟩ : ∃ c, c = ⌈(t1 - t0) / dt⌉₊ := ⟨_, rfl⟩
  rw [← hc] at h3
  have hcd : c = ⌈(t1 - t0) / d⌉₊ := by
    rcases le_total dt (t1 - t0) with h | h
    · rw [hc, hd, min_eq_left h]
    · rw [hc, hd, min_eq_right h, div_self (by linarith), Nat.ceil_one]
      rw [Nat.ceil_eq_iff one_ne_zero]
      constructor
      · simpa using div_pos (by linarith : 0 < t1 - t0) hdt
      · rw [div_le_iff₀ hdt]; simpa using h
  have hc0 : 0 < c := by rw [hcd]; exact Nat.ceil_pos.mpr (div_pos (by linarith) hd0)
  have hlen : out.tVals.length = c + 1 := by
    obtain ⟨L, hL⟩ : ∃ L, out.tVals.length = L + 1 := ⟨out.tVals.length - 1, by omega⟩
    rw [hL] at a5 a6 ⊢
    have hL0 : L ≠ 0 := by rintro rfl; simp at a5; linarith
    rw [hcd, Nat.succ_inj, eq_comm, Nat.ceil_eq_iff hL0]
    constructor
    · rw [lt_div_iff₀ hd0]
      have := a6 (L - 1) (by omega)
      linarith
    · rw [div_le_iff₀ hd0]
      simp only [Nat.add_sub_cancel] at a5
      linarith
  have hlen' : out'.tVals.length = c + 1 := by rw [h3]; simp
  -- its times before `t1`
  have htime : ∀ i ≤ c, t0 + i * d ≤ t1 → out'.tVals[i]? = some (t0 + i * d) := by
    intro i hi hle
    rw [h3]
    rcases Nat.lt_or_ge i c with hlt | hge
    · rw [List.getElem?_append_left (by simpa using hlt), List.getElem?_map, List.getElem?_range hlt]
      rcases Nat.eq_zero_or_pos i with rfl | hi0
      · simp
      · have hdd : d = dt := by
          rw [hd]
          refine min_eq_left ?_
          by_contra hcon
          have : c = 1 := by
            rw [hc, Nat.ceil_eq_iff one_ne_zero]
            constructor
            · simpa using div_pos (by linarith : 0 < t1 - t0) hdt
            · rw [div_le_iff₀ hdt]; simp; linarith
          omega
        simp [hdd]
    · have hic : i = c := by omega
      subst hic
      rw [List.getElem?_append_right (by simp)]
      have := a5
      rw [hlen, Nat.add_sub_cancel] at this
      have : t0 + i * d = t1 := le_antisymm hle this
      simp [this]
  refine ⟨fuel', out', h1, h2, by rw [hlen, hlen'], ?_, a6⟩
  intro i
  induction i with
  | zero =>
    intro _ _
    refine ⟨by rw [a4 0 a2, htime 0 (by omega) (by simpa using h01.le)], ?_⟩
    have e1 := (C10_odeint h1).2.2.2.2.2
    rw [List.head?_eq_getElem?] at e1
    rw [a3, e1]
  | succ i ih =>
    intro hi hle
    have hle' : t0 + (i : ℝ) * d ≤ t1 := by push_cast at hle; linarith
    obtain ⟨-, hy⟩ := ih (by omega) hle'
    refine ⟨by rw [a4 (i + 1) hi, htime (i + 1) (by omega) hle], ?_⟩
    have hys : out.yVals[i + 1]? = some (out.yVals[i + 1]'(by omega)) := List.getElem?_eq_getElem _
    generalize out.yVals[i + 1]'(by omega) = y' at hys
    obtain ⟨x, hx, rfl⟩ := a7 i y' hys
    obtain ⟨u, u', K, b1, b2, -, b3⟩ := C12_odeint h1 hpos (htime i (by omega) hle') (htime (i + 1) (by omega) hle)
    rw [← hy, hx] at b1
    cases b1
    rw [hys, b2, euler_formula b3]
    have e : t0 + ((i + 1 : ℕ) : ℝ) * d - (t0 + i * d) = d := by push_cast; ring
    rw [e]

/-- **C137.**  `adams_bashforth` of order 1 returns for every right-hand side and every linear algebra: it needs no starting values. -/
theorem C137_returns (hdt : 0 < dt) (h01 : t0 < t1) : ∃ fuel out, adamsBashforth nd la fn t0 t1 y0 1 dt st0 fuelB fuel = some (.ret out) :=
  C53_ab_returns (l := [(t0, y0)]) one_pos (by norm_num) hdt h01 (by simp [bootstrap, bootIter])

end

/-- the Lorenz system with step 3/10 on `[0, 1]`: five samples each, the first four are the same -/
example : ∃ fuel out fuel' out', adamsBashforth true laReal (TestEq.lorenz (10 : ℝ) 28 (8 / 3)) 0 1 ![1, 1, 1] 1 (3 / 10) nStat 0 fuel = some (.ret out) ∧
    erkOdeint true (TestEq.lorenz (10 : ℝ) 28 (8 / 3)).fn 0 1 ![1, 1, 1] { adaptive := false, relTol := 1, absTol := 1, maxDt := 0, maxSteps := -1 }
      OutOpts.dflt 100 (3 / 10) fuel' = some (.ret out') ∧ out'.status = 0 ∧ out.tVals.length = out'.tVals.length ∧
      ∀ i < out.tVals.length, i ≤ 3 → out.tVals[i]? = out'.tVals[i]? ∧ out.yVals[i]? = out'.yVals[i]? := by
  obtain ⟨fuel, out, h⟩ := C137_returns (nd := true) (la := laReal) (fn := TestEq.lorenz (10 : ℝ) 28 (8 / 3)) (y0 := ![1, 1, 1]) (st0 := nStat) (fuelB := 0)
    (dt := 3 / 10) (t0 := 0) (t1 := 1) (by norm_num) one_pos
  obtain ⟨fuel', out', r1, r2, r3, r4, -⟩ := C137_same (nd' := true) (o := { adaptive := false, relTol := 1, absTol := 1, maxDt := 0, maxSteps := -1 })
    (oo := OutOpts.dflt) h (by norm_num) one_pos (fun h => by revert h; decide) (by norm_num)
  refine ⟨fuel, out, fuel', out', h, r1, r2, r3, fun i hi h3 => r4 i hi ?_⟩
  rw [min_eq_left (by norm_num)]
  have : (i : ℝ) ≤ 3 := by exact_mod_cast h3
  linarith

end Verif
