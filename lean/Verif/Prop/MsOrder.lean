import Verif.MsLag
import Verif.Prop.MsConverge

/-!
# C104, C105: order of the multistep recursions for given starting values; C106: the delay of Adams-Bashforth
-/

set_option linter.unusedSectionVars false

namespace Verif
open Set

section model
variable {F : Type} [Add F] [Sub F] [Mul F] [Div F] [Neg F] [Scalar F] {n : ℕ}

/-- `adams_bashforth` after its bootstrap (multistep.hpp 171-197), `l` being what the bootstrap has delivered, `dt` the step -/
def abFrom (nd : Bool) (fn : OdeFun F n) (t1 : F) (order : ℤ) (dt : F) (st0 : NewtonStatus F) (l : List (F × Vec F n)) (fuel : ℕ) :
    Option (Outcome (MsOutput F n)) :=
  match CBuf.construct (fun _ => lit 0 : Vec F n) order with
  | .assertFail => some .assertFail
  | .throws => some .throws
  | .ub => some .ub
  | .ret b =>
    match msStart b l st0 with
    | .assertFail => some .assertFail
    | .throws => some .throws
    | .ub => some .ub
    | .ret s => runLoop (abBody nd fn.fn t1 order dt) fuel s

/-- `bdf` after its bootstrap (multistep.hpp 257-347), `l` being what the bootstrap has delivered, `dt` the step -/
def bdfFrom (nd : Bool) (la : LinAlg F) (fn : OdeFun F n) (t1 : F) (order : ℤ) (dt : F) (st0 : NewtonStatus F) (l : List (F × Vec F n))
    (fuel : ℕ) : Option (Outcome (MsOutput F n)) :=
  match CBuf.construct (fun _ => lit 0 : Vec F n) (order + 1) with
  | .assertFail => some .assertFail
  | .throws => some .throws
  | .ub => some .ub
  | .ret b =>
    match msStart b l st0 with
    | .assertFail => some .assertFail
    | .throws => some .throws
    | .ub => some .ub
    | .ret s => runLoop (bdfBody nd la fn t1 order dt) fuel s

/-- `adams_bashforth` is its bootstrap followed by `abFrom` -/
theorem ab_eq_from {nd : Bool} {la : LinAlg F} {fn : OdeFun F n} {t0 t1 : F} {y0 : Vec F n} {order : ℤ} {dt : F}
    {st0 : NewtonStatus F} {fuelB fuel : ℕ} {l : List (F × Vec F n)} (hdt : nd = true ∨ ltb (lit 0) (clipDt t0 t1 dt) = true)
    (ho : 0 < order) (hl : bootstrap nd la fn fuelB order y0 t0 (clipDt t0 t1 dt) = some (.ret l)) :
    adamsBashforth nd la fn t0 t1 y0 order dt st0 fuelB fuel = abFrom nd fn t1 order (clipDt t0 t1 dt) st0 l fuel := by
  obtain ⟨b, hb⟩ := construct_pos (fun _ => lit 0 : Vec F n) ho
  unfold adamsBashforth abFrom
  simp only
  rw [if_neg (by rcases hdt with h | h <;> simp [h]), hb]
  simp only
  rw [hl]
  rfl

/-- `bdf` is its bootstrap followed by `bdfFrom` -/
theorem bdf_eq_from {nd : Bool} {la : LinAlg F} {fn : OdeFun F n} {t0 t1 : F} {y0 : Vec F n} {order : ℤ} {dt : F}
    {st0 : NewtonStatus F} {fuelB fuel : ℕ} {l : List (F × Vec F n)} (hdt : nd = true ∨ ltb (lit 0) (clipDt t0 t1 dt) = true)
    (h0 : 0 < order) (h6 : order ≤ 6) (hl : bootstrap nd la fn fuelB (order + 1) y0 t0 (clipDt t0 t1 dt) = some (.ret l)) :
    bdf nd la fn t0 t1 y0 order dt st0 fuelB fuel = bdfFrom nd la fn t1 order (clipDt t0 t1 dt) st0 l fuel := by
  obtain ⟨b, hb⟩ := construct_pos (fun _ => lit 0 : Vec F n) (show 0 < order + 1 by omega)
  unfold bdf bdfFrom
  simp only
  rw [if_neg (by omega), if_neg (by omega), if_neg (by rcases hdt with h | h <;> simp [h]), hb]
  simp only
  rw [hl]
  rfl

end model

/-- **Specification.**  The samples `l` are at the grid times `t0 + i h` and within `δ` of `u`. -/
def Spec.StartNear {n : ℕ} (u : ℝ → Fin n → ℝ) (t0 h δ : ℝ) (l : List (ℝ × Vec ℝ n)) : Prop :=
  ∀ (i : ℕ) t y, l[i]? = some (t, y) → t = t0 + i * h ∧ ‖y - u t‖ ≤ δ

variable {n : ℕ} {nd : Bool} {la : LinAlg ℝ} {fn : OdeFun ℝ n} {t0 t1 T : ℝ} {order : ℤ} {h δ : ℝ}
  {st0 : NewtonStatus ℝ} {fuel : ℕ} {out : MsOutput ℝ n} {u : ℝ → Fin n → ℝ} {l : List (ℝ × Vec ℝ n)}

/-- given samples on the grid start a run -/
theorem msRun_given (Q : List (ℝ × Vec ℝ n) → Vec ℝ n → Prop) (hl : ∀ (i : ℕ) t y, l[i]? = some (t, y) → t = t0 + i * h) :
    MsRun h t0 t1 l.length Q l := by
  refine ⟨?_, le_rfl, fun i h1 h2 => by omega, fun i ty h1 h2 => ?_⟩
  · refine List.ext_getElem? fun i => ?_
    rw [List.getElem?_map, List.getElem?_map]
    by_cases hi : i < l.length
    · rw [List.getElem?_range hi, List.getElem?_eq_getElem hi]
      simp only [Option.map_some, Option.some.injEq, gridPt_real]
      exact hl i _ _ (List.getElem?_eq_getElem hi)
    · rw [List.getElem?_eq_none (by omega), List.getElem?_eq_none (by simpa using hi)]
      rfl
  · have := (List.getElem?_eq_some_iff.1 h2).1
    omega

theorem from_start (p : ℤ) (hp : 0 < p) (hne : l ≠ []) (st0 : NewtonStatus ℝ) :
    ∃ b s, CBuf.construct (fun _ => lit 0 : Vec ℝ n) p = .ret b ∧ msStart b l st0 = .ret s ∧ MsInv p.toNat l s := by
  obtain ⟨b, hb⟩ := construct_pos (fun _ => lit 0 : Vec ℝ n) hp
  have ho' : ((p.toNat : ℕ) : ℤ) = p := Int.toNat_of_nonneg hp.le
  obtain ⟨s, hs, hI⟩ := msStart_inv (p := p.toNat) (by omega) hne (by rw [ho']; exact hb) st0
  exact ⟨b, s, hb, hs, hI⟩

/-- a run of `abFrom` returns and its values follow the recursion -/
theorem abFrom_values (h0 : 0 < order) (h5 : order ≤ 5) (hh : 0 < h) (hlen : l.length = order.toNat)
    (hl : ∀ (i : ℕ) t y, l[i]? = some (t, y) → t = t0 + i * h) :
    (∃ fuel out, abFrom nd fn t1 order h st0 l fuel = some (.ret out)) ∧
    ∀ fuel out, abFrom nd fn t1 order h st0 l fuel = some (.ret out) →
      ∃ y : ℕ → Vec ℝ n, out.status = 0 ∧ out.tVals.length = out.yVals.length ∧ order.toNat ≤ out.yVals.length ∧
        t1 ≤ t0 + (out.yVals.length - 1 : ℕ) * h ∧
        (∀ i < out.yVals.length, out.tVals[i]? = some (t0 + i * h) ∧ out.yVals[i]? = some (y i)) ∧
        (∀ i < order.toNat, l[i]? = some (t0 + i * h, y i)) ∧
        ∀ i, order.toNat ≤ i → i < out.yVals.length → y i = y (i - 1) + h •
          ∑ j ∈ Finset.range order.toNat, (abC order j : ℝ) • fn.fn (t0 + (i - 1 : ℕ) * h) (y (i - 1 - j)) := by
  obtain ⟨b, s, hb, hs, hI⟩ := from_start (l := l) order h0 (by rintro rfl; simp at hlen; omega) st0
  have he : ∀ fuel, abFrom nd fn t1 order h st0 l fuel = runLoop (abBody nd fn.fn t1 order h) fuel s := by
    intro fuel
    unfold abFrom
    rw [hb]
    simp only
    rw [hs]
  let Inv : MsState ℝ n → Prop := fun s => ∃ acc, MsInv order.toNat acc s ∧
      MsRun h t0 t1 order.toNat (fun a y => order ≤ 5 → AbNext fn.fn order h a y) acc ∧ acc.take order.toNat = l
  have hs0 : Inv s := ⟨l, hI, by have := msRun_given (h := h) (t0 := t0) (t1 := t1) (fun a y => order ≤ 5 → AbNext fn.fn order h a y) hl
                                 rwa [hlen] at this, by rw [← hlen, List.take_length]⟩
  have hstep : ∀ a b, Inv a → abBody nd fn.fn t1 order h a = .next b → Inv b ∧ ⌈(t1 - b.t) / h⌉₊ < ⌈(t1 - a.t) / h⌉₊ := by
    rintro a b ⟨acc, h1, h2, h3⟩ hb
    obtain ⟨g1, g2, y', g3, g4⟩ := abBody_next h0 h1 h2 hb
    refine ⟨⟨_, g3, g4, by rw [List.take_append_of_le_length h2.len]; exact h3⟩, ?_⟩
    rw [g2]
    exact ceil_decreases hh (by simpa using g1)
  have hend : ∀ fuel r, runLoop (abBody nd fn.fn t1 order h) fuel s = some r → ∃ s', Inv s' ∧ ltb s'.t t1 = false ∧ r = .ret s'.sol := by
    intro fuel r hr
    obtain ⟨s', hreach, hd⟩ := runLoop_some hr
    obtain ⟨acc, h1, h2, h3⟩ := hreach.inv (Inv := Inv) hs0 fun a b ha hb => (hstep a b ha hb).1
    refine ⟨s', ⟨acc, h1, h2, h3⟩, ?_⟩
    unfold abBody at hd
    by_cases hlt : ltb s'.t t1 = true
    · exfalso
      rw [if_pos hlt] at hd
      obtain ⟨v, hv⟩ := recent_exists acc h2.len
      rw [abStep_rep h0 h5 (le_refl _) h1.hist hv] at hd
      simp only at hd
      obtain ⟨b, hpb, -⟩ := msInv_push (by omega) h1 (s'.t + h) (fun k => s'.y k + h * abComb order fun j => fn.fn s'.t (v j) k) s'.newton
      rw [hpb] at hd
      cases hd
    · rw [if_neg hlt] at hd
      simp only [LoopStep.done.injEq] at hd
      exact ⟨by simpa using hlt, hd.symm⟩
  constructor
  · obtain ⟨k, r, hr⟩ := runLoop_terminates (fun s : MsState ℝ n => ⌈(t1 - s.t) / h⌉₊) hstep hs0
    obtain ⟨s', -, -, e⟩ := hend k r hr
    exact ⟨k, s'.sol, by rw [he, hr, e]⟩
  · intro fuel out hr
    rw [he] at hr
    obtain ⟨s', ⟨acc, hI', hR, htake⟩, hlt, e⟩ := hend fuel _ hr
    simp only [Outcome.ret.injEq] at e
    subst e
    have hval : ∀ i < acc.length, acc[i]? = some (t0 + i * h, ((acc.map Prod.snd)[i]?).getD 0) := by
      intro i hi
      have ha : acc[i]? = some acc[i] := List.getElem?_eq_getElem hi
      have h1 : (acc.map Prod.fst)[i]? = some acc[i].1 := by rw [List.getElem?_map, ha]; rfl
      rw [hR.times, List.getElem?_map, List.getElem?_range hi, Option.map_some, gridPt_real, Option.some.injEq] at h1
      rw [List.getElem?_map, ha, Option.map_some, Option.getD_some, h1]
    have hyl : s'.sol.yVals.length = acc.length := by rw [hI'.y, List.length_map]
    refine ⟨fun i => ((acc.map Prod.snd)[i]?).getD 0, hI'.ok, by rw [hI'.t, hI'.y]; simp, by rw [hyl]; exact hR.len, ?_, ?_, ?_, ?_⟩
    · have := hR.last hI'.last
      rw [gridPt_real] at this
      rw [hyl, ← this]
      simpa using hlt
    · intro i hi
      rw [hyl] at hi
      rw [hI'.t, hI'.y, List.getElem?_map, List.getElem?_map, hval i hi]
      exact ⟨rfl, by rw [Option.map_some, List.getElem?_map, hval i hi]; rfl⟩
    · intro i hi
      rw [← htake, List.getElem?_take, if_pos hi]
      exact hval i (lt_of_lt_of_le hi hR.len)
    · intro i hi hlt
      rw [hyl] at hlt
      have ha : acc[i]? = some acc[i] := List.getElem?_eq_getElem hlt
      obtain ⟨tl, yl, v, e1, e2, e3⟩ := hR.step i _ hi ha h5
      have hrec := recent_index hlt.le e2
      rw [List.getLast?_eq_getElem?] at e1
      have hlen' : (acc.take i).length - 1 = i - 1 := by simp; omega
      rw [hlen', List.getElem?_take, if_pos (by omega), hval (i - 1) (by omega)] at e1
      simp only [Option.some.injEq, Prod.mk.injEq] at e1
      have hyi : ((acc.map Prod.snd)[i]?).getD 0 = acc[i].2 := by rw [List.getElem?_map, ha]; rfl
      simp only []
      rw [hyi, e3, ← e1.1, ← e1.2]
      funext p
      simp only [abComb_real h0 h5, Pi.add_apply, Pi.smul_apply, Finset.sum_apply, smul_eq_mul]
      congr 2
      refine Finset.sum_congr rfl fun j hj => ?_
      rw [(hrec j (Finset.mem_range.1 hj)).2]
      rfl

/-- the values of a run on the grid -/
theorem acc_value {acc : List (ℝ × Vec ℝ n)} {N : ℕ} {Q : List (ℝ × Vec ℝ n) → Vec ℝ n → Prop} (hR : MsRun h t0 t1 N Q acc) {i : ℕ}
    (hi : i < acc.length) : acc[i]? = some (t0 + i * h, ((acc.map Prod.snd)[i]?).getD 0) := by
  have ha : acc[i]? = some acc[i] := List.getElem?_eq_getElem hi
  have h1 : (acc.map Prod.fst)[i]? = some acc[i].1 := by rw [List.getElem?_map, ha]; rfl
  rw [hR.times, List.getElem?_map, List.getElem?_range hi, Option.map_some, gridPt_real, Option.some.injEq] at h1
  rw [List.getElem?_map, ha, Option.map_some, Option.getD_some, h1]

theorem bdfEq_ext {hh t : ℝ} {v w : ℕ → Vec ℝ n} (hvw : ∀ j < order.toNat, v j = w j) :
    bdfEq fn order hh t v = bdfEq fn order hh t w := by
  have : ∀ p, (List.range order.toNat).foldl (fun a j => a + bdfC order j * v j p) (lit 0 : ℝ) =
      (List.range order.toNat).foldl (fun a j => a + bdfC order j * w j p) (lit 0) := by
    intro p
    rw [foldl_linComb _ (fun j => v j p), foldl_linComb _ (fun j => w j p)]
    congr 1
    refine Finset.sum_congr rfl fun j hj => ?_
    rw [hvw j (Finset.mem_range.1 hj)]
  unfold bdfEq
  simp only [this]

/-- the step relation of `bdf` in terms of the values on the grid -/
theorem bdfNext_values {acc : List (ℝ × Vec ℝ n)} {N : ℕ} {Q : List (ℝ × Vec ℝ n) → Vec ℝ n → Prop} (hR : MsRun h t0 t1 N Q acc)
    {i : ℕ} (hi : i ≤ acc.length) (h1 : 1 ≤ i) {g : Bool} {y' : Vec ℝ n} (hn : BdfNext la fn order h g (acc.take i) y') :
    ∃ st st', newtonIterate la (bdfEq fn order h (t0 + i * h) fun j => ((acc.map Prod.snd)[i - 1 - j]?).getD 0)
      (((acc.map Prod.snd)[i - 1]?).getD 0) bdfNewton st true = some (.ret (y', st')) ∧ (if g then st'.conv = 0 else st'.conv ≠ 0) := by
  obtain ⟨tl, yl, v, st, st', e1, e2, e3, e4⟩ := hn
  have hrec := recent_index hi e2
  rw [List.getLast?_eq_getElem?] at e1
  have hlen' : (acc.take i).length - 1 = i - 1 := by simp; omega
  rw [hlen', List.getElem?_take, if_pos (by omega), acc_value hR (by omega : i - 1 < acc.length)] at e1
  simp only [Option.some.injEq, Prod.mk.injEq] at e1
  refine ⟨st, st', ?_, e4⟩
  have hv : ∀ j < order.toNat, v j = ((acc.map Prod.snd)[i - 1 - j]?).getD 0 := by
    intro j hj
    rw [(hrec j hj).2, Option.getD_some]
  have e3' : newtonIterate la (bdfEq fn order h (tl + h) v) yl bdfNewton st true = some (.ret (y', st')) := e3
  rw [← bdfEq_ext hv, e1.2, show t0 + (i : ℝ) * h = tl + h by
    rw [← e1.1, Nat.cast_sub h1, Nat.cast_one]; ring]
  exact e3'

/-- a run of `bdfFrom` returns and its values solve the equations of the method -/
theorem bdfFrom_values (h0 : 0 < order) (hh : 0 < h) (hlen : l.length = (order + 1).toNat)
    (hl : ∀ (i : ℕ) t y, l[i]? = some (t, y) → t = t0 + i * h) :
    (∃ fuel out, bdfFrom nd la fn t1 order h st0 l fuel = some (.ret out)) ∧
    ∀ fuel out, bdfFrom nd la fn t1 order h st0 l fuel = some (.ret out) →
      ∃ y : ℕ → Vec ℝ n, out.tVals.length = out.yVals.length ∧ (order + 1).toNat ≤ out.yVals.length ∧
        (∀ i < out.yVals.length, out.tVals[i]? = some (t0 + i * h) ∧ out.yVals[i]? = some (y i)) ∧
        (∀ i < (order + 1).toNat, l[i]? = some (t0 + i * h, y i)) ∧
        (∀ i, (order + 1).toNat ≤ i → i < out.yVals.length → ∃ st st',
          newtonIterate la (bdfEq fn order h (t0 + i * h) fun j => y (i - 1 - j)) (y (i - 1)) bdfNewton st true = some (.ret (y i, st'))) ∧
        ((out.status = 0 ∧ t1 ≤ t0 + (out.yVals.length - 1 : ℕ) * h) ∨
          (out.status = 16 ∧ t0 + (out.yVals.length - 1 : ℕ) * h < t1 ∧ ∃ y' st st',
            newtonIterate la (bdfEq fn order h (t0 + out.yVals.length * h) fun j => y (out.yVals.length - 1 - j)) (y (out.yVals.length - 1))
              bdfNewton st true = some (.ret (y', st')) ∧ st'.conv ≠ 0)) := by
  obtain ⟨b, s, hb, hs, hI⟩ := from_start (l := l) (order + 1) (by omega) (by rintro rfl; simp at hlen; omega) st0
  have he : ∀ fuel, bdfFrom nd la fn t1 order h st0 l fuel = runLoop (bdfBody nd la fn t1 order h) fuel s := by
    intro fuel
    unfold bdfFrom
    rw [hb]
    simp only
    rw [hs]
  let Inv : MsState ℝ n → Prop := fun s => ∃ acc, MsInv (order + 1).toNat acc s ∧
      MsRun h t0 t1 (order + 1).toNat (BdfNext la fn order h true) acc ∧ acc.take (order + 1).toNat = l
  have hs0 : Inv s := ⟨l, hI, by have := msRun_given (h := h) (t0 := t0) (t1 := t1) (BdfNext la fn order h true) hl
                                 rwa [hlen] at this, by rw [← hlen, List.take_length]⟩
  have hstep : ∀ a b, Inv a → bdfBody nd la fn t1 order h a = .next b → Inv b ∧ ⌈(t1 - b.t) / h⌉₊ < ⌈(t1 - a.t) / h⌉₊ := by
    rintro a b ⟨acc, h1, h2, h3⟩ hb
    rcases bdfBody_cases h0 h1 h2 (nd := nd) with ⟨-, e⟩ | ⟨-, -, e⟩ | ⟨hlt, y', s', e, et, h4, h5⟩
    · rw [e] at hb; cases hb
    · rw [e] at hb; cases hb
    · rw [e] at hb
      simp only [LoopStep.next.injEq] at hb
      subst hb
      refine ⟨⟨_, h4, h5, by rw [List.take_append_of_le_length h2.len]; exact h3⟩, ?_⟩
      rw [et]
      exact ceil_decreases hh (by simpa using hlt)
  have hend : ∀ fuel r, runLoop (bdfBody nd la fn t1 order h) fuel s = some r → ∃ s' acc, MsInv (order + 1).toNat acc s' ∧
      MsRun h t0 t1 (order + 1).toNat (BdfNext la fn order h true) acc ∧ acc.take (order + 1).toNat = l ∧
      ((ltb s'.t t1 = false ∧ r = .ret s'.sol) ∨
       (ltb s'.t t1 = true ∧ (∃ y', BdfNext la fn order h false acc y') ∧ r = .ret { s'.sol with status := 16 })) := by
    intro fuel r hr
    obtain ⟨s', hreach, hd⟩ := runLoop_some hr
    obtain ⟨acc, h1, h2, h3⟩ := hreach.inv (Inv := Inv) hs0 fun a b ha hb => (hstep a b ha hb).1
    refine ⟨s', acc, h1, h2, h3, ?_⟩
    rcases bdfBody_cases h0 h1 h2 (nd := nd) with ⟨hlt, e⟩ | ⟨hlt, hb, e⟩ | ⟨hlt, y', s'', e, -⟩
    · rw [e] at hd
      simp only [LoopStep.done.injEq] at hd
      exact Or.inl ⟨hlt, hd.symm⟩
    · rw [e] at hd
      simp only [LoopStep.done.injEq] at hd
      exact Or.inr ⟨hlt, hb, hd.symm⟩
    · rw [e] at hd
      cases hd
  constructor
  · obtain ⟨k, r, hr⟩ := runLoop_terminates (fun s : MsState ℝ n => ⌈(t1 - s.t) / h⌉₊) hstep hs0
    obtain ⟨s', acc, -, -, -, ⟨-, e⟩ | ⟨-, -, e⟩⟩ := hend k r hr
    · exact ⟨k, _, by rw [he, hr, e]⟩
    · exact ⟨k, _, by rw [he, hr, e]⟩
  · intro fuel out hr
    rw [he] at hr
    obtain ⟨s', acc, hI', hR, htake, hcase⟩ := hend fuel _ hr
    have hsol : out.tVals = s'.sol.tVals ∧ out.yVals = s'.sol.yVals := by
      rcases hcase with ⟨-, e⟩ | ⟨-, -, e⟩
      · simp only [Outcome.ret.injEq] at e
        subst e
        exact ⟨rfl, rfl⟩
      · simp only [Outcome.ret.injEq] at e
        subst e
        exact ⟨rfl, rfl⟩
    have hyl : out.yVals.length = acc.length := by rw [hsol.2, hI'.y, List.length_map]
    have hN := hR.len
    have hlast := hR.last hI'.last
    rw [gridPt_real] at hlast
    refine ⟨fun i => ((acc.map Prod.snd)[i]?).getD 0, by rw [hsol.1, hsol.2, hI'.t, hI'.y]; simp, by omega, ?_, ?_, ?_, ?_⟩
    · intro i hi
      rw [hyl] at hi
      rw [hsol.1, hsol.2, hI'.t, hI'.y, List.getElem?_map, List.getElem?_map, acc_value hR hi]
      exact ⟨rfl, by rw [Option.map_some, List.getElem?_map, acc_value hR hi]; rfl⟩
    · intro i hi
      rw [← htake, List.getElem?_take, if_pos hi]
      exact acc_value hR (lt_of_lt_of_le hi hR.len)
    · intro i hi hlt
      rw [hyl] at hlt
      have ha : acc[i]? = some acc[i] := List.getElem?_eq_getElem hlt
      obtain ⟨st, st', e, -⟩ := bdfNext_values hR hlt.le (by omega) (hR.step i _ hi ha)
      have hyi : ((acc.map Prod.snd)[i]?).getD 0 = acc[i].2 := by rw [List.getElem?_map, ha]; rfl
      beta_reduce
      rw [hyi]
      exact ⟨st, st', e⟩
    · rw [hyl]
      rcases hcase with ⟨hlt, e⟩ | ⟨hlt, ⟨y', hb⟩, e⟩
      · simp only [Outcome.ret.injEq] at e
        subst e
        exact Or.inl ⟨hI'.ok, by rw [← hlast]; simpa using hlt⟩
      · simp only [Outcome.ret.injEq] at e
        subst e
        rw [← List.take_length (l := acc)] at hb
        obtain ⟨st, st', e, e'⟩ := bdfNext_values hR le_rfl (by omega) hb
        exact Or.inr ⟨rfl, by rw [← hlast]; simpa using hlt, y', st, st', e, by simpa using e'⟩

/-- **C104 (claim).**  The loop of `adams_bashforth` of order `k` has order `k`: for every `k` times continuously differentiable
right-hand side and solution `u` on `[t0,T]` there are `C` and `η > 0` such that, started from `k` samples on the grid with spacing
`h ≤ η` which are within `δ ≤ η` of the solution, every sample up to `T` has an error of at most `C (δ + h^k)`. -/
def C104_claim (order : ℤ) : Prop :=
  ∀ (n : ℕ) (fn : OdeFun ℝ n) (t0 T : ℝ) (u : ℝ → Fin n → ℝ), t0 < T →
    ContDiff ℝ order.toNat (fun q : ℝ × (Fin n → ℝ) => fn.fn q.1 q.2) →
    (∀ t ∈ Icc t0 T, HasDerivWithinAt u (fn.fn t (u t)) (Icc t0 T) t) →
    ∃ C η : ℝ, 0 < η ∧ ∀ nd t1 h δ st0 l fuel out, 0 < h → h ≤ η → δ ≤ η → l.length = order.toNat → Spec.StartNear u t0 h δ l →
      abFrom nd fn t1 order h st0 l fuel = some (.ret out) →
      ∀ (i : ℕ) t y, out.tVals[i]? = some t → out.yVals[i]? = some y → t ≤ T → ‖y - u t‖ ≤ C * (δ + h ^ order.toNat)

/-- **C104, the autonomous case.**  If the right-hand side does not depend on the time, the loop of `adams_bashforth` of every
order `k` from 1 to 5 has order `k`; the loop also returns, with status SUCCESS.
What is missing for `C104_claim`: right-hand sides that depend on the time, for which it is false (`C104_refuted`). -/
theorem C104_autonomous_partial (h0 : 0 < order) (h5 : order ≤ 5) (ht : t0 < T) (haut : ∀ s t y, fn.fn s y = fn.fn t y)
    (hf : ContDiff ℝ order.toNat fun q : ℝ × (Fin n → ℝ) => fn.fn q.1 q.2)
    (hu : ∀ t ∈ Icc t0 T, HasDerivWithinAt u (fn.fn t (u t)) (Icc t0 T) t) :
    ∃ C η : ℝ, 0 < η ∧ ∀ nd t1 h δ st0 l, 0 < h → h ≤ η → δ ≤ η → l.length = order.toNat → Spec.StartNear u t0 h δ l →
      (∃ fuel out, abFrom nd fn t1 order h st0 l fuel = some (.ret out)) ∧
      ∀ fuel out, abFrom nd fn t1 order h st0 l fuel = some (.ret out) → out.status = 0 ∧
        ∀ (i : ℕ) t y, out.tVals[i]? = some t → out.yVals[i]? = some y → t ≤ T → ‖y - u t‖ ≤ C * (δ + h ^ order.toNat) := by
  obtain ⟨C, η, -, hη, hmain⟩ := ab_order h0 h5 ht haut hf hu
  refine ⟨C, η, hη, fun nd t1 h δ st0 l hh hle hδ hlen hnear => ?_⟩
  obtain ⟨hex, hval⟩ := abFrom_values (nd := nd) (fn := fn) (t1 := t1) (st0 := st0) h0 h5 hh hlen fun i t y hi => (hnear i t y hi).1
  refine ⟨hex, fun fuel out hr => ?_⟩
  obtain ⟨y, hst, hlens, hN, -, hv, hstart, hstep⟩ := hval fuel out hr
  refine ⟨hst, fun i t y' hti hyi hT => ?_⟩
  have hi : i < out.yVals.length := (List.getElem?_eq_some_iff.1 hyi).1
  obtain ⟨e1, e2⟩ := hv i hi
  rw [hti, Option.some.injEq] at e1
  rw [hyi, Option.some.injEq] at e2
  subst e1 e2
  refine hmain h δ i y hh hle hδ hT (fun j hj _ => (hnear j _ _ (hstart j hj)).2) (fun j hj hji => hstep j hj (by omega)) i le_rfl

/-- the right-hand side `f(t,y) = 2t` -/
def twoT : OdeFun ℝ 1 where
  fn := fun t _ _ => 2 * t
  jac := fun _ _ _ _ => 0

/-- **C104 is false** for the orders 2 to 5: all slopes are evaluated at the current time, so for `y' = 2t` every order is the
explicit Euler method, whatever the starting values. -/
theorem C104_refuted (h2 : 2 ≤ order) (h5 : order ≤ 5) : ¬ C104_claim order := by
  intro hcl
  have h0 : 0 < order := by omega
  set k := order.toNat with hk
  have hk2 : 2 ≤ k := by omega
  have hk5 : k ≤ 5 := by omega
  obtain ⟨C, η, hη, hall⟩ := hcl 1 twoT 0 1 (fun t _ => t ^ 2) one_pos (by
    rw [contDiff_pi]
    intro i
    exact contDiff_const.mul contDiff_fst) (by
    intro t _
    rw [hasDerivWithinAt_pi]
    intro i
    simpa [twoT] using (hasDerivAt_pow 2 t).hasDerivWithinAt)
  obtain ⟨N, hN⟩ := exists_nat_gt (max (1 / η) (max 16 (4 * |C|)))
  have hN1 : 1 / η < N := (le_max_left _ _).trans_lt hN
  have hN2 : (16 : ℝ) < N := (le_max_left _ _).trans_lt ((le_max_right _ _).trans_lt hN)
  have hN3 : 4 * |C| < N := (le_max_right _ _).trans_lt ((le_max_right _ _).trans_lt hN)
  have hN16 : 16 < N := by exact_mod_cast hN2
  have hNpos : (0 : ℝ) < N := by linarith
  set h : ℝ := 1 / N with hh
  have hpos : 0 < h := by positivity
  have hNh : (N : ℝ) * h = 1 := by rw [hh]; field_simp
  have hle : h ≤ η := by
    rw [hh, div_le_iff₀ hNpos]
    rw [div_lt_iff₀ hη] at hN1
    linarith
  set l : List (ℝ × Vec ℝ 1) := (List.range k).map fun i : ℕ => ((i : ℝ) * h, fun _ => ((i : ℝ) * h) ^ 2) with hl
  have hlen : l.length = order.toNat := by simp [hl, hk]
  have hget : ∀ (i : ℕ) t y, l[i]? = some (t, y) → i < k ∧ t = i * h ∧ y = fun _ => ((i : ℝ) * h) ^ 2 := by
    intro i t y e
    have hi : i < k := by
      have := (List.getElem?_eq_some_iff.1 e).1
      simpa [hl] using this
    rw [hl, List.getElem?_map, List.getElem?_range hi, Option.map_some, Option.some.injEq, Prod.mk.injEq] at e
    exact ⟨hi, e.1.symm, e.2.symm⟩
  obtain ⟨⟨fuel, out, hr⟩, hval⟩ := abFrom_values (nd := true) (fn := twoT) (t0 := 0) (t1 := 1) (st0 := ⟨0, 0, 0, 0, 0, 0⟩) h0 h5 hpos hlen
    fun i t y e => by rw [(hget i t y e).2.1]; ring
  have hbound := hall true 1 h 0 ⟨0, 0, 0, 0, 0, 0⟩ l fuel out hpos hle hη.le hlen (fun i t y e => by
    obtain ⟨-, rfl, rfl⟩ := hget i t y e
    exact ⟨by ring, by simp⟩) hr
  obtain ⟨y, -, -, hkN, hend, hv, hstart, hstep⟩ := hval fuel out hr
  have hsum : ∀ z, (∑ j ∈ Finset.range order.toNat, (abC order j : ℝ) * z) = z := by
    intro z
    rw [← Finset.sum_mul, abC_sum h0 h5, one_mul]
  have hy : ∀ i, k - 1 ≤ i → i < out.yVals.length → y i 0 = h ^ 2 * ((i : ℝ) ^ 2 - i + (k - 1 : ℕ)) := by
    intro i hi
    induction i, hi using Nat.le_induction with
    | base =>
      intro _
      have := hget _ _ _ (hstart (k - 1) (by omega))
      rw [this.2.2]
      simp only
      ring
    | succ i hi ih =>
      intro hlt
      rw [hstep (i + 1) (by omega) hlt]
      simp only [Nat.add_sub_cancel, Pi.add_apply, Pi.smul_apply, Finset.sum_apply, smul_eq_mul, twoT]
      rw [hsum, ih (by omega)]
      push_cast
      ring
  have hNlt : N < out.yVals.length := by
    by_contra hcon
    have h1 : ((out.yVals.length - 1 : ℕ) : ℝ) ≤ N - 1 := by
      rw [le_sub_iff_add_le]
      exact_mod_cast (show out.yVals.length - 1 + 1 ≤ N by omega)
    have h2 := mul_le_mul_of_nonneg_right h1 hpos.le
    have h3 : ((N : ℝ) - 1) * h = 1 - h := by rw [sub_mul, hNh, one_mul]
    linarith
  obtain ⟨e1, e2⟩ := hv N hNlt
  have hb := hbound N _ _ e1 e2 (by rw [zero_add, hNh])
  have hb0 := (norm_le_pi_norm _ 0).trans hb
  rw [Pi.sub_apply, hy N (by omega) hNlt, zero_add, zero_add, hNh, Real.norm_eq_abs] at hb0
  have hkR : ((k - 1 : ℕ) : ℝ) ≤ 4 := by exact_mod_cast (show k - 1 ≤ 4 by omega)
  have e3 : h ^ 2 * ((N : ℝ) ^ 2 - N + (k - 1 : ℕ)) - 1 ^ 2 = -(h - h ^ 2 * (k - 1 : ℕ)) := by
    linear_combination ((N : ℝ) * h + 1 - h) * hNh
  rw [e3, abs_neg] at hb0
  have hh2 : h ^ k ≤ h ^ 2 := pow_le_pow_of_le_one hpos.le (by rw [hh, div_le_one hNpos]; linarith) hk2
  have h4 : C * h ^ k ≤ |C| * h ^ 2 := mul_le_mul (le_abs_self C) hh2 (by positivity) (abs_nonneg _)
  have h5' : h - h ^ 2 * (k - 1 : ℕ) ≤ |C| * h ^ 2 := (le_abs_self _).trans (hb0.trans h4)
  have h6 : h ≤ h ^ 2 * (4 + |C|) := by
    have : h ^ 2 * ((k - 1 : ℕ) : ℝ) ≤ h ^ 2 * 4 := mul_le_mul_of_nonneg_left hkR (by positivity)
    linarith
  have h7 : h * (4 + |C|) < 1 := by
    rw [hh, div_mul_eq_mul_div, one_mul, div_lt_one hNpos]
    linarith
  have h8 : h ^ 2 * (4 + |C|) < h := by
    have := mul_lt_mul_of_pos_left h7 hpos
    linarith [show h * (h * (4 + |C|)) = h ^ 2 * (4 + |C|) by ring]
  linarith

/-- **C105.**  The loop of `bdf` of order `k` from 1 to 6 has order `k` up to the tolerance of its solver: for every `k` times
continuously differentiable right-hand side with a continuous Jacobi matrix and solution `u` on `[t0,T]` there are `C` and `η > 0` such
that, started from `k + 1` samples on the grid with spacing `h ≤ η` within `δ ≤ η` of the solution, the loop returns, and every sample
up to `T` has an error of at most `C (δ + h^k + 10⁻¹⁰)` and also of at most `C (δ + h)`; if `t1 + h ≤ T` the status is SUCCESS and the
last time is at least `t1`. -/
theorem C105_order (h0 : 0 < order) (h6 : order ≤ 6) (hla : la.Exact) (ht : t0 < T)
    (hf : ContDiff ℝ order.toNat fun q : ℝ × (Fin n → ℝ) => fn.fn q.1 q.2)
    (hj : Continuous fun q : ℝ × (Fin n → ℝ) => fn.jac q.1 q.2)
    (hu : ∀ t ∈ Icc t0 T, HasDerivWithinAt u (fn.fn t (u t)) (Icc t0 T) t) :
    ∃ C η : ℝ, 0 < η ∧ ∀ nd t1 h δ st0 l, 0 < h → h ≤ η → δ ≤ η → l.length = (order + 1).toNat → Spec.StartNear u t0 h δ l →
      (∃ fuel out, bdfFrom nd la fn t1 order h st0 l fuel = some (.ret out)) ∧
      ∀ fuel out, bdfFrom nd la fn t1 order h st0 l fuel = some (.ret out) →
        (t1 + h ≤ T → out.status = 0 ∧ ∃ t, out.tVals.getLast? = some t ∧ t1 ≤ t) ∧
        ∀ (i : ℕ) t y, out.tVals[i]? = some t → out.yVals[i]? = some y → t ≤ T →
          ‖y - u t‖ ≤ C * (δ + h ^ order.toNat + 1 / 10 ^ 10) ∧ ‖y - u t‖ ≤ C * (δ + h) := by
  obtain ⟨C, η, -, hη, hmain⟩ := bdf_order h0 h6 hla ht hf hj hu
  refine ⟨C, η, hη, fun nd t1 h δ st0 l hh hle hδ hlen hnear => ?_⟩
  obtain ⟨hex, hval⟩ := bdfFrom_values (nd := nd) (la := la) (fn := fn) (t1 := t1) (st0 := st0) h0 hh hlen
    fun i t y hi => (hnear i t y hi).1
  refine ⟨hex, fun fuel out hr => ?_⟩
  obtain ⟨y, hlens, hN, hv, hstart, hstep, hcase⟩ := hval fuel out hr
  have hrun : ∀ M, M < out.yVals.length → t0 + (M : ℝ) * h ≤ T → _ := fun M hM hT =>
    hmain h δ M (order + 1).toNat y hh hle hδ hT (by omega) (by omega) (fun j hj _ => (hnear j _ _ (hstart j hj)).2)
      (fun j hj hji => hstep j hj (by omega))
  constructor
  · intro hT
    rcases hcase with ⟨e1, e2⟩ | ⟨-, e2, y', st, st', e3, e4⟩
    · refine ⟨e1, _, ?_, e2⟩
      rw [List.getLast?_eq_getElem?, hlens]
      exact (hv _ (by omega)).1
    · exfalso
      have hM1 : out.yVals.length - 1 + 1 = out.yVals.length := by omega
      have hT' : t0 + (out.yVals.length - 1 + 1 : ℕ) * h ≤ T := by
        rw [Nat.cast_add, Nat.cast_one]
        linarith
      have := (hrun (out.yVals.length - 1) (by omega) (by linarith)).2 (by omega) hT' y' st st' (by rw [hM1]; exact e3)
      exact e4 this
  · intro i t y' hti hyi hT
    have hi : i < out.yVals.length := (List.getElem?_eq_some_iff.1 hyi).1
    obtain ⟨e1, e2⟩ := hv i hi
    rw [hti, Option.some.injEq] at e1
    rw [hyi, Option.some.injEq] at e2
    subst e1 e2
    exact (hrun i hi hT).1 i le_rfl

/-- **C106.**  On autonomous problems `adams_bashforth` of an order `k` from 2 to 5 computes, up to `O(h²)`, the solution delayed by
`k - 1` steps: for every `k` times continuously differentiable right-hand side that does not depend on the time and solution `u` on
`[t0,T]` there are `C` and `η > 0` such that in every returning run with `dt ≤ η` the samples from the index `k - 1` on, at times `t` up
to `T`, are within `C h²` of `u(t - (k-1)h)`, and their error is `-(k-1) h u'(t)` up to `C h²`, `h = min dt (t1 - t0)` being the step. -/
theorem C106_delay (h2 : 2 ≤ order) (h5 : order ≤ 5) (hT : t0 < T) (haut : ∀ s t y, fn.fn s y = fn.fn t y)
    (hf : ContDiff ℝ order.toNat fun q : ℝ × (Fin n → ℝ) => fn.fn q.1 q.2)
    (hu : ∀ t ∈ Icc t0 T, HasDerivWithinAt u (fn.fn t (u t)) (Icc t0 T) t) :
    ∃ C η : ℝ, 0 < η ∧ ∀ nd la t1 dt st0 fuelB fuel out, 0 < dt → dt ≤ η → t0 < t1 →
      adamsBashforth nd la fn t0 t1 (u t0) order dt st0 fuelB fuel = some (.ret out) →
      ∀ (i : ℕ) t y, out.tVals[i]? = some t → out.yVals[i]? = some y → order - 1 ≤ i → t ≤ T →
        ‖y - u (t - (order - 1) * min dt (t1 - t0))‖ ≤ C * min dt (t1 - t0) ^ 2 ∧
        ‖y - u t + ((order - 1) * min dt (t1 - t0)) • fn.fn t (u t)‖ ≤ C * min dt (t1 - t0) ^ 2 := by
  obtain ⟨C, η, hC, hη, hall⟩ := ab_lag h2 h5 hT haut hf hu
  obtain ⟨R, L, B, K, hR, hL, hB, hK, -, -, -, -, hcons⟩ :=
    solution_facts (hf.of_le (by exact_mod_cast (show 1 ≤ order.toNat by omega))) hu
  refine ⟨C + K * 16, η, hη, ?_⟩
  intro nd la t1 dt st0 fuelB fuel out hdt hle ht1 hr i t y' hti hyi hki htT
  obtain ⟨N, -, hN1, hN2, -, hN4, -⟩ := C53_adams_bashforth hr
  obtain ⟨y, hy1, hy2, hy3⟩ := ab_values h5 hr
  set h := min dt (t1 - t0) with hh
  have hpos : 0 < h := lt_min hdt (by linarith)
  have hiN : i < N := by rw [← hN1]; exact (List.getElem?_eq_some_iff.1 hti).1
  have ht : t = t0 + i * h := by
    have := hN4 i hiN
    rw [hti] at this
    simpa using this
  have hcast : ((i - (order.toNat - 1) : ℕ) : ℝ) = i - (order - 1) := by
    have e : ((i - (order.toNat - 1) : ℕ) : ℤ) = i - (order - 1) := by omega
    have e' : (((i - (order.toNat - 1) : ℕ) : ℤ) : ℝ) = ((i - (order - 1) : ℤ) : ℝ) := by rw [e]
    push_cast at e'
    exact_mod_cast e'
  have hmain := hall h i y hpos ((min_le_left _ _).trans hle) (by rw [← ht]; exact htT) hy2
    (fun l hl hli => hy3 l hl (by omega)) i le_rfl (by omega)
  have htl : t0 + ((i - (order.toNat - 1) : ℕ) : ℝ) * h = t - (order - 1) * h := by rw [hcast, ht]; ring
  rw [htl, ← hy1 i y' hyi] at hmain
  have hKh : 0 ≤ K * 16 * h ^ 2 := by positivity
  refine ⟨by linarith, ?_⟩
  have ho1 : (1 : ℝ) ≤ order - 1 := by
    have : (2 : ℝ) ≤ order := by exact_mod_cast h2
    linarith
  have ho4 : (order : ℝ) - 1 ≤ 4 := by
    have : (order : ℝ) ≤ 5 := by exact_mod_cast h5
    linarith
  have hs : t - (order - 1) * h ∈ Icc t0 T := by
    rw [← htl]
    refine ⟨by have : 0 ≤ ((i - (order.toNat - 1) : ℕ) : ℝ) * h := by positivity
               linarith, ?_⟩
    rw [htl]
    have := mul_nonneg (by linarith : (0 : ℝ) ≤ order - 1) hpos.le
    linarith
  have hc := hcons _ hs t ⟨by rw [ht]; have : 0 ≤ (i : ℝ) * h := by positivity
                              linarith, htT⟩
  rw [show t - (order - 1) * h - t = -((order - 1) * h) by ring, neg_smul, sub_neg_eq_add] at hc
  have e : y' - u t + ((order - 1) * h) • fn.fn t (u t) =
      (y' - u (t - (order - 1) * h)) + (u (t - (order - 1) * h) - u t + ((order - 1) * h) • fn.fn t (u t)) := by abel
  rw [e]
  have n1 := norm_add_le (y' - u (t - (order - 1) * h)) (u (t - (order - 1) * h) - u t + ((order - 1) * h) • fn.fn t (u t))
  have n2 : K * (-((order - 1) * h)) ^ 2 ≤ K * (16 * h ^ 2) := by
    refine mul_le_mul_of_nonneg_left ?_ hK
    have : ((order : ℝ) - 1) ^ 2 ≤ 4 ^ 2 := pow_le_pow_left₀ (by linarith) ho4 2
    have := mul_le_mul_of_nonneg_right this (sq_nonneg h)
    linarith [show (-((order - 1) * h)) ^ 2 = ((order : ℝ) - 1) ^ 2 * h ^ 2 by ring]
  linarith

/-! ### A problem meeting the hypotheses: `y' = y²`, `u(t) = 1/(2-t)` -/

/-- the right-hand side `f(t,y) = y²` -/
def sqRhs : OdeFun ℝ 1 := ⟨fun _ y _ => y 0 ^ 2, fun _ y _ _ => 2 * y 0⟩

theorem sqRhs_contDiff (k : ℕ) : ContDiff ℝ k (fun q : ℝ × (Fin 1 → ℝ) => sqRhs.fn q.1 q.2) :=
  contDiff_pi.2 fun _ => (((contDiff_apply ℝ ℝ (0 : Fin 1)).comp contDiff_snd).pow 2)

theorem sqRhs_solution : ∀ t ∈ Icc (0 : ℝ) (3 / 2), HasDerivWithinAt (fun t (_ : Fin 1) => 1 / (2 - t))
    (sqRhs.fn t fun _ => 1 / (2 - t)) (Icc 0 (3 / 2)) t := by
  intro t ht
  rw [hasDerivWithinAt_pi]
  intro i
  have h1 : (2 - t) ≠ 0 := by have := ht.2; intro h; linarith
  have h2 : HasDerivAt (fun t : ℝ => 1 / (2 - t)) ((1 / (2 - t)) ^ 2) t := by
    simpa [one_div] using ((hasDerivAt_id t).const_sub 2).fun_inv h1
  exact h2.hasDerivWithinAt

/-- starting values exist: the exact ones -/
theorem startNear_exact (u : ℝ → Fin n → ℝ) (t0 h : ℝ) (N : ℕ) :
    Spec.StartNear u t0 h 0 ((List.range N).map fun i : ℕ => (t0 + (i : ℝ) * h, u (t0 + (i : ℝ) * h))) := by
  intro i t y e
  have hi : i < N := by simpa using (List.getElem?_eq_some_iff.1 e).1
  rw [List.getElem?_map, List.getElem?_range hi, Option.map_some, Option.some.injEq, Prod.mk.injEq] at e
  obtain ⟨rfl, rfl⟩ := e
  exact ⟨rfl, by simp⟩

example : ∃ C η : ℝ, 0 < η ∧ ∀ nd t1 h δ st0 l, 0 < h → h ≤ η → δ ≤ η → l.length = 4 →
    Spec.StartNear (fun t (_ : Fin 1) => 1 / (2 - t)) 0 h δ l →
    (∃ fuel out, abFrom nd sqRhs t1 4 h st0 l fuel = some (.ret out)) ∧
    ∀ fuel out, abFrom nd sqRhs t1 4 h st0 l fuel = some (.ret out) → out.status = 0 ∧
      ∀ (i : ℕ) t y, out.tVals[i]? = some t → out.yVals[i]? = some y → t ≤ 3 / 2 →
        ‖y - fun _ => 1 / (2 - t)‖ ≤ C * (δ + h ^ 4) :=
  C104_autonomous_partial (u := fun t _ => 1 / (2 - t)) (order := 4) (by norm_num) (by norm_num) (by norm_num) (fun _ _ _ => rfl)
    (sqRhs_contDiff 4) sqRhs_solution

example : ∃ C η : ℝ, 0 < η ∧ ∀ nd t1 h δ st0 l, 0 < h → h ≤ η → δ ≤ η → l.length = 5 →
    Spec.StartNear (fun t (_ : Fin 1) => 1 / (2 - t)) 0 h δ l →
    (∃ fuel out, bdfFrom nd laReal sqRhs t1 4 h st0 l fuel = some (.ret out)) ∧
    ∀ fuel out, bdfFrom nd laReal sqRhs t1 4 h st0 l fuel = some (.ret out) →
      (t1 + h ≤ 3 / 2 → out.status = 0 ∧ ∃ t, out.tVals.getLast? = some t ∧ t1 ≤ t) ∧
      ∀ (i : ℕ) t y, out.tVals[i]? = some t → out.yVals[i]? = some y → t ≤ 3 / 2 →
        ‖y - fun _ => 1 / (2 - t)‖ ≤ C * (δ + h ^ 4 + 1 / 10 ^ 10) ∧ ‖y - fun _ => 1 / (2 - t)‖ ≤ C * (δ + h) :=
  C105_order (u := fun t _ => 1 / (2 - t)) (order := 4) (by norm_num) (by norm_num) laReal_exact (by norm_num)
    (sqRhs_contDiff 4) (show Continuous (fun q : ℝ × (Fin 1 → ℝ) => fun _ _ : Fin 1 => 2 * q.2 0) by fun_prop) sqRhs_solution

example : ∃ C η : ℝ, 0 < η ∧ ∀ nd la t1 dt st0 fuelB fuel out, 0 < dt → dt ≤ η → 0 < t1 →
    adamsBashforth nd la sqRhs 0 t1 (fun _ => 1 / (2 - 0)) 4 dt st0 fuelB fuel = some (.ret out) →
    ∀ (i : ℕ) t y, out.tVals[i]? = some t → out.yVals[i]? = some y → (4 : ℤ) - 1 ≤ i → t ≤ 3 / 2 →
      ‖y - fun _ => 1 / (2 - (t - (((4 : ℤ) : ℝ) - 1) * min dt (t1 - 0)))‖ ≤ C * min dt (t1 - 0) ^ 2 ∧
      ‖y - (fun _ => 1 / (2 - t)) + ((((4 : ℤ) : ℝ) - 1) * min dt (t1 - 0)) • sqRhs.fn t fun _ => 1 / (2 - t)‖ ≤
        C * min dt (t1 - 0) ^ 2 :=
  C106_delay (u := fun t _ => 1 / (2 - t)) (order := 4) (by norm_num) (by norm_num) (by norm_num) (fun _ _ _ => rfl)
    (sqRhs_contDiff 4) sqRhs_solution

end Verif
