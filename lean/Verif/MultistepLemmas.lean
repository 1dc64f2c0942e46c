import Verif.Multistep
import Verif.Prop.Irk
import Verif.Prop.Newton

/-!
# Invariants of the multistep integrators
-/

set_option linter.unusedSectionVars false

namespace Verif

variable {F : Type} [Add F] [Sub F] [Mul F] [Div F] [Neg F] [Scalar F] {n : ℕ}

theorem CBuf.rep_index {T : Type} {p : ℕ} (hp : 1 ≤ p) {h : List T} {b : CBuf T} (r : CBuf.Rep p h b) {i : ℕ} {v : T}
    (hi : i < p) (hv : h.reverse[i]? = some v) (nd : Bool) : b.index nd i = .ret v := by
  have hl : i < h.length := by
    have := (List.getElem?_eq_some_iff.1 hv).1
    simpa using this
  obtain ⟨h1, h2⟩ := CBuf.rep_read hp r (i := i) (by omega)
  have hr : h.reverse[i]? = h[h.length - 1 - i]? := List.getElem?_reverse (by omega)
  rw [← hr, hv] at h2
  have hper : i < b.period := by rw [r.per]; omega
  simp [CBuf.index, hper, h1, not_lt.mpr h1, CBuf.readAt, h2]

/-! ### bootstrap -/

/-- grid point `k`: `((t + dt) + dt) + …` -/
def gridPt (dt t : F) : ℕ → F
  | 0 => t
  | k + 1 => gridPt dt t k + dt

theorem gridPt_shift (dt t : F) (k : ℕ) : gridPt dt (t + dt) k = gridPt dt t (k + 1) := by
  induction k with
  | zero => rfl
  | succ k ih => rw [gridPt, ih]; rfl

theorem irkOdeint_guts {nd : Bool} {la : LinAlg F} {fn : OdeFun F n} {t0 t1 : F} {y0 : Vec F n} {o : IrkOpts F}
    {oo : OutOpts} {m : ℤ} {dt : F} {fuel : ℕ} {out : IrkOutput F ((irkCoeffs m : SolverCoeffs F).ns * n) n}
    (h : irkOdeint nd la fn t0 t1 y0 o oo m dt fuel = some (.ret out)) :
    ∃ o', irkGuts nd la fn t0 t1 y0 o' dt (irkCoeffs m) oo fuel = some (.ret out) := by
  unfold irkOdeint at h
  simp only at h
  by_cases hc : (!nd && !irkVerify (irkCoeffs m : SolverCoeffs F)) = true
  · rw [if_pos hc] at h; cases h
  · rw [if_neg hc] at h; exact ⟨_, h⟩

/-- without vector output only the initial value is recorded -/
theorem bootRun_first {nd : Bool} {la : LinAlg F} {fn : OdeFun F n} {fuel : ℕ} {t dt : F} {y : Vec F n}
    {out : IrkOutput F ((irkCoeffs 232 : SolverCoeffs F).ns * n) n}
    (h : bootRun nd la fn fuel bootOut t dt y = some (.ret out)) : out.tVals = [t] ∧ out.yVals = [y] := by
  obtain ⟨o', h'⟩ := irkOdeint_guts h
  obtain ⟨-, -, -, -, acc, hh, -, -, ⟨rec, hrec, h1, h2, -⟩, -⟩ := C38_records h'
  have hs : bootOut.storeInVectors = false := by decide
  obtain ⟨l, rfl⟩ : ∃ l, acc = ⟨t, y, fun _ => lit 0, lit 0⟩ :: l := by
    cases acc with
    | nil => cases hh
    | cons x l => simp only [List.head?_cons, Option.some.injEq] at hh; exact ⟨l, by rw [hh]⟩
  rw [hs] at hrec
  simp only [Bool.false_eq_true, if_false, List.take_succ_cons, List.take_zero] at hrec
  rw [h1, h2, hrec]
  exact ⟨rfl, rfl⟩

theorem bootIter_ret {nd : Bool} {la : LinAlg F} {fn : OdeFun F n} {fuel : ℕ} {dt : F} :
    ∀ (k : ℕ) (t : F) (y : Vec F n) (l : List (F × Vec F n)), bootIter nd la fn fuel dt k t y = some (.ret l) →
      l = (List.range k).map fun i => (gridPt dt t (i + 1), y) := by
  intro k
  induction k with
  | zero => intro t y l h; simp only [bootIter, Option.some.injEq, Outcome.ret.injEq] at h; rw [← h]; rfl
  | succ k ih =>
    intro t y l h
    unfold bootIter at h
    cases hr : bootRun nd la fn fuel bootOut t dt y with
    | none => rw [hr] at h; cases h
    | some o =>
      rw [hr] at h
      cases o with
      | assertFail => cases h
      | throws => cases h
      | ub => cases h
      | ret out =>
        obtain ⟨h1, h2⟩ := bootRun_first hr
        simp only [h1, h2] at h
        simp only [List.length_cons, List.length_nil, zero_add, one_ne_zero, if_false, tsub_self,
          List.getElem?_cons_zero] at h
        cases hb : bootIter nd la fn fuel dt k (t + dt) y with
        | none => rw [hb] at h; cases h
        | some o =>
          rw [hb] at h
          cases o with
          | assertFail => cases h
          | throws => cases h
          | ub => cases h
          | ret l' =>
            simp only [Option.some.injEq, Outcome.ret.injEq] at h
            rw [← h, ih _ _ _ hb, List.range_succ_eq_map, List.map_cons, List.map_map]
            simp only [gridPt_shift]
            rfl

/-- the list `bootstrap_history` returns -/
theorem bootstrap_ret {nd : Bool} {la : LinAlg F} {fn : OdeFun F n} {fuel : ℕ} {order : ℤ} {y : Vec F n} {t dt : F}
    {l : List (F × Vec F n)} (h : bootstrap nd la fn fuel order y t dt = some (.ret l)) :
    l = (List.range ((order - 1).toNat + 1)).map fun i => (gridPt dt t i, y) := by
  unfold bootstrap at h
  cases hb : bootIter nd la fn fuel dt (order - 1).toNat t y with
  | none => rw [hb] at h; cases h
  | some o =>
    rw [hb] at h
    cases o with
    | assertFail => cases h
    | throws => cases h
    | ub => cases h
    | ret l' =>
      simp only [Option.some.injEq, Outcome.ret.injEq] at h
      rw [← h, bootIter_ret _ _ _ _ hb, List.range_succ_eq_map, List.map_cons, List.map_map]
      rfl

/-! ### the state during the loops -/

/-- `acc` is the list of samples so far -/
structure MsInv (p : ℕ) (acc : List (F × Vec F n)) (s : MsState F n) : Prop where
  t : s.sol.tVals = acc.map Prod.fst
  y : s.sol.yVals = acc.map Prod.snd
  ok : s.sol.status = 0
  last : acc.getLast? = some (s.t, s.y)
  hist : CBuf.Rep p (acc.map Prod.snd) s.hist

theorem msInv_push {p : ℕ} (hp : 1 ≤ p) {acc : List (F × Vec F n)} {s : MsState F n} (h : MsInv p acc s) (t' : F)
    (y' : Vec F n) (st : NewtonStatus F) : ∃ b, s.hist.pushBack y' = .ret b ∧
      MsInv p (acc ++ [(t', y')]) { s with t := t', y := y', hist := b, sol := s.sol.push t' y', newton := st } := by
  obtain ⟨b, hb, hrep⟩ := CBuf.rep_pushBack hp h.hist y'
  refine ⟨b, hb, ?_, ?_, h.ok, by simp, ?_⟩
  · simp [MsOutput.push, h.t]
  · simp [MsOutput.push, h.y]
  · simpa using hrep

theorem msStart_inv {p : ℕ} (hp : 1 ≤ p) {b : CBuf (Vec F n)} {l : List (F × Vec F n)} (hl : l ≠ [])
    (hb : CBuf.construct (fun _ => lit 0 : Vec F n) (p : ℤ) = .ret b) (st0 : NewtonStatus F) :
    ∃ s, msStart b l st0 = .ret s ∧ MsInv p l s := by
  obtain ⟨b0, hb0, hr0⟩ := CBuf.rep_construct (fun _ => lit 0 : Vec F n) hp
  rw [hb] at hb0
  cases hb0
  obtain ⟨b1, hb1, hr1⟩ := CBuf.rep_pushAll hp (l.map Prod.snd) hr0
  unfold msStart
  rw [hb1]
  simp only
  cases hlast : l.getLast? with
  | none => simp only [List.getLast?_eq_none_iff] at hlast; exact absurd hlast hl
  | some ty =>
    obtain ⟨t, y⟩ := ty
    refine ⟨_, rfl, rfl, rfl, rfl, hlast, ?_⟩
    simpa using hr1

theorem construct_pos {T : Type} (d : T) {p : ℤ} (hp : 0 < p) : ∃ b, CBuf.construct d p = .ret b :=
  ⟨_, if_neg (by omega)⟩

/-- how a returning run of `adams_bashforth` begins -/
theorem adamsBashforth_start {nd : Bool} {la : LinAlg F} {fn : OdeFun F n} {t0 t1 : F} {y0 : Vec F n} {order : ℤ} {dt : F}
    {st0 : NewtonStatus F} {fuelB : ℕ} (ho : 0 < order) (hdt : nd = true ∨ ltb (lit 0) (clipDt t0 t1 dt) = true)
    {l : List (F × Vec F n)} (hl : bootstrap nd la fn fuelB order y0 t0 (clipDt t0 t1 dt) = some (.ret l)) :
    ∃ s, MsInv order.toNat l s ∧ ∀ fuel, adamsBashforth nd la fn t0 t1 y0 order dt st0 fuelB fuel =
      runLoop (abBody nd fn.fn t1 order (clipDt t0 t1 dt)) fuel s := by
  obtain ⟨b, hb⟩ := construct_pos (fun _ => lit 0 : Vec F n) ho
  have hne : l ≠ [] := by rw [bootstrap_ret hl]; simp [List.range_succ]
  have ho' : ((order.toNat : ℕ) : ℤ) = order := Int.toNat_of_nonneg ho.le
  obtain ⟨s, hs, hI⟩ := msStart_inv (p := order.toNat) (by omega) hne (by rw [ho']; exact hb) st0
  refine ⟨s, hI, fun fuel => ?_⟩
  unfold adamsBashforth
  simp only
  rw [if_neg (by rcases hdt with h | h <;> simp [h]), hb]
  simp only
  rw [hl]
  simp only
  rw [hs]

theorem bdf_start {nd : Bool} {la : LinAlg F} {fn : OdeFun F n} {t0 t1 : F} {y0 : Vec F n} {order : ℤ} {dt : F}
    {st0 : NewtonStatus F} {fuelB : ℕ} (ho : 0 < order) (ho6 : order ≤ 6)
    (hdt : nd = true ∨ ltb (lit 0) (clipDt t0 t1 dt) = true)
    {l : List (F × Vec F n)} (hl : bootstrap nd la fn fuelB (order + 1) y0 t0 (clipDt t0 t1 dt) = some (.ret l)) :
    ∃ s, MsInv (order + 1).toNat l s ∧ ∀ fuel, bdf nd la fn t0 t1 y0 order dt st0 fuelB fuel =
      runLoop (bdfBody nd la fn t1 order (clipDt t0 t1 dt)) fuel s := by
  obtain ⟨b, hb⟩ := construct_pos (fun _ => lit 0 : Vec F n) (show 0 < order + 1 by omega)
  have hne : l ≠ [] := by rw [bootstrap_ret hl]; simp [List.range_succ]
  have ho' : (((order + 1).toNat : ℕ) : ℤ) = order + 1 := Int.toNat_of_nonneg (by omega)
  obtain ⟨s, hs, hI⟩ := msStart_inv (p := (order + 1).toNat) (by omega) hne (by rw [ho']; exact hb) st0
  refine ⟨s, hI, fun fuel => ?_⟩
  unfold bdf
  rw [if_neg (by omega), if_neg (by omega)]
  simp only
  rw [if_neg (by rcases hdt with h | h <;> simp [h]), hb]
  simp only
  rw [hl]
  simp only
  rw [hs]

/-- a returning run of `adams_bashforth` got through its bootstrap -/
theorem adamsBashforth_boot {nd : Bool} {la : LinAlg F} {fn : OdeFun F n} {t0 t1 : F} {y0 : Vec F n} {order : ℤ} {dt : F}
    {st0 : NewtonStatus F} {fuelB fuel : ℕ} {out : MsOutput F n}
    (h : adamsBashforth nd la fn t0 t1 y0 order dt st0 fuelB fuel = some (.ret out)) :
    0 < order ∧ (nd = true ∨ ltb (lit 0) (clipDt t0 t1 dt) = true) ∧
      ∃ l, bootstrap nd la fn fuelB order y0 t0 (clipDt t0 t1 dt) = some (.ret l) := by
  unfold adamsBashforth at h
  simp only at h
  by_cases hd : (!nd && !ltb (lit 0) (clipDt t0 t1 dt)) = true
  · rw [if_pos hd] at h; cases h
  rw [if_neg hd] at h
  have hd' : nd = true ∨ ltb (lit 0) (clipDt t0 t1 dt) = true := by
    cases nd
    · right; simpa using hd
    · left; rfl
  cases hb : CBuf.construct (fun _ => lit 0 : Vec F n) order with
  | assertFail => rw [hb] at h; cases h
  | throws => rw [hb] at h; cases h
  | ub => rw [hb] at h; cases h
  | ret b =>
    rw [hb] at h
    simp only at h
    cases hl : bootstrap nd la fn fuelB order y0 t0 (clipDt t0 t1 dt) with
    | none => rw [hl] at h; cases h
    | some o =>
      rw [hl] at h
      cases o with
      | assertFail => cases h
      | throws => cases h
      | ub => cases h
      | ret l =>
        refine ⟨?_, hd', l, rfl⟩
        by_contra hn
        simp only [CBuf.construct] at hb
        by_cases hneg : order < 0
        · rw [if_pos hneg] at hb; cases hb
        · have h0 : order = 0 := by omega
          subst h0
          simp only [lt_self_iff_false, if_false, Outcome.ret.injEq] at hb
          have hl' := bootstrap_ret hl
          rw [hl', ← hb] at h
          simp [msStart, CBuf.pushAll, CBuf.pushBack, CBuf.writeAt, List.range_succ_eq_map] at h

theorem bdf_boot {nd : Bool} {la : LinAlg F} {fn : OdeFun F n} {t0 t1 : F} {y0 : Vec F n} {order : ℤ} {dt : F}
    {st0 : NewtonStatus F} {fuelB fuel : ℕ} {out : MsOutput F n}
    (h : bdf nd la fn t0 t1 y0 order dt st0 fuelB fuel = some (.ret out)) (ho : 0 < order) (ho6 : order ≤ 6) :
    (nd = true ∨ ltb (lit 0) (clipDt t0 t1 dt) = true) ∧
      ∃ l, bootstrap nd la fn fuelB (order + 1) y0 t0 (clipDt t0 t1 dt) = some (.ret l) := by
  unfold bdf at h
  rw [if_neg (by omega), if_neg (by omega)] at h
  simp only at h
  by_cases hd : (!nd && !ltb (lit 0) (clipDt t0 t1 dt)) = true
  · rw [if_pos hd] at h; cases h
  rw [if_neg hd] at h
  have hd' : nd = true ∨ ltb (lit 0) (clipDt t0 t1 dt) = true := by
    cases nd
    · right; simpa using hd
    · left; rfl
  obtain ⟨b, hb⟩ := construct_pos (fun _ => lit 0 : Vec F n) (show 0 < order + 1 by omega)
  rw [hb] at h
  simp only at h
  cases hl : bootstrap nd la fn fuelB (order + 1) y0 t0 (clipDt t0 t1 dt) with
  | none => rw [hl] at h; cases h
  | some o =>
    rw [hl] at h
    cases o with
    | assertFail => cases h
    | throws => cases h
    | ub => cases h
    | ret l => exact ⟨hd', l, rfl⟩

/-! ### single passes -/

/-- the `order` most recent values, newest first -/
def Recent (acc : List (F × Vec F n)) (k : ℕ) (v : ℕ → Vec F n) : Prop :=
  ∀ j < k, (acc.map Prod.snd).reverse[j]? = some (v j)

theorem recent_exists (acc : List (F × Vec F n)) {k : ℕ} (hk : k ≤ acc.length) : ∃ v, Recent acc k v := by
  refine ⟨fun j => ((acc.map Prod.snd).reverse[j]?).getD (fun _ => lit 0), fun j hj => ?_⟩
  have : j < (acc.map Prod.snd).reverse.length := by simp; omega
  simp only [List.getElem?_eq_getElem this, Option.getD_some]

/-- `z + Σ_{j<k} c j * v j`, accumulated from the left -/
def linComb (z : F) (c : ℕ → F) (v : ℕ → F) (k : ℕ) : F := (List.range k).foldl (fun a j => a + c j * v j) z

theorem bdfInterp_ret {nd : Bool} {order : ℤ} {b : CBuf (Vec F n)} {v : ℕ → Vec F n} :
    ∀ (k i : ℕ) (acc : Vec F n), (∀ j, i ≤ j → j < i + k → b.index nd j = .ret (v j)) →
      bdfInterp nd order b k i acc =
        .ret fun p => (List.range' i k).foldl (fun a j => a + bdfC order j * v j p) (acc p) := by
  intro k
  induction k with
  | zero => intro i acc _; rfl
  | succ k ih =>
    intro i acc h
    rw [bdfInterp, h i (le_refl _) (by omega)]
    simp only
    rw [ih (i + 1) _ fun j h1 h2 => h j (by omega) (by omega)]
    rw [List.range'_succ]
    rfl

theorem bdfInterp_rep {nd : Bool} {order : ℤ} {p : ℕ} (hp : 1 ≤ p) {acc : List (F × Vec F n)} {b : CBuf (Vec F n)}
    (hr : CBuf.Rep p (acc.map Prod.snd) b) {k : ℕ} (hk : k ≤ p) {v : ℕ → Vec F n} (hv : Recent acc k v) :
    bdfInterp nd order b k 0 (fun _ => lit 0) =
      .ret fun i => linComb (lit 0) (bdfC order) (fun j => v j i) k := by
  rw [bdfInterp_ret (v := v) k 0 _ fun j _ hj => CBuf.rep_index hp hr (by omega) (hv j (by omega)) nd]
  simp only [linComb, List.range_eq_range']


/-- the samples of a run: grid times, at least `N` of them, and from index `N` on each value is related to the samples
before it by `Q`, the time before being below `t1` -/
structure MsRun (h t0 t1 : F) (N : ℕ) (Q : List (F × Vec F n) → Vec F n → Prop) (acc : List (F × Vec F n)) : Prop where
  times : acc.map Prod.fst = (List.range acc.length).map (gridPt h t0)
  len : N ≤ acc.length
  before : ∀ i, N ≤ i + 1 → i + 1 < acc.length → ltb (gridPt h t0 i) t1 = true
  step : ∀ i ty, N ≤ i → acc[i]? = some ty → Q (acc.take i) ty.2

theorem MsRun.last {h t0 t1 : F} {N : ℕ} {Q : List (F × Vec F n) → Vec F n → Prop} {acc : List (F × Vec F n)}
    (r : MsRun h t0 t1 N Q acc) {t : F} {y : Vec F n} (hl : acc.getLast? = some (t, y)) :
    t = gridPt h t0 (acc.length - 1) := by
  have hne : acc ≠ [] := by rintro rfl; cases hl
  have hp : 0 < acc.length := List.length_pos_iff.2 hne
  have h1 : (acc.map Prod.fst)[acc.length - 1]? = some t := by
    rw [List.getElem?_map]
    rw [List.getLast?_eq_getElem?] at hl
    rw [hl]; rfl
  rw [r.times, List.getElem?_map, List.getElem?_range (by omega)] at h1
  simpa using h1.symm

theorem MsRun.append {h t0 t1 : F} {N : ℕ} {Q : List (F × Vec F n) → Vec F n → Prop} {acc : List (F × Vec F n)}
    (r : MsRun h t0 t1 N Q acc) {t : F} {y y' : Vec F n} (hl : acc.getLast? = some (t, y)) (hlt : ltb t t1 = true)
    (hQ : Q acc y') : MsRun h t0 t1 N Q (acc ++ [(t + h, y')]) := by
  have hne : acc ≠ [] := by rintro rfl; cases hl
  have hp : 0 < acc.length := List.length_pos_iff.2 hne
  have ht := r.last hl
  refine ⟨?_, ?_, ?_, ?_⟩
  · rw [List.map_append, r.times, List.length_append, List.length_singleton, List.range_succ, List.map_append, ht]
    congr 1
    simp only [List.map_cons, List.map_nil, List.cons.injEq, and_true]
    obtain ⟨m, hm⟩ : ∃ m, acc.length = m + 1 := ⟨acc.length - 1, by omega⟩
    rw [hm]; rfl
  · rw [List.length_append]; exact r.len.trans (by omega)
  · intro i h1 h2
    rw [List.length_append, List.length_singleton] at h2
    by_cases hi : i + 1 < acc.length
    · exact r.before i h1 hi
    · have : i = acc.length - 1 := by omega
      rw [this, ← ht]; exact hlt
  · intro i ty h1 h2
    by_cases hi : i < acc.length
    · rw [List.getElem?_append_left hi] at h2
      rw [List.take_append_of_le_length hi.le]
      exact r.step i ty h1 h2
    · have hi' : i = acc.length := by
        have := (List.getElem?_eq_some_iff.1 h2).1
        simp at this; omega
      subst hi'
      rw [List.getElem?_append_right (le_refl _)] at h2
      simp only [tsub_self, List.getElem?_cons_zero, Option.some.injEq] at h2
      rw [List.take_append_of_le_length (le_refl _), List.take_length, ← h2]
      exact hQ

theorem msRun_boot (Q : List (F × Vec F n) → Vec F n → Prop) {t0 t1 h : F} {y : Vec F n} (N : ℕ) :
    MsRun h t0 t1 N Q ((List.range N).map fun i => (gridPt h t0 i, y)) := by
  refine ⟨?_, ?_, ?_, ?_⟩
  · simp
  · simp
  · intro i h1 h2; simp at h2; omega
  · intro i ty h1 h2
    have := (List.getElem?_eq_some_iff.1 h2).1
    simp at this; omega

/-! ### Adams-Bashforth -/

/-- the combination of the slopes `g 0, g 1, …` in `adams_bashforth_step` -/
def abComb (order : ℤ) (g : ℕ → F) : F :=
  if order = 1 then g 0
  else if order = 2 then abC 2 0 * g 0 + abC 2 1 * g 1
  else if order = 3 then abC 3 0 * g 0 + abC 3 1 * g 1 + abC 3 2 * g 2
  else if order = 4 then abC 4 0 * g 0 + abC 4 1 * g 1 + abC 4 2 * g 2 + abC 4 3 * g 3
  else abC 5 0 * g 0 + abC 5 1 * g 1 + abC 5 2 * g 2 + abC 5 3 * g 3 + abC 5 4 * g 4

theorem abStep_rep {nd : Bool} {f : F → Vec F n → Vec F n} {order : ℤ} (h0 : 0 < order) (h5 : order ≤ 5) {p : ℕ}
    (hp : order.toNat ≤ p) {acc : List (F × Vec F n)} {b : CBuf (Vec F n)} (hr : CBuf.Rep p (acc.map Prod.snd) b)
    {v : ℕ → Vec F n} (hv : Recent acc order.toNat v) (Y : Vec F n) (t dt : F) :
    abStep nd f order Y t dt b = .ret fun k => Y k + dt * abComb order fun j => f t (v j) k := by
  have hi : ∀ j : ℕ, j < order.toNat → b.index nd j = .ret (v j) := fun j hj =>
    CBuf.rep_index (by omega) hr (by omega) (hv j hj) nd
  have hcases : order = 1 ∨ order = 2 ∨ order = 3 ∨ order = 4 ∨ order = 5 := by omega
  unfold abStep
  rcases hcases with rfl | rfl | rfl | rfl | rfl
  · rw [if_pos rfl, hi 0 (by decide)]; rfl
  · rw [if_neg (by decide), if_pos rfl, hi 0 (by decide), hi 1 (by decide)]; rfl
  · rw [if_neg (by decide), if_neg (by decide), if_pos rfl, hi 0 (by decide), hi 1 (by decide), hi 2 (by decide)]; rfl
  · rw [if_neg (by decide), if_neg (by decide), if_neg (by decide), if_pos rfl, hi 0 (by decide), hi 1 (by decide),
      hi 2 (by decide), hi 3 (by decide)]; rfl
  · rw [if_neg (by decide), if_neg (by decide), if_neg (by decide), if_neg (by decide), if_pos rfl, hi 0 (by decide),
      hi 1 (by decide), hi 2 (by decide), hi 3 (by decide), hi 4 (by decide)]; rfl

/-- how an Adams-Bashforth value follows from the samples before it -/
def AbNext (f : F → Vec F n → Vec F n) (order : ℤ) (h : F) (acc : List (F × Vec F n)) (y' : Vec F n) : Prop :=
  ∃ t y v, acc.getLast? = some (t, y) ∧ Recent acc order.toNat v ∧
    y' = fun k => y k + h * abComb order fun j => f t (v j) k

theorem abBody_next {nd : Bool} {f : F → Vec F n → Vec F n} {t0 t1 : F} {order : ℤ} {h : F} (ho : 0 < order)
    {s s' : MsState F n} {acc : List (F × Vec F n)} (hI : MsInv order.toNat acc s)
    (hR : MsRun h t0 t1 order.toNat (fun a y => order ≤ 5 → AbNext f order h a y) acc)
    (hb : abBody nd f t1 order h s = .next s') :
    ltb s.t t1 = true ∧ s'.t = s.t + h ∧ ∃ y', MsInv order.toNat (acc ++ [(s.t + h, y')]) s' ∧
      MsRun h t0 t1 order.toNat (fun a y => order ≤ 5 → AbNext f order h a y) (acc ++ [(s.t + h, y')]) := by
  unfold abBody at hb
  by_cases hlt : ltb s.t t1 = true
  · rw [if_pos hlt] at hb
    cases ha : abStep nd f order s.y s.t h s.hist with
    | assertFail => rw [ha] at hb; cases hb
    | throws => rw [ha] at hb; cases hb
    | ub => rw [ha] at hb; cases hb
    | ret y' =>
      rw [ha] at hb
      simp only at hb
      obtain ⟨b, hpb, hI'⟩ := msInv_push (by omega) hI (s.t + h) y' s.newton
      rw [hpb] at hb
      simp only [LoopStep.next.injEq] at hb
      subst hb
      refine ⟨hlt, rfl, y', hI', hR.append hI.last hlt ?_⟩
      intro h5
      obtain ⟨v, hv⟩ := recent_exists acc hR.len
      refine ⟨s.t, s.y, v, hI.last, hv, ?_⟩
      rw [abStep_rep ho h5 (le_refl _) hI.hist hv] at ha
      simp only [Outcome.ret.injEq] at ha
      exact ha.symm
  · rw [if_neg hlt] at hb; cases hb

/-- every returning run of `adams_bashforth` -/
theorem ab_run {nd : Bool} {la : LinAlg F} {fn : OdeFun F n} {t0 t1 : F} {y0 : Vec F n} {order : ℤ} {dt : F}
    {st0 : NewtonStatus F} {fuelB fuel : ℕ} {out : MsOutput F n}
    (h : adamsBashforth nd la fn t0 t1 y0 order dt st0 fuelB fuel = some (.ret out)) :
    0 < order ∧ ∃ acc t y,
      MsRun (clipDt t0 t1 dt) t0 t1 order.toNat (fun a y => order ≤ 5 → AbNext fn.fn order (clipDt t0 t1 dt) a y) acc ∧
      acc.take order.toNat = (List.range order.toNat).map (fun i => (gridPt (clipDt t0 t1 dt) t0 i, y0)) ∧
      out.tVals = acc.map Prod.fst ∧ out.yVals = acc.map Prod.snd ∧ out.status = 0 ∧
      acc.getLast? = some (t, y) ∧ ltb t t1 = false := by
  obtain ⟨ho, hdt, l, hl⟩ := adamsBashforth_boot h
  obtain ⟨s, hI, he⟩ := adamsBashforth_start (st0 := st0) ho hdt hl
  rw [he] at h
  obtain ⟨s', hr, hd⟩ := runLoop_some h
  have hl' := bootstrap_ret hl
  have hk : (order - 1).toNat + 1 = order.toNat := by omega
  rw [hk] at hl'
  have hinv := hr.inv (Inv := fun s => ∃ acc, MsInv order.toNat acc s ∧
      MsRun (clipDt t0 t1 dt) t0 t1 order.toNat (fun a y => order ≤ 5 → AbNext fn.fn order (clipDt t0 t1 dt) a y) acc ∧
      acc.take order.toNat = (List.range order.toNat).map fun i => (gridPt (clipDt t0 t1 dt) t0 i, y0))
    ⟨l, hI, by rw [hl']; exact msRun_boot _ _, by rw [hl']; simp [List.take_of_length_le]⟩ (by
      rintro a b ⟨acc, h1, h2, h3⟩ hb
      obtain ⟨-, -, y', h4, h5⟩ := abBody_next ho h1 h2 hb
      exact ⟨_, h4, h5, by rw [List.take_append_of_le_length h2.len]; exact h3⟩)
  obtain ⟨acc, h1, h2, h3⟩ := hinv
  refine ⟨ho, acc, s'.t, s'.y, h2, h3, ?_⟩
  unfold abBody at hd
  by_cases hlt : ltb s'.t t1 = true
  · rw [if_pos hlt] at hd
    exfalso
    cases ha : abStep nd fn.fn order s'.y s'.t (clipDt t0 t1 dt) s'.hist with
    | assertFail => rw [ha] at hd; cases hd
    | throws => rw [ha] at hd; cases hd
    | ub => rw [ha] at hd; cases hd
    | ret y' =>
      rw [ha] at hd
      simp only at hd
      obtain ⟨b, hpb, -⟩ := msInv_push (by omega) h1 (s'.t + clipDt t0 t1 dt) y' s'.newton
      rw [hpb] at hd
      cases hd
  · rw [if_neg hlt] at hd
    simp only [LoopStep.done.injEq, Outcome.ret.injEq] at hd
    subst hd
    exact ⟨h1.t, h1.y, h1.ok, h1.last, by simpa using hlt⟩

/-! ### BDF -/

/-- how a BDF value follows from the samples before it -/
def BdfNext (la : LinAlg F) (fn : OdeFun F n) (order : ℤ) (h : F) (good : Bool) (acc : List (F × Vec F n))
    (y' : Vec F n) : Prop :=
  ∃ t y v st st', acc.getLast? = some (t, y) ∧ Recent acc order.toNat v ∧
    newtonIterate la (bdfFun fn (h * bdfW order) (t + h)
      fun i => linComb (lit 0) (bdfC order) (fun j => v j i) order.toNat) y bdfNewton st true = some (.ret (y', st')) ∧
    (if good then st'.conv = 0 else st'.conv ≠ 0)

theorem bdfBody_cases {nd : Bool} {la : LinAlg F} {fn : OdeFun F n} {t0 t1 : F} {order : ℤ} {h : F} (ho : 0 < order)
    {s : MsState F n} {acc : List (F × Vec F n)} (hI : MsInv (order + 1).toNat acc s)
    (hR : MsRun h t0 t1 (order + 1).toNat (BdfNext la fn order h true) acc) :
    (ltb s.t t1 = false ∧ bdfBody nd la fn t1 order h s = .done (.ret s.sol)) ∨
    (ltb s.t t1 = true ∧ (∃ y', BdfNext la fn order h false acc y') ∧
      bdfBody nd la fn t1 order h s = .done (.ret { s.sol with status := 16 })) ∨
    (ltb s.t t1 = true ∧ ∃ y' s', bdfBody nd la fn t1 order h s = .next s' ∧ s'.t = s.t + h ∧
      MsInv (order + 1).toNat (acc ++ [(s.t + h, y')]) s' ∧
      MsRun h t0 t1 (order + 1).toNat (BdfNext la fn order h true) (acc ++ [(s.t + h, y')])) := by
  unfold bdfBody
  by_cases hlt : ltb s.t t1 = true
  · right
    rw [if_pos hlt]
    obtain ⟨v, hv⟩ := recent_exists acc (k := order.toNat) (by have := hR.len; omega)
    rw [bdfInterp_rep (by omega) hI.hist (by omega) hv]
    simp only
    obtain ⟨xr, st, hn⟩ := C27_returns la (bdfFun fn (h * bdfW order) (s.t + h)
      fun i => linComb (lit 0) (bdfC order) (fun j => v j i) order.toNat) s.y bdfNewton s.newton true
    rw [hn]
    simp only
    by_cases hc : st.conv ≠ 0
    · left
      rw [if_pos hc]
      exact ⟨hlt, ⟨xr, s.t, s.y, v, _, st, hI.last, hv, hn, by simpa using hc⟩, rfl⟩
    · right
      rw [if_neg hc]
      obtain ⟨b, hpb, hI'⟩ := msInv_push (by omega) hI (s.t + h) xr st
      rw [hpb]
      exact ⟨hlt, xr, _, rfl, rfl, hI', hR.append hI.last hlt
        ⟨s.t, s.y, v, _, st, hI.last, hv, hn, by simpa using hc⟩⟩
  · left
    rw [if_neg hlt]
    exact ⟨by simpa using hlt, rfl⟩

/-- every returning run of `bdf` with an order in 1..6 -/
theorem bdf_run {nd : Bool} {la : LinAlg F} {fn : OdeFun F n} {t0 t1 : F} {y0 : Vec F n} {order : ℤ} {dt : F}
    {st0 : NewtonStatus F} {fuelB fuel : ℕ} {out : MsOutput F n} (ho : 0 < order) (h6 : order ≤ 6)
    (h : bdf nd la fn t0 t1 y0 order dt st0 fuelB fuel = some (.ret out)) :
    ∃ acc t y,
      MsRun (clipDt t0 t1 dt) t0 t1 (order + 1).toNat (BdfNext la fn order (clipDt t0 t1 dt) true) acc ∧
      acc.take (order + 1).toNat = (List.range (order + 1).toNat).map (fun i => (gridPt (clipDt t0 t1 dt) t0 i, y0)) ∧
      out.tVals = acc.map Prod.fst ∧ out.yVals = acc.map Prod.snd ∧ acc.getLast? = some (t, y) ∧
      ((out.status = 0 ∧ ltb t t1 = false) ∨
       (out.status = 16 ∧ ltb t t1 = true ∧ ∃ y', BdfNext la fn order (clipDt t0 t1 dt) false acc y')) := by
  obtain ⟨hdt, l, hl⟩ := bdf_boot h ho h6
  obtain ⟨s, hI, he⟩ := bdf_start (st0 := st0) ho h6 hdt hl
  rw [he] at h
  obtain ⟨s', hr, hd⟩ := runLoop_some h
  have hl' := bootstrap_ret hl
  have hk : (order + 1 - 1).toNat + 1 = (order + 1).toNat := by omega
  rw [hk] at hl'
  have hinv := hr.inv (Inv := fun s => ∃ acc, MsInv (order + 1).toNat acc s ∧
      MsRun (clipDt t0 t1 dt) t0 t1 (order + 1).toNat (BdfNext la fn order (clipDt t0 t1 dt) true) acc ∧
      acc.take (order + 1).toNat = (List.range (order + 1).toNat).map fun i => (gridPt (clipDt t0 t1 dt) t0 i, y0))
    ⟨l, hI, by rw [hl']; exact msRun_boot _ _, by rw [hl']; simp [List.take_of_length_le]⟩ (by
      rintro a b ⟨acc, h1, h2, h3⟩ hb
      rcases bdfBody_cases ho h1 h2 (nd := nd) with ⟨-, e⟩ | ⟨-, -, e⟩ | ⟨-, y', s', e, -, h4, h5⟩
      · rw [e] at hb; cases hb
      · rw [e] at hb; cases hb
      · rw [e] at hb
        simp only [LoopStep.next.injEq] at hb
        subst hb
        exact ⟨_, h4, h5, by rw [List.take_append_of_le_length h2.len]; exact h3⟩)
  obtain ⟨acc, h1, h2, h3⟩ := hinv
  refine ⟨acc, s'.t, s'.y, h2, h3, ?_⟩
  rcases bdfBody_cases ho h1 h2 (nd := nd) with ⟨hlt, e⟩ | ⟨hlt, hy, e⟩ | ⟨-, y', s'', e, -, -, -⟩
  · rw [e] at hd
    simp only [LoopStep.done.injEq, Outcome.ret.injEq] at hd
    subst hd
    exact ⟨h1.t, h1.y, h1.last, Or.inl ⟨h1.ok, hlt⟩⟩
  · rw [e] at hd
    simp only [LoopStep.done.injEq, Outcome.ret.injEq] at hd
    subst hd
    exact ⟨h1.t, h1.y, h1.last, Or.inr ⟨rfl, hlt, hy⟩⟩
  · rw [e] at hd; cases hd

end Verif
