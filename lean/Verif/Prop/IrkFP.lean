import Verif.IrkFP
import Verif.Prop.IrkFloat
import Verif.Prop.IrkExamples
import Verif.Prop.TableauFP

/-!
# Property C130: times and step sizes of the implicit integrators in binary64
-/

set_option autoImplicit false

namespace Verif
open FP Set

section
variable [Libm] {n : ℕ} {nd : Bool} {la : LinAlg FP} {fn : OdeFun FP n} {t0 t1 : FP} {y0 : Vec FP n} {o : IrkOpts FP} {no : NewtonOpts FP} {dt : FP}
  {sc : SolverCoeffs FP} {oo : OutOpts} {mo : ℕ} {d d2 : Vec FP sc.ns}

/-- the loop invariant: the time is a double not before `t0`; step size, earlier step sizes and earlier error have no sign bit; the step size is a double -/
structure FPInvI (t0 : FP) {m : ℕ} (s : IrkState FP m n) : Prop where
  td : s.t.IsDouble
  lo : le t0 s.t = true
  dd : s.dt.IsDouble
  ds : s.dt.isNeg = false
  dn : s.dt ≠ nan
  d0 : s.dts0.isNeg = false
  d1 : s.dts1.isNeg = false
  e0 : s.errs0.isNeg = false

/-- `newton_max_iter` grows by `maxit` at most every sixteenth step -/
def MaxitInv (no : NewtonOpts FP) {m : ℕ} (s : IrkState FP m n) : Prop :=
  s.lastRelax ≤ s.step ∧ 16 * s.newtonMaxit ≤ max 0 no.maxit * (16 + s.lastRelax)

theorem maxitInv_next {s s' : IrkState FP (sc.ns * n) n} (h : MaxitInv no s) (hb : irkBody nd la fn t1 o no oo sc mo d d2 s = .next s') : MaxitInv no s' := by
  obtain ⟨h1, h2⟩ := h
  have hc := bodyCaseI nd la fn t1 o no oo sc mo d d2 s
  rw [hb] at hc
  cases hc with
  | newton hlt hm r hr hs had =>
    unfold MaxitInv newtonReject
    simp only
    by_cases hx : (15 : ℤ) < (s.step : ℤ) - s.lastRelax
    · simp only [hx, decide_true, if_true]
      refine ⟨le_rfl, ?_⟩
      have e1 : (s.lastRelax : ℤ) + 16 ≤ s.step := by omega
      have e2 := mul_le_mul_of_nonneg_left e1 (le_max_left 0 no.maxit)
      have e3 := le_max_right 0 no.maxit
      linarith
    · simp only [hx, decide_false, Bool.false_eq_true, if_false]
      exact ⟨h1, h2⟩
  | rejected hlt hm r hr hs had a ha hE hrj => exact ⟨h1, h2⟩
  | accepted hlt hm r hr hs had a ha hE hrj hi hw => exact ⟨Nat.le_succ_of_le h1, h2⟩

/-- the clipped step -/
theorem clipI_fp (h0 : t0.isFinite = true) (h1 : t1.isFinite = true) (hspan : (t1 - t0).isFinite = true) {m : ℕ} {s : IrkState FP m n} (hI : FPInvI t0 s)
    (hlt : lt s.t t1 = true) :
    (clipDt s.t t1 s.dt).IsDouble ∧ (clipDt s.t t1 s.dt).isFinite = true ∧ (clipDt s.t t1 s.dt).isNeg = false := by
  obtain ⟨c1, c2, -⟩ := clip_fp h0 h1 hspan hI.lo hlt (le_of_isNeg hI.ds hI.dn) hI.dd
  refine ⟨c1, c2, ?_⟩
  have htf := finite_of_lt h0 h1 hI.lo hlt
  unfold clipDt
  split_ifs
  · rw [lt_fin_iff htf h1] at hlt
    have e : t1 - s.t = rnd false (t1.val - s.t.val) := by
      show t1 + s.t.neg = _
      have hn := neg_fin htf
      rcases add_fin h1 hn.1 with e | ⟨e1, e2, -⟩
      · rw [e, hn.2, ← sub_eq_add_neg]
      · exfalso
        rw [e1] at hlt
        have := hn.2
        rw [e2] at this
        simp only [val] at this hlt
        linarith
    rw [e]
    exact isNeg_rnd (by linarith)
  · exact hI.ds

/-- the clipped step is not longer than the step -/
theorem clip_le (hd1 : t1.IsDouble) (h1 : t1.isFinite = true) {t d : FP} (htf : t.isFinite = true) (hdd : d.IsDouble) (hdf : d.isFinite = true)
    (hcf : (clipDt t t1 d).isFinite = true) : (clipDt t t1 d).val ≤ d.val := by
  unfold clipDt at hcf ⊢
  split_ifs at hcf ⊢ with hc
  · have hc' : lt t1 (t + d) = true := hc
    have hlt : t1.val < t.val + d.val := by
      by_contra hle
      have hm := rnQ_mono (not_lt.mp hle)
      rw [(rep_val hd1 h1).1] at hm
      rcases add_spec htf hdf with ⟨a, b⟩ | ⟨a, b⟩
      · rw [lt_fin_iff h1 a, b] at hc'
        linarith
      · rw [a] at hc'
        have hneg : t.val + d.val < 0 ∨ 0 ≤ t.val + d.val := lt_or_ge _ _
        rcases hneg with hneg | hpos
        · rw [decide_eq_true hneg] at hc'
          cases ht1 : t1 with
          | nan => rw [ht1] at h1; cases h1
          | inf c => rw [ht1] at h1; cases h1
          | negZero => rw [ht1] at hc'; cases hc'
          | fin r => rw [ht1] at hc'; cases hc'
        · rw [abs_of_nonneg (rnQ_nonneg hpos)] at b
          have := (abs_lt.mp (rep_val hd1 h1).2).2
          linarith
    rcases sub_spec h1 htf with ⟨-, b⟩ | ⟨a, -⟩
    · rw [b]
      have := rnQ_mono (show t1.val - t.val ≤ d.val by linarith)
      rwa [(rep_val hdd hdf).1] at this
    · rw [a] at hcf; cases hcf
  · exact le_rfl

/-- the new step size of an attempt -/
theorem newDt_fpI (hpow : ∀ x y, x.isNeg = false → (Libm.pow x y).isNeg = false) (h0 : t0.isFinite = true) (h1 : t1.isFinite = true)
    (hspan : (t1 - t0).isFinite = true) (hmx : o.maxDt.IsDouble) {s : IrkState FP (sc.ns * n) n} (hI : FPInvI t0 s) (hlt : lt s.t t1 = true)
    (hM : lt (fin 0) o.maxDt = true ∨ s.newtonMaxit ≤ 2 ^ 52) {r : StageResult FP (sc.ns * n) n} (hr : solveAt nd la fn t1 no sc s = .ret r)
    (hs : r.status = 0) {a : AttemptI FP n} (ha : attemptI la fn o sc mo d d2 s (clipDt s.t t1 s.dt) r.success = some a) :
    a.newDt.IsDouble ∧ a.newDt.isNeg = false ∧ a.newDt ≠ nan ∧ a.err.isNeg = false ∧
      (lt (fin 0) o.maxDt = true → o.maxDt.isFinite = true → a.newDt.isFinite = true ∧ a.newDt.val ≤ o.maxDt.val) := by
  obtain ⟨c1, c2, c3⟩ := clipI_fp h0 h1 hspan hI hlt
  obtain ⟨e1, e2, e3, e4, e5, e6⟩ := attemptI_spec ha
  have hit : 1 ≤ r.iters ∧ (r.iters : ℤ) < s.newtonMaxit := success_iters hr hs
  have he : a.err.isNeg = false := by rw [e4, e3]; exact isNeg_errNorm _ (isNeg_errTot _ _ _ _)
  have hp := isNeg_proposal (mo := mo) (iters := r.iters) (maxit := s.newtonMaxit) hpow c3 he he hI.e0 hI.d0 hI.d1 (by omega)
  have e6' : a.newDt = newDtI o mo (clipDt s.t t1 s.dt) a.err a.err s.errs0 s.dts0 s.dts1 s.newtonMaxit r.iters := e6
  rw [e6']
  have hpd : (proposalFP mo (clipDt s.t t1 s.dt) a.err a.err s.errs0 s.dts0 s.dts1 s.newtonMaxit r.iters).IsDouble := isDouble_mul _ _
  refine ⟨?_, ?_, ?_, he, fun hm hf => newDtI_limit hm hf hp⟩
  · rw [newDtI_fp]
    unfold cmin
    split_ifs
    · exact hpd
    · exact hmx
    · exact hpd
  · by_cases hm : lt (fin 0) o.maxDt = true
    · exact isNeg_newDtI (Or.inl (isNeg_of_pos hm)) hp
    · exact isNeg_newDtI (Or.inr (by simpa using hm)) hp
  · rw [newDtI_fp]
    split_ifs with hm
    · unfold cmin
      split_ifs with h
      · intro hc
        rw [hc] at h
        exact absurd h (by show ¬ lt nan _ = true; simp [lt])
      · intro hc
        rw [hc] at hm
        simp [lt] at hm
    · exact proposal_ne_nan hpow c3 c1 c2 he he hI.e0 hI.d0 hI.d1 (by omega) (by have := hM.resolve_left hm; omega) hit.1

theorem fpInvI_next (hpow : ∀ x y, x.isNeg = false → (Libm.pow x y).isNeg = false) (h0 : t0.isFinite = true) (h1 : t1.isFinite = true)
    (hspan : (t1 - t0).isFinite = true) (hmx : o.maxDt.IsDouble) {s s' : IrkState FP (sc.ns * n) n} (hI : FPInvI t0 s)
    (hM : lt (fin 0) o.maxDt = true ∨ s.newtonMaxit ≤ 2 ^ 52) (hb : irkBody nd la fn t1 o no oo sc mo d d2 s = .next s') : FPInvI t0 s' := by
  have hc := bodyCaseI nd la fn t1 o no oo sc mo d d2 s
  rw [hb] at hc
  cases hc with
  | newton hlt hm r hr hs had =>
    obtain ⟨c1, c2, c3⟩ := clipI_fp h0 h1 hspan hI hlt
    refine ⟨hI.td, hI.lo, isDouble_mul _ _, isNeg_mul c3 (isNeg_lit (by norm_num)), ?_, hI.d0, hI.d1, hI.e0⟩
    have h7 : (lit (7 / 10) : FP).isFinite = true := by
      show (rnd false (7 / 10)).isFinite = true
      decide +kernel
    obtain ⟨b, e⟩ := fmul_fin c2 h7
    show clipDt s.t t1 s.dt * lit (7 / 10) ≠ nan
    rw [e]
    exact rnd_ne_nan _ _
  | rejected hlt hm r hr hs had a ha hE hrj =>
    obtain ⟨k1, k2, k3, k4, -⟩ := newDt_fpI hpow h0 h1 hspan hmx hI hlt hM hr hs ha
    exact ⟨hI.td, hI.lo, k1, k2, k3, k2, hI.d0, k4⟩
  | accepted hlt hm r hr hs had a ha hE hrj hi hw =>
    obtain ⟨k1, k2, k3, k4, -⟩ := newDt_fpI hpow h0 h1 hspan hmx hI hlt hM hr hs ha
    obtain ⟨c1, c2, c3⟩ := clipI_fp h0 h1 hspan hI hlt
    have htf := finite_of_lt h0 h1 hI.lo hlt
    have hdt : a.dt = clipDt s.t t1 s.dt := (attemptI_spec ha).1
    refine ⟨?_, ?_, k1, k2, k3, k2, hI.d0, k4⟩
    · show (s.t + a.dt).IsDouble
      rw [hdt]; exact isDouble_add htf c2
    · show le t0 (s.t + a.dt) = true
      rw [hdt]
      exact le_trans' hI.lo (le_add_nonneg hI.td htf (by rw [le_fin_iff rfl c2]; exact val_nonneg c3))

theorem fpInvI_init (hd0 : t0.IsDouble) (h0 : t0.isFinite = true) (h1 : t1.isFinite = true) (hdd : dt.IsDouble)
    (hdt : lt (fin 0) (clipDt t0 t1 dt) = true ∨ (dt.isNeg = false ∧ dt ≠ nan ∧ lt t0 t1 = true)) (m : ℕ) (mx : ℤ) :
    FPInvI t0 (irkInit m t0 y0 (clipDt t0 t1 dt) mx) := by
  have hne : t0 ≠ nan := by intro hc; rw [hc] at h0; cases h0
  have hcd : (clipDt t0 t1 dt).IsDouble := by
    unfold clipDt; split_ifs
    · exact isDouble_add h1 (neg_fin h0).1
    · exact hdd
  have hs : (clipDt t0 t1 dt).isNeg = false ∧ clipDt t0 t1 dt ≠ nan := by
    rcases hdt with h | ⟨g1, g2, hlt⟩
    · refine ⟨isNeg_of_pos h, ?_⟩
      intro hc
      rw [hc] at h
      simp [lt] at h
    · unfold clipDt
      split_ifs
      · rw [lt_fin_iff h0 h1] at hlt
        have e : t1 - t0 = rnd false (t1.val - t0.val) := by
          show t1 + t0.neg = _
          have hn := neg_fin h0
          rcases add_fin h1 hn.1 with e | ⟨e1, e2, -⟩
          · rw [e, hn.2, ← sub_eq_add_neg]
          · exfalso
            rw [e1] at hlt
            have := hn.2
            rw [e2] at this
            simp only [val] at this hlt
            linarith
        rw [e]
        exact ⟨isNeg_rnd (by linarith), rnd_ne_nan _ _⟩
      · exact ⟨g1, g2⟩
  exact ⟨hd0, le_refl' hne, hcd, hs.1, hs.2, hs.1, hs.1, isNeg_lit (by norm_num)⟩

end

/-- the states of a run form a chain -/
theorem reach_total {S R : Type} {body : S → LoopStep S R} {a s s' : S} (h : Reach body a s) (h' : Reach body a s') : Reach body s s' ∨ Reach body s' s := by
  induction h with
  | refl => exact Or.inl h'
  | tail h1 h2 ih =>
    rename_i x y
    rcases ih with h3 | h3
    · have : s' = x ∨ Reach body y s' := by
        clear h' h1
        induction h3 with
        | refl => exact Or.inl rfl
        | tail k1 k2 ih =>
          rcases ih with rfl | k3
          · rw [h2] at k2
            cases k2
            exact Or.inr .refl
          · exact Or.inr (k3.tail k2)
      rcases this with rfl | h4
      · exact Or.inr (Reach.refl.tail h2)
      · exact Or.inl h4
    · exact Or.inr (h3.tail h2)

/-- every state of a run that ends in `s` is followed by `s` -/
theorem reach_final {S R : Type} {body : S → LoopStep S R} {a s s' : S} {x : Outcome R} (h : Reach body a s) (hd : body s = .done x) (h' : Reach body a s') :
    Reach body s' s := by
  rcases reach_total h h' with h1 | h1
  · have : s' = s := by
      clear h h'
      induction h1 with
      | refl => rfl
      | tail k1 k2 ih =>
        rw [ih, hd] at k2
        cases k2
    rw [this]
    exact .refl
  · exact h1

section
variable [Libm] {n : ℕ} {nd : Bool} {la : LinAlg FP} {fn : OdeFun FP n} {t0 t1 : FP} {y0 : Vec FP n} {o : IrkOpts FP} {no : NewtonOpts FP} {dt : FP}
  {sc : SolverCoeffs FP} {oo : OutOpts} {fuel : ℕ}

/-- the number of steps never decreases -/
theorem step_mono {mo : ℕ} {d d2 : Vec FP sc.ns} {s s' : IrkState FP (sc.ns * n) n} (h : Reach (irkBody nd la fn t1 o no oo sc mo d d2) s s') :
    s.step ≤ s'.step := by
  refine h.inv (Inv := fun x => s.step ≤ x.step) le_rfl ?_
  intro a b hab hb
  have hc := bodyCaseI nd la fn t1 o no oo sc mo d d2 a
  rw [hb] at hc
  cases hc with
  | newton hlt hm r hr hs had => exact hab
  | rejected hlt hm r hr hs had a ha hE hrj => exact hab
  | accepted hlt hm r hr hs had a ha hE hrj hi hw => exact hab.trans (Nat.le_succ _)

/-- **C130, times.**  In binary64 the times recorded and streamed by the implicit integrator never decrease: for every right-hand side, Jacobi matrix and
linear algebra (NaN and infinities included), every tableau and every option.  Hypotheses: the arguments are doubles, `t1 - t0` does not overflow, the initial
step has no sign bit and is not NaN (which the assertion checks), `pow` gives no sign bit to the power of a number without one; and `max_dt` is positive
or the limit of the Newton iterations stays below `2^52`, for which `maxit` times the number of accepted steps plus 16 being at most `2^56` suffices. -/
theorem C130_times_monotone (hpow : ∀ x y, x.isNeg = false → (Libm.pow x y).isNeg = false) (hd0 : t0.IsDouble) (h0 : t0.isFinite = true)
    (h1 : t1.isFinite = true) (hspan : (t1 - t0).isFinite = true) (hmx : o.maxDt.IsDouble) (hdd : dt.IsDouble)
    (hdt : nd = false ∨ (dt.isNeg = false ∧ dt ≠ nan)) {out : IrkOutput FP (sc.ns * n) n}
    (hM : lt (fin 0) o.maxDt = true ∨ ∀ no, o.newtonOpts = some no → no.maxit * (16 + (out.count.newtonSuccess - out.count.rejectErr : ℕ)) ≤ 2 ^ 56)
    (h : irkGuts nd la fn t0 t1 y0 o dt sc oo fuel = some (.ret out)) :
    out.tVals.Pairwise (fun a b => le a b = true) ∧ (t0 :: out.file.map (·.1)).Pairwise (fun a b => le a b = true) := by
  obtain ⟨no, mo, Ai, s, hno, hmo, hAi, hb2, hpos, hreach, hdone⟩ := irkGuts_ret h
  have hne : t0 ≠ nan := by intro hc; rw [hc] at h0; cases h0
  have hci : CountInvI s := hreach.inv (countInvI_init _ _ _ _) fun _ _ => countInvI_next
  -- what is returned
  have hout : out.tVals = s.sol.tVals ∧ out.file = s.sol.file ∧ out.count.newtonSuccess - out.count.rejectErr = s.step := by
    have hc := bodyCaseI nd la fn t1 o no oo sc mo (dWeights Ai fun i => sc.bw i) (dWeights Ai fun i => sc.bw2 i) s
    rw [hdone] at hc
    have := hci.ok
    cases hc with
    | finished hlt => exact ⟨rfl, rfl, by simp only; omega⟩
    | limit hlt hm => exact ⟨rfl, rfl, by simp only [IrkOutput.bump]; omega⟩
    | general hlt hm r hr hs had =>
      obtain ⟨-, L, K, -, e⟩ := solve_count hr
      refine ⟨rfl, rfl, ?_⟩
      simp only [e, IrkOutput.bump]
      omega
    | stop r hr => exact absurd rfl (hr _)
  by_cases hlt : lt t0 t1 = true
  · have hinit : FPInvI t0 (irkInit (sc.ns * n) t0 y0 (clipDt t0 t1 dt) no.maxit) := by
      refine fpInvI_init hd0 h0 h1 hdd ?_ _ _
      rcases hdt with hnd | ⟨g1, g2⟩
      · exact Or.inl (hpos.resolve_left (by rw [hnd]; decide))
      · exact Or.inr ⟨g1, g2, hlt⟩
    have hMs : ∀ x, Reach (irkBody nd la fn t1 o no oo sc mo (dWeights Ai fun i => sc.bw i) (dWeights Ai fun i => sc.bw2 i))
        (irkInit (sc.ns * n) t0 y0 (clipDt t0 t1 dt) no.maxit) x → lt (fin 0) o.maxDt = true ∨ x.newtonMaxit ≤ 2 ^ 52 := by
      intro x hx
      refine hM.imp id fun hM => ?_
      have hi : MaxitInv no x := hx.inv ⟨le_rfl, by
        show 16 * no.maxit ≤ max 0 no.maxit * (16 + ((0 : ℕ) : ℤ))
        have := le_max_right 0 no.maxit
        push_cast
        linarith⟩ fun _ _ => maxitInv_next
      have hst := step_mono (reach_final hreach hdone hx)
      have hm2 := hM no hno
      rw [hout.2.2] at hm2
      have k1 : (x.lastRelax : ℤ) ≤ s.step := by exact_mod_cast hi.1.trans hst
      rcases le_total no.maxit 0 with hneg | hnn
      · have := hi.2
        rw [max_eq_left hneg] at this
        omega
      · have := hi.2
        rw [max_eq_right hnn] at this
        have k2 := mul_le_mul_of_nonneg_left k1 hnn
        linarith
    obtain ⟨-, acc, hacc⟩ := reach_accs (Rel := fun a b => le a.t b.t = true)
      (J := fun x => Reach (irkBody nd la fn t1 o no oo sc mo (dWeights Ai fun i => sc.bw i) (dWeights Ai fun i => sc.bw2 i))
        (irkInit (sc.ns * n) t0 y0 (clipDt t0 t1 dt) no.maxit) x ∧ FPInvI t0 x) ⟨.refl, hinit⟩
      (fun a b hab hb => ⟨hab.1.tail hb, fpInvI_next hpow h0 h1 hspan hmx hab.2 (hMs a hab.1) hb⟩)
      (fun x r a l hx hlt hm hr hs had ha hE hrj hlt' _ => by
        obtain ⟨c1, c2, c3⟩ := clipI_fp h0 h1 hspan hx.2 hlt
        have htf := finite_of_lt h0 h1 hx.2.lo hlt
        show le l.t (x.t + a.dt) = true
        rw [hlt', (attemptI_spec ha).1]
        exact le_add_nonneg hx.2.td htf (by rw [le_fin_iff rfl c2]; exact val_nonneg c3)) hreach
    have hpw : acc.Pairwise (fun a b => le a.t b.t = true) := by
      have : IsTrans (SampleI FP n) (fun a b => le a.t b.t = true) := ⟨fun _ _ _ h1 h2 => le_trans' h1 h2⟩
      exact List.isChain_iff_pairwise.mp hacc.chain
    have hall : ∀ b ∈ acc, le t0 b.t = true := by
      have hh := hacc.head
      cases acc with
      | nil => cases hh
      | cons a l =>
        simp only [List.head?_cons, Option.some.injEq] at hh
        subst hh
        intro b hb
        rcases List.mem_cons.mp hb with rfl | hb
        · exact le_refl' hne
        · exact (List.pairwise_cons.mp hpw).1 b hb
    refine ⟨?_, ?_⟩
    · rw [hout.1, hacc.cols.t, List.pairwise_map]
      refine hpw.sublist ?_
      unfold storedI
      split_ifs
      · exact everyNth_sublist _ _
      · exact List.take_sublist _ _
    · rw [hout.2.1, hacc.file]
      unfold writtenI
      split_ifs
      · rw [List.map_map, List.pairwise_cons]
        have hsub : ((everyNth oo.interval.toNat acc).tail).Sublist acc := (List.tail_sublist _).trans (everyNth_sublist _ _)
        refine ⟨fun y hy => ?_, List.pairwise_map.mpr (hpw.sublist hsub)⟩
        obtain ⟨b, hb, rfl⟩ := List.mem_map.mp hy
        exact hall b (hsub.subset hb)
      · simp
  · -- no step
    have hs : s = irkInit (sc.ns * n) t0 y0 (clipDt t0 t1 dt) no.maxit := by
      have hfin : irkBody nd la fn t1 o no oo sc mo (dWeights Ai fun i => sc.bw i) (dWeights Ai fun i => sc.bw2 i)
          (irkInit (sc.ns * n) t0 y0 (clipDt t0 t1 dt) no.maxit) = .done (.ret { (irkInit (sc.ns * n) t0 y0 (clipDt t0 t1 dt) no.maxit).sol with
            acceptFrac := some (lit ((0 : ℕ) : ℚ) / lit ((0 : ℕ) : ℚ)) }) := by
        unfold irkBody
        rw [if_neg (by exact hlt)]
        rfl
      refine hreach.inv (Inv := fun x => x = irkInit (sc.ns * n) t0 y0 (clipDt t0 t1 dt) no.maxit) rfl ?_
      rintro a b rfl hb
      rw [hfin] at hb
      cases hb
    rw [hout.1, hout.2.1, hs]
    exact ⟨by simp [irkInit], by simp [irkInit]⟩

/-- **C130, step sizes.**  With a positive finite `max_dt` every step size at the head of the loop is a finite double, not negative and at most `h`, if `max_dt`
and the initial step are: whatever the right-hand side, the Jacobi matrix, the linear algebra and the tableau are. -/
theorem C130_steps (hpow : ∀ x y, x.isNeg = false → (Libm.pow x y).isNeg = false) (hd0 : t0.IsDouble) (h0 : t0.isFinite = true) (hd1 : t1.IsDouble)
    (h1 : t1.isFinite = true) (hspan : (t1 - t0).isFinite = true) (hlt : lt t0 t1 = true) (hmx : o.maxDt.IsDouble) (hmp : lt (fin 0) o.maxDt = true)
    (hmf : o.maxDt.isFinite = true) (hdd : dt.IsDouble) (hdf : dt.isFinite = true) (hds : dt.isNeg = false) {h : ℚ} (hh1 : o.maxDt.val ≤ h) (hh2 : dt.val ≤ h)
    {mo : ℕ} {d d2 : Vec FP sc.ns} {s : IrkState FP (sc.ns * n) n}
    (hr : Reach (irkBody nd la fn t1 o no oo sc mo d d2) (irkInit (sc.ns * n) t0 y0 (clipDt t0 t1 dt) no.maxit) s) :
    s.dt.isFinite = true ∧ 0 ≤ s.dt.val ∧ s.dt.val ≤ h ∧ s.dt ≠ negZero ∧ s.t.IsDouble ∧ le t0 s.t = true := by
  have hnn : dt ≠ nan := by intro hc; rw [hc] at hdf; cases hdf
  have : FPInvI t0 s ∧ s.dt.isFinite = true ∧ s.dt.val ≤ h := by
    refine hr.inv (Inv := fun x => FPInvI t0 x ∧ x.dt.isFinite = true ∧ x.dt.val ≤ h)
      ⟨fpInvI_init hd0 h0 h1 hdd (Or.inr ⟨hds, hnn, hlt⟩) _ _, ?_⟩ ?_
    · have hne : t0 ≠ nan := by intro hc; rw [hc] at h0; cases h0
      have hc := clip_fp h0 h1 hspan (le_refl' hne) hlt (le_of_isNeg hds hnn) hdd
      exact ⟨hc.2.1, (clip_le hd1 h1 h0 hdd hdf hc.2.1).trans hh2⟩
    · rintro a b ⟨hI, hf, hle⟩ hb
      refine ⟨fpInvI_next hpow h0 h1 hspan hmx hI (Or.inl hmp) hb, ?_⟩
      have hc := bodyCaseI nd la fn t1 o no oo sc mo d d2 a
      rw [hb] at hc
      cases hc with
      | newton hlt hm r hr hs had =>
        obtain ⟨c1, c2, c3⟩ := clipI_fp h0 h1 hspan hI hlt
        have htf := finite_of_lt h0 h1 hI.lo hlt
        have h7 : (lit (7 / 10) : FP).isFinite = true ∧ 0 ≤ (lit (7 / 10) : FP).val ∧ (lit (7 / 10) : FP).val ≤ 1 := by
          show (rnd false (7 / 10)).isFinite = true ∧ 0 ≤ (rnd false (7 / 10)).val ∧ (rnd false (7 / 10)).val ≤ 1
          decide +kernel
        obtain ⟨b, e⟩ := fmul_fin c2 h7.1
        obtain ⟨r1, r2⟩ := rep_val c1 c2
        have k := rnd_le (b := b) (mul_nonneg (val_nonneg c3) h7.2.1) r1 r2 (mul_le_of_le_one_right (val_nonneg c3) h7.2.2)
        show (clipDt a.t t1 a.dt * lit (7 / 10)).isFinite = true ∧ (clipDt a.t t1 a.dt * lit (7 / 10)).val ≤ h
        rw [e]
        exact ⟨k.1, k.2.2.trans ((clip_le hd1 h1 htf hI.dd hf c2).trans hle)⟩
      | rejected hlt hm r hr hs had a ha hE hrj =>
        have k := (newDt_fpI hpow h0 h1 hspan hmx hI hlt (Or.inl hmp) hr hs ha).2.2.2.2 hmp hmf
        exact ⟨k.1, k.2.trans hh1⟩
      | accepted hlt hm r hr hs had a ha hE hrj hi hw =>
        have k := (newDt_fpI hpow h0 h1 hspan hmx hI hlt (Or.inl hmp) hr hs ha).2.2.2.2 hmp hmf
        exact ⟨k.1, k.2.trans hh1⟩
  refine ⟨this.2.1, val_nonneg this.1.ds, this.2.2, ?_, this.1.td, this.1.lo⟩
  intro hc
  have := this.1.ds
  rw [hc] at this
  cases this

/-- `max_dt` bounds the steps in binary64 -/
theorem stepsWithin_fp (hpow : ∀ x y, x.isNeg = false → (Libm.pow x y).isNeg = false) (hd0 : t0.IsDouble) (h0 : t0.isFinite = true) (hd1 : t1.IsDouble)
    (h1 : t1.isFinite = true) (hspan : (t1 - t0).isFinite = true) (hlt : lt t0 t1 = true) (hmx : o.maxDt.IsDouble) (hmp : lt (fin 0) o.maxDt = true)
    (hmf : o.maxDt.isFinite = true) (hdd : dt.IsDouble) (hdf : dt.isFinite = true) (hds : dt.isNeg = false) {h : ℝ} (hh1 : (o.maxDt.val : ℝ) ≤ h)
    (hh2 : (dt.val : ℝ) ≤ h) : StepsWithin (fpArith (hpow_of_sign hpow)) nd la fn t0 t1 y0 o dt sc oo h := by
  intro no mo Ai s _ _ _ hr
  have k := C130_steps hpow hd0 h0 hd1 h1 hspan hlt hmx hmp hmf hdd hdf hds (le_max_left o.maxDt.val dt.val) (le_max_right _ _) hr
  refine ⟨k.1, ?_, ?_⟩
  · show (0 : ℝ) ≤ ((s.dt.val : ℚ) : ℝ)
    exact_mod_cast k.2.1
  · show ((s.dt.val : ℚ) : ℝ) ≤ h
    have : ((s.dt.val : ℚ) : ℝ) ≤ ((max o.maxDt.val dt.val : ℚ) : ℝ) := by exact_mod_cast k.2.2.1
    refine this.trans ?_
    rw [Rat.cast_max]
    exact max_le hh1 hh2

end

/-- **C130, convergence in binary64.**  The methods RADAU_IIA_32, RADAU_IIA_53 and LOBATTO_IIIC_43, 64 and 85 on a problem with a solution `U` on `[a,b]`, `f` being `p` times continuously
differentiable with `p` the declared order: with binary64 arithmetic, a right-hand side accurate to `ε`, "Jacobi matrices" with row sums up to `Jb`, linear systems
solved up to a residual of `ρ` and `max_dt` and the initial step at most `h ≤ h₀`, everything a run records or streams is finite and within
`C (h^p + ε + e₀ + N (2^-53 + ρ + min (h²) (tol + h dx_delta + 2^-26.5)))` of the solution, if that is at most 1.  That the steps stay within `h` is no longer
a hypothesis as in C129. -/
theorem C130_convergence {n p : ℕ} {m : ℤ} (hm' : m ∈ ([210, 211, 230, 231, 232] : List ℤ)) (hp : (irkCoeffs m : SolverCoeffs ℝ).order = some (p : ℤ))
    {f : ℝ → Vec ℝ n → Vec ℝ n} (hf : ContDiff ℝ p fun q : ℝ × Vec ℝ n => f q.1 q.2) {U : ℝ → Vec ℝ n} {a b δ Jb : ℝ} (hδ : 0 < δ) (hJb : 0 ≤ Jb)
    (hU : ∀ t ∈ Icc a b, HasDerivWithinAt U (f t (U t)) (Icc a b) t) :
    ∃ C h0 : ℝ, 0 < C ∧ 0 < h0 ∧
      ∀ (_ : Libm) (hpow : ∀ x y, x.isNeg = false → (Libm.pow x y).isNeg = false) (ε ρ : ℝ) (fn : OdeFun FP n) (la : LinAlg FP),
        0 ≤ ε → 0 ≤ ρ → C ≤ 2 ^ 1023 → RhsAccurate (fpArith (hpow_of_sign hpow)) f U a b ε fn.fn → JacBounded (fpArith (hpow_of_sign hpow)) U a b Jb fn.jac →
        LuAccurate (fpArith (hpow_of_sign hpow)) la ((irkCoeffs m : SolverCoeffs FP).ns * n) ρ →
        InvAccurate (fpArith (hpow_of_sign hpow)) la (irkCoeffs m) (irkCoeffs m) ρ →
        ∀ (nd : Bool) (o : IrkOpts FP) (no : NewtonOpts FP) (oo : OutOpts) (t0 t1 : FP) (y0 : Vec FP n) (dt : FP) (fuel : ℕ)
          (out : IrkOutput FP ((irkCoeffs m : SolverCoeffs FP).ns * n) n) (h e0 : ℝ), t0.IsDouble → t0.isFinite = true → t1.IsDouble → t1.isFinite = true →
          (t1 - t0).isFinite = true → lt t0 t1 = true → (∀ k, (y0 k).isFinite = true) → a + δ ≤ t0.val → (t1.val : ℝ) ≤ b - δ →
          ‖(fun k => ((y0 k).val : ℝ)) - U t0.val‖ ≤ e0 → h ≤ h0 → o.newtonOpts = some no → no.dxDelta.isFinite = true → no.tol.isFinite = true →
          |(no.dxDelta.val : ℝ)| ≤ 1 → |(no.tol.val : ℝ)| ≤ 1 → o.maxDt.IsDouble → o.maxDt.isFinite = true → lt (fin 0) o.maxDt = true →
          (o.maxDt.val : ℝ) ≤ h → dt.IsDouble → dt.isFinite = true → dt.isNeg = false → (dt.val : ℝ) ≤ h →
          irkOdeint nd la fn t0 t1 y0 o oo m dt fuel = some (.ret out) →
          ∀ X : ℝ, X = C * (h ^ p + ε + e0 + ((out.count.newtonSuccess - out.count.rejectErr + 1 : ℕ) : ℝ) *
              (1 / 2 ^ 53 + ρ + min (h ^ 2) (|(no.tol.val : ℝ)| + h * |(no.dxDelta.val : ℝ)| + Real.sqrt (1 / 2 ^ 53)))) → X ≤ 1 →
          List.Forall₂ (fun t y => t.isFinite = true ∧ (∀ k, (y k).isFinite = true) ∧ ‖(fun k => ((y k).val : ℝ)) - U t.val‖ ≤ X) out.tVals out.yVals ∧
          out.tVals.Pairwise (fun a b => le a b = true) := by
  have hm : m ∈ irkImplemented := by
    have : ∀ m ∈ ([210, 211, 230, 231, 232] : List ℤ), m ∈ irkImplemented := by decide
    exact this m hm'
  obtain ⟨C, h0, hC, hh0, key⟩ := C129_convergence hm' hp hf hδ hJb hU
  refine ⟨C, h0, hC, hh0, ?_⟩
  intro _ hpow ε ρ fn la hε hρ hCB hacc hjac hlu hinv nd o no oo t0 t1 y0 dt fuel out h e0 d0 f0 d1 f1 hspan hlt fy0 ha hb' hy0 hh0' hno hxf hRf hx1 hR1 md mf mp
    mh dd df ds dh hrun X hX hsmall
  have hdt0 : (0 : ℝ) ≤ (dt.val : ℝ) := by exact_mod_cast val_nonneg ds
  have ht : (t0.val : ℝ) ≤ t1.val := by
    have := (lt_fin_iff f0 f1).mp hlt
    exact_mod_cast this.le
  have K := key FP (1 / 2 ^ 53) (2 ^ 1023) ε ρ (fpArith (hpow_of_sign hpow)) fn la (by positivity) hε hρ hCB (nearTableau_fp _ hm) hacc hjac hlu hinv nd o no oo
    t0 t1 y0 dt fuel out h e0 f0 f1 fy0 ha ht hb' hy0 (hdt0.trans dh) hh0' hno hxf hRf hx1 hR1
    (stepsWithin_fp hpow d0 f0 d1 f1 hspan hlt md mp mf dd df ds mh dh) hrun X hX hsmall
  refine ⟨K.1, ?_⟩
  have hnn : dt ≠ nan := by intro hc; rw [hc] at df; cases df
  exact (C130_times_monotone hpow d0 f0 f1 hspan md dd (Or.inr ⟨ds, hnn⟩) (Or.inl mp) (irkOdeint_float_guts hm' hrun)).1

/-! ### the hypotheses can be met -/

/-- the arithmetic, the right-hand side `y²`, the zero "Jacobi matrix" and linear algebra with one rounding meet the hypotheses of `C130_convergence` -/
example [Libm] (hpow : ∀ x y, x.isNeg = false → (Libm.pow x y).isNeg = false) :
    RhsAccurate (fpArith (hpow_of_sign hpow)) (fun (_ : ℝ) (y : Vec ℝ 1) (i : Fin 1) => y i ^ 2) (fun (t : ℝ) (_ : Fin 1) => 1 / (1 - t)) 0 (9 / 10)
      (145 * (1 / 2 ^ 53)) (squareOde FP).fn ∧
    JacBounded (fpArith (hpow_of_sign hpow)) (fun (t : ℝ) (_ : Fin 1) => 1 / (1 - t)) 0 (9 / 10) 0 (squareOde FP).jac ∧
    LuAccurate (fpArith (hpow_of_sign hpow)) (laRound FP.val) ((irkCoeffs 210 : SolverCoeffs FP).ns * 1) (68 * (1 / 2 ^ 53)) ∧
    InvAccurate (fpArith (hpow_of_sign hpow)) (laRound FP.val) (irkCoeffs 210) (irkCoeffs 210) (68 * (1 / 2 ^ 53)) := by
  have hB : (1000000 : ℝ) ≤ 2 ^ 1023 := by
    have : (2 : ℝ) ^ 20 ≤ 2 ^ 1023 := pow_le_pow_right₀ (by norm_num) (by norm_num)
    exact le_trans (by norm_num) this
  have h16 : (16 : ℝ) ≤ 2 ^ 1023 := le_trans (by norm_num) hB
  refine ⟨square_accurate _ (by positivity) (le_trans (by norm_num) hB), ?_, ?_, laRound_invAccurate _ (by positivity) h16⟩
  · intro t y _ _ _ _ _ i
    have hz : ∀ j, (squareOde FP).jac t y i j = fin 0 := fun _ => rfl
    refine ⟨fun j => by rw [hz]; rfl, ?_⟩
    simp only [hz]
    show ∑ _, |((0 : ℚ) : ℝ)| ≤ 0
    simp
  · exact laRound_luAccurate _ (fun _ => rfl) (by positivity) (one_div_le_one_div_of_le (by norm_num) (by norm_num)) h16

/-- options with `max_dt = 1/2` -/
def c130Opts : IrkOpts FP :=
  { adaptive := true, relTol := fin 1, absTol := fin 1, maxDt := fin (1 / 2), maxSteps := 100
    newtonOpts := some { tol := fin 1, dxDelta := fin 1, maxit := 10, timeInternals := false, refreshJac := 1, limitStep := false, maxStep := fin 1, precondition := false } }

/-- recorded times of a run that returned -/
def timesOfI {m n : ℕ} : Option (Outcome (IrkOutput FP m n)) → List FP
  | some (.ret out) => out.tVals
  | _ => []

theorem ret_of_timesI {m n : ℕ} {r : Option (Outcome (IrkOutput FP m n))} {l : List FP} (h : timesOfI r = l) (hl : l ≠ []) :
    ∃ out, r = some (.ret out) ∧ out.tVals = l := by
  unfold timesOfI at h
  split at h
  · exact ⟨_, rfl, h⟩
  · exact absurd h.symm hl

/-- `y' = 1` -/
def slopeFP : OdeFun FP 1 := ⟨fun _ _ _ => fin 1, fun _ _ _ _ => fin 0⟩

/-- linear algebra that takes every matrix for the identity; the sign is that of line 460 of irk.hpp, where `-L` is used -/
def laNegId : LinAlg FP := { laId with solveU := fun _ v => some fun i => - v i }

/-- `C130_times_monotone` applies to a binary64 run of RADAU_IIA_32 with three steps -/
example : letI := powOne
    ∃ out : IrkOutput FP ((irkCoeffs 210 : SolverCoeffs FP).ns * 1) 1,
      irkGuts false laNegId slopeFP (fin 0) (fin 1) (fun _ => fin 0) c130Opts (fin (1 / 2)) (irkCoeffs 210) OutOpts.dflt 20 = some (.ret out) ∧
      out.tVals = [fin 0, fin (1 / 2), fin (4278419646001971 / 2 ^ 52), fin 1] ∧ out.tVals.Pairwise (fun a b => le a b = true) := by
  let : Libm := powOne
  obtain ⟨out, heq, h⟩ := ret_of_timesI (r := irkGuts false laNegId slopeFP (fin 0) (fin 1) (fun _ : Fin 1 => fin 0) c130Opts (fin (1 / 2))
    (irkCoeffs 210) OutOpts.dflt 20) (l := [fin 0, fin (1 / 2), fin (4278419646001971 / 2 ^ 52), fin 1]) (by decide +kernel) (by simp)
  exact ⟨out, heq, h, (C130_times_monotone (fun _ _ _ => rfl) (by decide +kernel) rfl rfl (by decide +kernel) (by decide +kernel) (by decide +kernel)
    (Or.inl rfl) (Or.inl (by decide +kernel)) heq).1⟩

/-- the step sizes of that run are finite and at most 1/2 -/
example : letI := powOne
    StepsWithin (fpArith fun _ _ _ _ => rfl) false laNegId slopeFP (fin 0) (fin 1) (fun _ => fin 0) c130Opts (fin (1 / 2)) (irkCoeffs 210) OutOpts.dflt
      (1 / 2) := by
  let : Libm := powOne
  have hv : (((1 / 2 : ℚ)) : ℝ) ≤ 1 / 2 := by norm_num
  exact stepsWithin_fp (fun _ _ _ => rfl) (by decide +kernel) rfl (by decide +kernel) rfl (by decide +kernel) (by decide +kernel) (by decide +kernel)
    (by decide +kernel) rfl (by decide +kernel) rfl (by decide +kernel) hv hv

end Verif
