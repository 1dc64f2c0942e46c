import Verif.Prop.NonFinite
import Verif.Prop.IrkMethods

/-!
# Property C110: implicit integrators and right-hand sides that cannot be evaluated, in binary64
-/

set_option linter.unusedSectionVars false
set_option autoImplicit false

namespace Verif
open FP

/-- What is assumed of the linear algebra: a factorisation is always produced, and triangular solves of a vector with a
component that is not a number return such a vector. -/
structure NanLinAlg (la : LinAlg FP) : Prop where
  lu : ∀ {m : ℕ} (M : Mat FP m), ∃ x, la.lu M = some x
  solveL : ∀ {m : ℕ} (M : Mat FP m) (v : Vec FP m) (k : Fin m), v k = nan → ∃ w, la.solveL M v = some w ∧ ∃ j, w j = nan
  solveU : ∀ {m : ℕ} (M : Mat FP m) (v : Vec FP m) (k : Fin m), v k = nan → ∃ w, la.solveU M v = some w ∧ ∃ j, w j = nan

/-- At time `t` and value `y` the stages of the method cannot be evaluated: whatever the step size and the iterate, the
right-hand side of some stage has a component that is not a number. -/
def StagesNan [Libm] {n : ℕ} (f : FP → Vec FP n → Vec FP n) (sc : SolverCoeffs FP) (t : FP) (y : Vec FP n) : Prop :=
  ∀ (d : FP) (Z : Fin sc.ns → Vec FP n), ∃ (i : Fin sc.ns) (k : Fin n), f (t + sc.cn i * d) (fun j => y j + Z i j) k = nan

section
variable [Libm] {n : ℕ} {la : LinAlg FP} {fn : OdeFun FP n} {t t0 t1 dt : FP} {y y0 : Vec FP n} {o : IrkOpts FP} {no : NewtonOpts FP}
  {oo : OutOpts} {sc : SolverCoeffs FP} {nd : Bool} {mo : ℕ} {fuel : ℕ}

theorem sumFin_nan {m : ℕ} {g : Fin m → FP} {k : Fin m} (h : g k = nan) : sumFin m g = nan :=
  foldl_nan g h _ _ (Or.inl (List.mem_finRange k))

theorem dot_nan {m : ℕ} {v : Vec FP m} {k : Fin m} (h : v k = nan) : dot v v = nan :=
  sumFin_nan (k := k) (by rw [h]; rfl)

theorem mulVec_nan {m : ℕ} (M : Mat FP m) {v : Vec FP m} {k : Fin m} (h : v k = nan) (i : Fin m) : mulVec M v i = nan :=
  sumFin_nan (k := k) (by rw [h, mul_nan])

theorem sub_nan (x : FP) : x - nan = nan := by cases x <;> rfl

/-- one stage that cannot be evaluated spoils every component of the residual -/
theorem constructR_nan (hf : StagesNan fn.fn sc t y) (d : FP) (Y : Vec FP (sc.ns * n)) (p : Fin (sc.ns * n)) :
    constructR fn.fn sc t d y Y p = nan := by
  obtain ⟨i, k, h⟩ := hf d (stageOf Y)
  unfold constructR
  rw [mulVec_nan _ (k := finProdFinEquiv (i, k)), sub_nan]
  unfold stageFuns stageArgI
  rw [show (finProdFinEquiv (i, k)).divNat = i from congrArg Prod.fst (finProdFinEquiv.symm_apply_apply (i, k)),
    show (finProdFinEquiv (i, k)).modNat = k from congrArg Prod.snd (finProdFinEquiv.symm_apply_apply (i, k))]
  exact h

theorem stageDir_nan (hla : NanLinAlg la) {m : ℕ} (lup : Mat FP m × Mat FP m × Mat FP m) {R : Vec FP m} {k : Fin m} (h : R k = nan) :
    ∃ w, stageDir la (some lup) R = .ret w ∧ ∃ j, w j = nan := by
  obtain ⟨L, U, P⟩ := lup
  obtain ⟨w, hw, j, hj⟩ := hla.solveL (fun i j => - L i j) (mulVec P R) k (mulVec_nan P h k)
  obtain ⟨v, hv, i, hi⟩ := hla.solveU U w j hj
  exact ⟨v, by unfold stageDir; simp only [hw, hv], i, hi⟩

/-- the stage iteration uses up its passes -/
theorem stageIter_nan (hla : NanLinAlg la) (hf : StagesNan fn.fn sc t y) {refresh : ℤ} (hre : refresh ≠ 0) (xtol Rtol : FP) :
    ∀ (k : ℕ) (s : StageState FP (sc.ns * n) n), (∃ x, s.lup = some x) → (∃ p, s.R p = nan) →
      ∃ r, stageIter false la fn sc t dt y refresh xtol Rtol k s = .ret r ∧ r.status = 3
  | 0, s, _, _ => ⟨_, rfl, rfl⟩
  | k + 1, s, ⟨x, hx⟩, ⟨p, hp⟩ => by
    obtain ⟨w, hw, j, hj⟩ := stageDir_nan hla x hp
    have hw' : stageDir la s.lup s.R = .ret w := by rw [hx]; exact hw
    have hR := constructR_nan hf dt (fun p => s.Y p + lit 1 * w p)
    have h1 : dot (constructR fn.fn sc t dt y fun p => s.Y p + lit 1 * w p) (constructR fn.fn sc t dt y fun p => s.Y p + lit 1 * w p) = nan :=
      dot_nan (hR p)
    have h2 : dot w w = nan := dot_nan hj
    have hlt : ∀ z : FP, ltb nan z = false := fun z => by cases z <;> rfl
    unfold stageIter stageStep
    simp only [hw', Outcome.bind, h1, h2, hlt, Bool.or_self, Bool.false_eq_true, if_false, if_neg hre]
    by_cases hmod : (s.iters : ℤ) % refresh = 0
    · obtain ⟨lup, hlu⟩ := hla.lu (stageJac sc dt (fn.jac t y))
      simp only [hmod, if_true, refreshJac, hlu, Bool.false_eq_true, if_false]
      exact stageIter_nan hla hf hre xtol Rtol k _ ⟨_, rfl⟩ ⟨p, hR p⟩
    · simp only [hmod, if_false]
      exact stageIter_nan hla hf hre xtol Rtol k _ ⟨x, hx⟩ ⟨p, hR p⟩

/-- the stage solver reports `MAXIT_EXCEEDED` -/
theorem solve_nan (hla : NanLinAlg la) (hf : StagesNan fn.fn sc t y) {refresh : ℤ} (hre : refresh ≠ 0) (hc : sc.c.length = sc.ns)
    (xtol Rtol : FP) (maxit : ℤ) (count : IrkCounters) (log : CallLog FP n) :
    ∃ r, newtonSolveStages false la fn sc t dt y maxit refresh xtol Rtol count log = .ret r ∧ r.status = 3 := by
  obtain ⟨i, k, -⟩ := hf dt (fun _ _ => nan)
  obtain ⟨lup, hlu⟩ := hla.lu (stageJac sc dt (fn.jac t y))
  have hn : ¬ (sc.ns ≠ 0 ∧ (n = 0 ∨ sc.c.length < sc.ns)) := by
    rintro ⟨-, h | h⟩
    · subst h; exact k.elim0
    · omega
  unfold newtonSolveStages refreshJac
  simp only [hlu, Bool.false_eq_true, if_false, Outcome.bind, if_neg hn]
  exact stageIter_nan hla hf hre xtol Rtol _ _ ⟨_, rfl⟩ ⟨finProdFinEquiv (i, k), constructR_nan hf dt (fun _ => lit 0) _⟩

/-- **C110, never reported.**  When the stages cannot be evaluated at the current point, an adaptive implicit run neither
returns nor fails: it repeats the attempt with steps 0.7 times as long, for every right-hand side, interval, step size and
tolerance.  `max_steps` does not help: it counts accepted steps. -/
theorem C110_never_returns (hla : NanLinAlg la) (had : o.adaptive = true) (hre : no.refreshJac ≠ 0) (hc : sc.c.length = sc.ns)
    (d d2 : Vec FP sc.ns) {s : IrkState FP (sc.ns * n) n} (hf : StagesNan fn.fn sc s.t s.y) (hlt : ltb s.t t1 = true)
    (hms : ¬ (0 ≤ o.maxSteps ∧ o.maxSteps < s.step)) :
    Diverges (irkBody false la fn t1 o no oo sc mo d d2) s ∧
      ∀ s', Reach (irkBody false la fn t1 o no oo sc mo d d2) s s' → s'.t = s.t ∧ s'.y = s.y ∧ s'.sol.tVals = s.sol.tVals := by
  have key : ∀ a : IrkState FP (sc.ns * n) n, (a.t = s.t ∧ a.y = s.y ∧ a.sol.tVals = s.sol.tVals ∧ a.step = s.step) →
      ∃ b, irkBody false la fn t1 o no oo sc mo d d2 a = .next b ∧
        (b.t = s.t ∧ b.y = s.y ∧ b.sol.tVals = s.sol.tVals ∧ b.step = s.step) := by
    rintro a ⟨h1, h2, h3, h4⟩
    obtain ⟨r, hr, hs⟩ := solve_nan (dt := clipDt a.t t1 a.dt) hla (t := a.t) (y := a.y) (by rw [h1, h2]; exact hf) hre hc no.dxDelta no.tol
      a.newtonMaxit a.sol.bump.count a.sol.log
    refine ⟨newtonReject a (clipDt a.t t1 a.dt) no.maxit r.status r.count r.log, ?_, h1, h2, h3, h4⟩
    unfold irkBody
    rw [if_pos (by rw [h1]; exact hlt)]
    simp only
    rw [if_neg (by rw [h4]; exact hms), hr]
    simp [hs, had]
  refine ⟨diverges_of_inv (Inv := fun a => a.t = s.t ∧ a.y = s.y ∧ a.sol.tVals = s.sol.tVals ∧ a.step = s.step) key ⟨rfl, rfl, rfl, rfl⟩, ?_⟩
  intro s' hr
  have := Reach.inv (Inv := fun a : IrkState FP (sc.ns * n) n => a.t = s.t ∧ a.y = s.y ∧ a.sol.tVals = s.sol.tVals ∧ a.step = s.step)
    hr ⟨rfl, rfl, rfl, rfl⟩ (fun a b ha hb => by
      obtain ⟨c, hc, hi⟩ := key a ha
      rw [hb] at hc
      cases hc; exact hi)
  exact ⟨this.1, this.2.1, this.2.2.1⟩

/-- a fixed-step pass whose stage solve fails -/
theorem body_fixed {d d2 : Vec FP sc.ns} {s : IrkState FP (sc.ns * n) n} {r : StageResult FP (sc.ns * n) n} (had : o.adaptive = false)
    (hlt : ltb s.t t1 = true) (hms : ¬ (0 ≤ o.maxSteps ∧ o.maxSteps < s.step)) (hr : solveAt nd la fn t1 no sc s = .ret r) (hs : r.status = 3) :
    irkBody nd la fn t1 o no oo sc mo d d2 s = .done (.ret { s.sol.bump with status := 4, count := r.count, log := r.log }) := by
  unfold irkBody
  rw [if_pos hlt]
  simp only
  rw [if_neg hms, show newtonSolveStages nd la fn sc s.t (clipDt s.t t1 s.dt) s.y s.newtonMaxit no.refreshJac no.dxDelta no.tol
    s.sol.bump.count s.sol.log = .ret r from hr]
  simp [hs, had]

/-- the options `irk::odeint` passes on (irk.hpp 884-898) -/
theorem odeint_gutsI {m : ℤ} {out} (h : irkOdeint nd la fn t0 t1 y0 o oo m dt fuel = some (.ret out)) :
    irkGuts nd la fn t0 t1 y0 (if o.adaptive && (irkCoeffs m : SolverCoeffs FP).b2.length == 0 then { o with adaptive := false } else o)
      dt (irkCoeffs m) oo fuel = some (.ret out) ∧ (nd = false → irkVerify (irkCoeffs m : SolverCoeffs FP) = true) := by
  unfold irkOdeint at h
  simp only at h
  by_cases h1 : (!nd && !irkVerify (irkCoeffs m : SolverCoeffs FP)) = true
  · rw [if_pos h1] at h; cases h
  · rw [if_neg h1] at h
    exact ⟨h, fun hn => by subst hn; simpa using h1⟩

/-- **C110, no success (partial).**  If the stages cannot be evaluated at the initial point, whatever `irk::odeint` returns
(with assertions) has the status `GENERAL_ERROR` and no further sample, and the step size is not adaptive.  Missing from the
claim: that it returns, see `C110_refuted`. -/
theorem C110_no_success_partial {m : ℤ} (hla : NanLinAlg la) (hre : ∀ no, o.newtonOpts = some no → no.refreshJac ≠ 0)
    (hf : StagesNan fn.fn (irkCoeffs m) t0 y0) (hlt : ltb t0 t1 = true)
    {out} (h : irkOdeint false la fn t0 t1 y0 o oo m dt fuel = some (.ret out)) :
    out.status = 4 ∧ out.tVals = [t0] ∧ o.adaptive = false := by
  obtain ⟨h, hv⟩ := odeint_gutsI h
  have hc : (irkCoeffs m : SolverCoeffs FP).c.length = (irkCoeffs m : SolverCoeffs FP).ns := by
    have := hv rfl
    unfold irkVerify at this
    simp only at this
    split_ifs at this with h1 h2
    push Not at h1
    exact h1.1.symm
  obtain ⟨no, mo, Ai, s, hno, hmo, hAi, hb2, -, hr, hd⟩ := irkGuts_ret h
  have hno' : o.newtonOpts = some no := by rw [← hno]; split_ifs <;> rfl
  have hns : (irkCoeffs m : SolverCoeffs FP).ns ≠ 0 := by
    obtain ⟨i, -, -⟩ := hf t0 (fun _ _ => nan)
    intro h0; rw [h0] at i; exact i.elim0
  have hb : ((irkCoeffs m : SolverCoeffs FP).b2.length == 0) = false := by simpa [hb2] using hns
  simp only [hb, Bool.and_false, Bool.false_eq_true, if_false] at hr hd
  cases had : o.adaptive with
  | true =>
    have := (C110_never_returns (mo := mo) (t1 := t1) (oo := oo) hla had (hre no hno') hc (dWeights Ai fun i => (irkCoeffs m : SolverCoeffs FP).bw i)
      (dWeights Ai fun i => (irkCoeffs m : SolverCoeffs FP).bw2 i) (s := irkInit _ t0 y0 (clipDt t0 t1 dt) no.maxit) hf hlt
      (by rintro ⟨h1, h2⟩; simp only [irkInit] at h2; omega)).1
    obtain ⟨k, hk⟩ := run_of_reach hr (K := 1) (x := .ret out) (by simp [runLoop, hd])
    rw [this k] at hk; cases hk
  | false =>
    obtain ⟨r, hr', hs'⟩ := solve_nan (dt := clipDt t0 t1 (clipDt t0 t1 dt)) hla (t := t0) (y := y0) hf (hre no hno') hc no.dxDelta no.tol
      no.maxit (irkInit ((irkCoeffs m : SolverCoeffs FP).ns * n) t0 y0 (clipDt t0 t1 dt) no.maxit).sol.bump.count
      (irkInit ((irkCoeffs m : SolverCoeffs FP).ns * n) t0 y0 (clipDt t0 t1 dt) no.maxit).sol.log
    have hbody := body_fixed (d := dWeights Ai fun i => (irkCoeffs m : SolverCoeffs FP).bw i)
      (d2 := dWeights Ai fun i => (irkCoeffs m : SolverCoeffs FP).bw2 i) (mo := mo) (oo := oo)
      (s := irkInit _ t0 y0 (clipDt t0 t1 dt) no.maxit) had hlt
      (by rintro ⟨h1, h2⟩; simp only [irkInit] at h2; omega) hr' hs'
    have : s = irkInit _ t0 y0 (clipDt t0 t1 dt) no.maxit :=
      Reach.inv (Inv := fun a => a = irkInit _ t0 y0 (clipDt t0 t1 dt) no.maxit) hr rfl
        (fun a b ha hb => by rw [ha, hbody] at hb; cases hb)
    subst this
    rw [hbody] at hd
    cases hd
    exact ⟨rfl, rfl, rfl⟩

/-- **C110, full claim**: if the right-hand side cannot be evaluated at the initial point, `irk::odeint` (with assertions)
ends, and not with SUCCESS. -/
def C110_claim : Prop := ∀ (_ : Libm) (n : ℕ) (la : LinAlg FP) (_ : NanLinAlg la) (fn : OdeFun FP n) (m : ℤ) (_ : m ∈ irkImplemented)
  (t0 t1 dt : FP) (y0 : Vec FP n) (o : IrkOpts FP) (oo : OutOpts), StagesNan fn.fn (irkCoeffs m) t0 y0 → ltb t0 t1 = true →
  (∀ no, o.newtonOpts = some no → no.refreshJac ≠ 0) →
  ∃ fuel r, irkOdeint false la fn t0 t1 y0 o oo m dt fuel = some r ∧ ∀ out, r = .ret out → out.status ≠ 0

/-- **C110, whole runs.**  `irk::odeint` with adaptive stepping, called for an implemented method with embedded weights at a point
where the stages cannot be evaluated, never returns: for every positive step size, all tolerances and every `max_steps`. -/
theorem C110_hangs {m : ℤ} (hm : m ∈ irkImplemented) (hla : NanLinAlg la) (had : o.adaptive = true) (hno : o.newtonOpts = some no)
    (hre : no.refreshJac ≠ 0) (hb2 : (irkCoeffs m : SolverCoeffs FP).b2.length = (irkCoeffs m : SolverCoeffs FP).ns)
    (hmo : minOrder (irkCoeffs m : SolverCoeffs FP) = some mo) {Ai} (hAi : la.inv (irkCoeffs m : SolverCoeffs FP).mat = some Ai)
    (hdt : ltb (lit 0) (clipDt t0 t1 dt) = true) (hf : StagesNan fn.fn (irkCoeffs m) t0 y0) (hlt : ltb t0 t1 = true) (fuel : ℕ) :
    irkOdeint false la fn t0 t1 y0 o oo m dt fuel = none := by
  have hv : irkVerify (irkCoeffs m : SolverCoeffs FP) = true := (C08_irk m).mpr hm
  have hshape : (irkCoeffs m : SolverCoeffs FP).c.length = (irkCoeffs m : SolverCoeffs FP).ns ∧
      (irkCoeffs m : SolverCoeffs FP).nRows = (irkCoeffs m : SolverCoeffs FP).ns ∧
      (irkCoeffs m : SolverCoeffs FP).nCols = (irkCoeffs m : SolverCoeffs FP).ns ∧ (irkCoeffs m : SolverCoeffs FP).ns ≠ 0 := by
    have h := hv
    unfold irkVerify at h
    simp only at h
    split_ifs at h with h1 h2
    push Not at h1
    exact ⟨h1.1.symm, h1.2.1.symm, h1.2.2.symm, h2⟩
  have hb : ((irkCoeffs m : SolverCoeffs FP).b2.length == 0) = false := by simpa [hb2] using hshape.2.2.2
  unfold irkOdeint
  simp only [hv, Bool.not_true, Bool.and_false, Bool.false_eq_true, if_false, hb]
  unfold irkGuts
  simp only [hno, hdt, Bool.not_true, Bool.and_false, Bool.false_eq_true, if_false, hmo, hshape.2.1, hshape.2.2.1, ne_eq, not_true_eq_false,
    or_self, hAi, hb2]
  exact (C110_never_returns hla had hre hshape.1 _ _ hf hlt (by rintro ⟨h1, h2⟩; simp only [irkInit] at h2; omega)).1 fuel

end

/-- linear algebra that copies its right-hand sides -/
def laCopy : LinAlg FP :=
  { solve := fun _ v => some v, inv := fun M => some M, lu := fun M => some (M, M, M), solveL := fun _ v => some v
    solveU := fun _ v => some v }

theorem laCopy_nan : NanLinAlg laCopy :=
  ⟨fun _ => ⟨_, rfl⟩, fun _ v k h => ⟨v, rfl, k, h⟩, fun _ v k h => ⟨v, rfl, k, h⟩⟩

/-- a right-hand side that is never a number -/
def noRhs : OdeFun FP 1 := ⟨fun _ _ _ => nan, fun _ _ _ _ => fin 0⟩

/-- default options with `max_steps = 10` -/
def tenSteps [Libm] : IrkOpts FP := { IrkOpts.dflt with adaptive := true, maxSteps := 10, newtonOpts := some NewtonOpts.dflt }

theorem b2_211 [Libm] : (irkCoeffs 211 : SolverCoeffs FP).b2.length = (irkCoeffs 211 : SolverCoeffs FP).ns := by
  simp [irkCoeffs, radauIIA53, SolverCoeffs.ns]

theorem mo_211 [Libm] : minOrder (irkCoeffs 211 : SolverCoeffs FP) = some 3 := by
  simp [irkCoeffs, radauIIA53, minOrder]

/-- `C110_hangs`: RADAU_IIA_53, `max_steps = 10`, a right-hand side that is NaN -/
theorem noRhs_hangs (fuel : ℕ) : letI := powOne
    irkOdeint false laCopy noRhs (fin 0) (fin 1) (fun _ => fin 0) tenSteps OutOpts.dflt 211 (fin (1 / 1024)) fuel = none := by
  let := powOne
  refine C110_hangs (mo := 3) (no := NewtonOpts.dflt) (by decide) laCopy_nan rfl rfl (by decide) b2_211 mo_211 (Ai := (irkCoeffs 211 : SolverCoeffs FP).mat) rfl
    (by decide +kernel) ?_ (by decide +kernel) fuel
  exact fun _ _ => ⟨⟨0, by decide⟩, 0, rfl⟩

theorem C110_refuted : ¬ C110_claim := by
  intro h
  obtain ⟨fuel, r, hr, -⟩ := h powOne 1 laCopy laCopy_nan noRhs 211 (by decide) (fin 0) (fin 1) (fin (1 / 1024)) (fun _ => fin 0)
    (letI := powOne; tenSteps) OutOpts.dflt (let := powOne; fun _ _ => ⟨⟨0, by decide⟩, 0, rfl⟩) (by let := powOne; decide +kernel)
    (by let := powOne; intro no hno; have := Option.some.inj hno; subst this; decide)
  rw [noRhs_hangs fuel] at hr
  cases hr

/-- `C110_never_returns`, `StagesNan`: a state with a NaN component and a right-hand side that passes it on, any method with stages -/
example [Libm] (sc : SolverCoeffs FP) (h : 0 < sc.ns) (t : FP) : StagesNan (fun _ y => y) sc t (fun _ : Fin 1 => nan) :=
  fun _ _ => ⟨⟨0, h⟩, 0, rfl⟩

/-- `C110_no_success_partial`: the same right-hand side with a fixed step size; the run returns `GENERAL_ERROR` -/
example : letI := powOne
    ∃ out, irkOdeint false laCopy noRhs (fin 0) (fin 1) (fun _ => fin 0) { tenSteps with adaptive := false } OutOpts.dflt 211 (fin (1 / 1024)) 1 =
      some (.ret out) ∧ out.status = 4 := by
  let := powOne
  have h : (match irkOdeint false laCopy noRhs (fin 0) (fin 1) (fun _ => fin 0) { tenSteps with adaptive := false } OutOpts.dflt 211 (fin (1 / 1024)) 1 with
    | some (.ret _) => true
    | _ => false) = true := by decide +kernel
  split at h
  case h_1 out hout =>
    refine ⟨out, hout, (C110_no_success_partial (m := 211) laCopy_nan ?_ ?_ (by decide +kernel) hout).1⟩
    · intro no hno; have := Option.some.inj hno; subst this; decide
    · exact fun _ _ => ⟨⟨0, by decide⟩, 0, rfl⟩
  case h_2 => cases h

end Verif
