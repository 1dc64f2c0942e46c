import Verif.IrkReal
import Verif.Prop.Irk

/-!
# Properties C37, C38, C40, C44, C17, C18, C21, C25 of the implicit integrator in exact arithmetic
-/

set_option linter.unusedSectionVars false

namespace Verif
open Spec

variable {n : ℕ} {nd : Bool} {la : LinAlg ℝ} {fn : OdeFun ℝ n} {t0 t1 : ℝ} {y0 : Vec ℝ n} {o : IrkOpts ℝ}
  {no : NewtonOpts ℝ} {dt : ℝ} {sc : SolverCoeffs ℝ} {oo : OutOpts} {fuel : ℕ} {out : IrkOutput ℝ (sc.ns * n) n}

theorem validI_of_ret (h : irkGuts nd la fn t0 t1 y0 o dt sc oo fuel = some (.ret out))
    (hpos : nd = false ∨ (0 < dt ∧ t0 < t1)) : 0 < clipDt t0 t1 dt ∧ t0 < t1 := by
  rcases hpos with hnd | ⟨h1, h2⟩
  · obtain ⟨no, mo, Ai, s, -, -, -, -, hdt, -⟩ := irkGuts_ret h
    rcases hdt with h1 | h1
    · rw [hnd] at h1; cases h1
    · have h2 : (0 : ℝ) < clipDt t0 t1 dt := by simpa using h1
      refine ⟨h2, ?_⟩
      rw [clipDt_real, lt_min_iff] at h2
      linarith [h2.2]
  · refine ⟨?_, h2⟩
    rw [clipDt_real]; exact lt_min h1 (by linarith)

/-- the accepted samples of a run in exact arithmetic -/
theorem irk_accs_real {Rel : SampleI ℝ n → SampleI ℝ n → Prop} {J : IrkState ℝ (sc.ns * n) n → Prop}
    (h : irkGuts nd la fn t0 t1 y0 o dt sc oo fuel = some (.ret out))
    (hpos : nd = false ∨ (0 < dt ∧ t0 < t1))
    (hJ0 : ∀ no, o.newtonOpts = some no → J (irkInit (sc.ns * n) t0 y0 (clipDt t0 t1 dt) no.maxit))
    (hJ : ∀ no mo Ai s s', TimeInvI t0 t1 s → J s → la.inv sc.mat = some Ai →
      irkBody nd la fn t1 o no oo sc mo (dWeights Ai fun i => sc.bw i) (dWeights Ai fun i => sc.bw2 i) s = .next s' →
      J s')
    (hacc : ∀ no mo Ai s r a l, o.newtonOpts = some no → la.inv sc.mat = some Ai → TimeInvI t0 t1 s →
      J s → s.t < t1 → solveAt nd la fn t1 no sc s = .ret r → r.status = 0 →
      attemptI la fn o sc mo (dWeights Ai fun i => sc.bw i) (dWeights Ai fun i => sc.bw2 i) s (clipDt s.t t1 s.dt)
        r.success = some a → a.reject = false →
      l.t = s.t → l.y = s.y → Rel l (newSampleI s a)) :
    ∃ s acc, TimeInvI t0 t1 s ∧ J s ∧ AccInv Rel t0 y0 oo s acc ∧ RunView oo acc out ∧ (out.status = 0 → s.t = t1) := by
  obtain ⟨hc, h01⟩ := validI_of_ret h hpos
  obtain ⟨no, mo, Ai, s, acc, -, -, -, -, -, ⟨hT, hj⟩, hinv, hv, he⟩ :=
    irk_accs (Rel := Rel) (J := fun s => TimeInvI t0 t1 s ∧ J s) h
      (fun no hno _ => ⟨timeInvI_init h01.le hc _, hJ0 no hno⟩)
      (fun no mo Ai s s' h1 h2 h3 hs hb => ⟨timeInvI_next hs.1 hb, hJ no mo Ai s s' hs.1 hs.2 h3 hb⟩)
      (fun no mo Ai s r a l h1 h2 h3 hs hlt _ hr hst _ ha _ hj e1 e2 =>
        hacc no mo Ai s r a l h1 h3 hs.1 hs.2 (by simpa using hlt) hr hst ha hj e1 e2)
  refine ⟨s, acc, hT, hj, hinv, hv, fun h0 => le_antisymm hT.hi ?_⟩
  simpa using he h0

/-- **C38 (times).**  Recorded times strictly increase from `t0` within `[t0, t1]`; with `output_interval = 1`, storing
on and SUCCESS the last recorded time is `t1`. -/
theorem C38_times (h : irkGuts nd la fn t0 t1 y0 o dt sc oo fuel = some (.ret out))
    (hpos : nd = false ∨ (0 < dt ∧ t0 < t1)) :
    out.tVals.Pairwise (· < ·) ∧ (∀ t ∈ out.tVals, t0 ≤ t ∧ t ≤ t1) ∧ out.tVals.head? = some t0 ∧
    (out.status = 0 → oo.storeInVectors = true → oo.interval.toNat = 1 → out.tVals.getLast? = some t1) := by
  obtain ⟨s, acc, hT, -, hinv, hv, he⟩ := irk_accs_real (Rel := fun a b => a.t < b.t) (J := fun _ => True) h hpos
    (by simp) (by simp)
    (fun no mo Ai s r a l _ _ hT _ hlt hr hs ha hj e1 e2 => by
      obtain ⟨q1, -⟩ := attemptI_spec ha
      simp only [newSampleI, q1, e1]
      linarith [(clip_factsI hT hlt).1])
  have hpw : (acc.map (·.t)).Pairwise (· < ·) := by
    rw [List.pairwise_map]
    exact (List.isChain_iff_pairwise (R := fun a b : SampleI ℝ n => a.t < b.t)).mp hinv.chain
  obtain ⟨l, hl, hlt, -⟩ := hinv.last
  have hlast : (acc.map (·.t)).getLast? = some s.t := by rw [List.getLast?_map, hl, Option.map_some, hlt]
  have hhead : (acc.map (·.t)).head? = some t0 := by rw [List.head?_map, hinv.head]; rfl
  have hbd : ∀ t ∈ acc.map (·.t), t0 ≤ t ∧ t ≤ t1 := by
    intro t ht
    constructor
    · cases hv' : acc.map (·.t) with
      | nil => rw [hv'] at ht; cases ht
      | cons a l =>
        rw [hv'] at ht hhead hpw
        simp only [List.head?_cons, Option.some.injEq] at hhead
        subst hhead
        rcases List.mem_cons.mp ht with rfl | ht
        · exact le_refl _
        · exact (List.rel_of_pairwise_cons hpw ht).le
    · obtain ⟨l', hl'⟩ := List.getLast?_eq_some_iff.mp hlast
      rw [hl'] at ht hpw
      rcases List.mem_append.mp ht with ht | ht
      · have := (List.pairwise_append.mp hpw).2.2 t ht s.t (by simp)
        linarith [hT.hi]
      · rw [List.mem_singleton] at ht; rw [ht]; exact hT.hi
  have hsub : out.tVals.Sublist (acc.map (·.t)) := by
    rw [hv.cols.t]
    apply List.Sublist.map
    unfold storedI
    split_ifs
    · exact everyNth_sublist _ _
    · exact List.take_sublist _ _
  refine ⟨hpw.sublist hsub, fun t ht => hbd t (hsub.subset ht), (C38_lengths h).2.2.2.2.1, ?_⟩
  intro h0 h1 h2
  rw [hv.cols.t, storedI, if_pos h1, h2, everyNth_one, hlast, he h0]

/-- **C40 (exact arithmetic).**  Every recorded error after the first is at most 1 and, for consecutive accepted
samples, equals the weighted RMS norm of the recorded estimate, cut off at `1e-17`. -/
theorem C40_tolerance (h : irkGuts nd la fn t0 t1 y0 o dt sc oo fuel = some (.ret out)) :
    (∀ e ∈ out.err.tail, e ≤ 1) ∧
    (oo.storeInVectors = true → oo.interval.toNat = 1 →
      ∀ i y y' ee e, out.yVals[i]? = some y → out.yVals[i + 1]? = some y' → out.errEst[i + 1]? = some ee →
        out.err[i + 1]? = some e → e = max (wrms o.absTol o.relTol y y' ee) (1 / 10 ^ 17)) := by
  constructor
  · intro e he
    have := C40_accepted h e he
    simpa using this
  · intro h1 h2 i y y' ee e hy hy' hee he
    obtain ⟨no, Ai, -, -, acc, hh, hch, -, ⟨rec, hrec, -, q2, q3, q4, -⟩, -⟩ := C38_records h
    rw [if_pos h1, h2, everyNth_one] at hrec
    subst hrec
    rw [q2, List.getElem?_map, Option.map_eq_some_iff] at hy hy'
    rw [q3, List.getElem?_map, Option.map_eq_some_iff] at hee
    rw [q4, List.getElem?_map, Option.map_eq_some_iff] at he
    obtain ⟨a, ha, rfl⟩ := hy
    obtain ⟨b, hb, rfl⟩ := hy'
    obtain ⟨b2, hb2, rfl⟩ := hee
    obtain ⟨b3, hb3, rfl⟩ := he
    rw [hb] at hb2 hb3
    cases hb2; cases hb3
    obtain ⟨hi, rfl⟩ := List.getElem?_eq_some_iff.mp ha
    obtain ⟨hi', rfl⟩ := List.getElem?_eq_some_iff.mp hb
    obtain ⟨_, _, _, _, _, -, -, -, -, r5, -⟩ := List.isChain_iff_getElem.mp hch i hi'
    rw [r5, errNorm_wrms]
    simp only [IrkOpts.toErk, machinePrecision, lit_real]
    norm_num

/-- **C37.**  Algebra of the update: for any stage vector `Y` the new value is the Runge–Kutta combination of the
right-hand side at the stages plus the stage residual weighted with `d = inv(A)ᵀ b`, where `d` is characterised by
`dᵀ A = bᵀ`; if the residual vanishes it is a Runge–Kutta step. -/
theorem C37_update (hla : la.Exact) {Ai : Mat ℝ sc.ns} (hA : la.inv sc.mat = some Ai)
    (f : ℝ → Vec ℝ n → Vec ℝ n) (t h : ℝ) (y : Vec ℝ n) (Y : Vec ℝ (sc.ns * n)) :
    ∃ d : Fin sc.ns → ℝ, (∀ j : Fin sc.ns, ∑ i : Fin sc.ns, d i * sc.a i j = sc.bw j) ∧
      ∀ k1 : Fin sc.ns → Vec ℝ n, ∀ R : Fin sc.ns → Vec ℝ n,
        (∀ j, k1 j = f (t + sc.cn j * h) (y + fun l => Y (finProdFinEquiv (j, l)))) →
        (∀ i, R i = (fun l => Y (finProdFinEquiv (i, l))) - h • ∑ j : Fin sc.ns, sc.a i j • k1 j) →
        (fun k => y k + combineI sc Y (dWeights Ai fun i => sc.bw i) k) =
          y + h • ∑ j : Fin sc.ns, sc.bw j • k1 j + ∑ i, d i • R i ∧
        ((∀ i, R i = 0) → IsRKStep (fun i j => sc.a i j) (fun i => sc.bw i) (fun i => sc.cn i) f t h y
          (fun k => y k + combineI sc Y (dWeights Ai fun i => sc.bw i) k) k1) := by
  refine ⟨dWeights Ai fun i => sc.bw i, fun j => dWeights_A hla hA _ j, ?_⟩
  intro k1 R hk hR
  have hval : (fun k => y k + combineI sc Y (dWeights Ai fun i => sc.bw i) k) =
      y + h • ∑ j : Fin sc.ns, sc.bw j • k1 j + ∑ i, (dWeights Ai fun i => sc.bw i) i • R i := by
    funext k
    rw [combine_update hla hA _ f t h y Y k]
    simp only [Pi.add_apply, Pi.smul_apply, Finset.sum_apply, smul_eq_mul, hR, Pi.sub_apply, constructR_real, hk]
    ring
  refine ⟨hval, fun h0 => ⟨?_, ?_⟩⟩
  · intro i
    have h1 := h0 i
    rw [hR i, sub_eq_zero] at h1
    rw [hk i, ← h1]
  · rw [hval]
    simp [h0]

/-- what is left of exactness for singular systems: a returned vector solves the triangular system -/
structure LinAlg.Sound (la : LinAlg ℝ) : Prop where
  solveL : ∀ {n : ℕ} (L : Mat ℝ n) (v x : Vec ℝ n), (∀ i j, i < j → L i j = 0) → la.solveL L v = some x →
    (Matrix.of L).mulVec x = v
  solveU : ∀ {n : ℕ} (U : Mat ℝ n) (v x : Vec ℝ n), (∀ i j, j < i → U i j = 0) → la.solveU U v = some x →
    (Matrix.of U).mulVec x = v

theorem laReal_sound : laReal.Sound := by
  constructor
  · intro n L v x _ h
    simp only [laReal] at h
    split_ifs at h with hu
    simp only [Option.some.injEq] at h
    rw [← h, Matrix.mulVec_mulVec, Matrix.mul_nonsing_inv _ hu, Matrix.one_mulVec]
  · intro n L v x _ h
    simp only [laReal] at h
    split_ifs at h with hu
    simp only [Option.some.injEq] at h
    rw [← h, Matrix.mulVec_mulVec, Matrix.mul_nonsing_inv _ hu, Matrix.one_mulVec]

/-- the increment solves the Newton equation -/
theorem stageDir_newton (hla : la.Exact) (hs : la.Sound) {m : ℕ} {M : Mat ℝ m} {R dY : Vec ℝ m}
    (h : stageDir la (la.lu M) R = .ret dY) : (Matrix.of M).mulVec dY = -R := by
  unfold stageDir at h
  split at h
  · cases h
  · rename_i L U P hl
    obtain ⟨e1, e2, e3, e4, e5⟩ := hla.lu _ _ _ _ hl
    split at h
    · cases h
    · rename_i x hx
      split at h
      · cases h
      · rename_i z hz
        simp only [Outcome.ret.injEq] at h
        subst h
        have f1 := hs.solveL _ _ _ (fun i j hij => by rw [e3 i j hij, neg_zero]) hx
        have f2 := hs.solveU _ _ _ e5 hz
        have f3 : (Matrix.of L).mulVec x = -(mulVec P R) := by
          have : Matrix.of (fun i j => - L i j) = - Matrix.of L := rfl
          rw [this, Matrix.neg_mulVec] at f1
          rw [← f1, neg_neg]
        rw [← e1, ← Matrix.mulVec_mulVec, f2, ← Matrix.mulVec_mulVec, f3, mulVec_real, Matrix.mulVec_neg,
          Matrix.mulVec_mulVec, e2, Matrix.one_mulVec]

/-- **C36 (increments).**  With exact linear algebra every increment solves the Newton equation
`(I - dt A⊗J(t,y)) ΔY = -R(Y)` of the stage equations. -/
theorem C36_newton_equation (hla : la.Exact) (hs : la.Sound) {m : ℕ} {t h : ℝ} {y : Vec ℝ n} {refresh : ℤ}
    {xtol Rtol : ℝ} {i : ℕ} {Y0 : Vec ℝ (sc.ns * n)} {count : IrkCounters} {log : CallLog ℝ n} {k : ℕ}
    {r : StageResult ℝ (sc.ns * n) n} {Ys dYs : ℕ → Vec ℝ (sc.ns * n)}
    (H : StageRun nd la fn sc t h y refresh xtol Rtol i Y0 count log k r m Ys dYs) {j : ℕ} (hj : j < m)
    (p : Fin sc.ns) (q : Fin n) :
    dYs j (finProdFinEquiv (p, q)) - h * ∑ u : Fin sc.ns, sc.a p u * ∑ l, fn.jac t y q l * dYs j (finProdFinEquiv (u, l))
      = - constructR fn.fn sc t h y (Ys j) (finProdFinEquiv (p, q)) := by
  have hd := H.dir j hj
  cases nd with
  | true => simp [stageLup, stageDir] at hd
  | false =>
    simp only [stageLup, Bool.false_eq_true, if_false] at hd
    have := congrFun (stageDir_newton hla hs hd) (finProdFinEquiv (p, q))
    rw [Pi.neg_apply] at this
    rw [← this]
    have hM : Matrix.of (stageJac sc h (fn.jac t y)) = 1 - Matrix.of (fun p q => h * kron sc.mat (fn.jac t y) p q) := by
      ext a b
      simp [stageJac, eye_real]
    rw [hM, Matrix.sub_mulVec, Matrix.one_mulVec, Pi.sub_apply, ← mulVec_real, kron_mulVec]
    rfl

/-- the stage residual of the stage values `Y` -/
noncomputable def stageResidual (f : ℝ → Vec ℝ n → Vec ℝ n) (sc : SolverCoeffs ℝ) (t h : ℝ) (y : Vec ℝ n)
    (Y : Fin sc.ns → Vec ℝ n) (i : Fin sc.ns) : Vec ℝ n :=
  Y i - h • ∑ j : Fin sc.ns, sc.a i j • f (t + sc.cn j * h) (y + Y j)

/-- Consecutive accepted samples: the Runge–Kutta formula up to the weighted residual of the stage values `Y` (weights
`d` with `dᵀ A = bᵀ`).  Either the residual is smaller than `tol`, or `Y` was reached by a Newton increment smaller than
`dx_delta`. -/
def ResidualStepAt (fn : OdeFun ℝ n) (no : NewtonOpts ℝ) (sc : SolverCoeffs ℝ) (a b : SampleI ℝ n) (d : Fin sc.ns → ℝ)
    (Y : Fin sc.ns → Vec ℝ n) : Prop :=
  (∀ j : Fin sc.ns, ∑ i : Fin sc.ns, d i * sc.a i j = sc.bw j) ∧
    b.y = a.y + (b.t - a.t) • ∑ j : Fin sc.ns, sc.bw j • fn.fn (a.t + sc.cn j * (b.t - a.t)) (a.y + Y j) +
      ∑ i, d i • stageResidual fn.fn sc a.t (b.t - a.t) a.y Y i ∧
    ((∀ i, stageResidual fn.fn sc a.t (b.t - a.t) a.y Y i = 0) →
      IsRKStep (fun i j => sc.a i j) (fun i => sc.bw i) (fun i => sc.cn i) fn.fn a.t (b.t - a.t) a.y b.y
        (fun j => fn.fn (a.t + sc.cn j * (b.t - a.t)) (a.y + Y j))) ∧
    (∑ i, ∑ k, (stageResidual fn.fn sc a.t (b.t - a.t) a.y Y i k) ^ 2 < no.tol ^ 2 ∨
      ∃ dY : Fin sc.ns → Vec ℝ n, ∑ i, ∑ k, (dY i k) ^ 2 < no.dxDelta ^ 2 ∧
        ∀ p : Fin sc.ns, dY p - (b.t - a.t) • ∑ u : Fin sc.ns, sc.a p u • (Matrix.of (fn.jac a.t a.y)).mulVec (dY u) =
          - stageResidual fn.fn sc a.t (b.t - a.t) a.y (Y - dY) p)

/-- … for some stage values -/
def ResidualStep (fn : OdeFun ℝ n) (no : NewtonOpts ℝ) (sc : SolverCoeffs ℝ) (a b : SampleI ℝ n) : Prop :=
  ∃ (d : Fin sc.ns → ℝ) (Y : Fin sc.ns → Vec ℝ n), ResidualStepAt fn no sc a b d Y

theorem constructR_eq (f : ℝ → Vec ℝ n → Vec ℝ n) (t h : ℝ) (y : Vec ℝ n) (Y : Vec ℝ (sc.ns * n)) (i : Fin sc.ns)
    (k : Fin n) : constructR f sc t h y Y (finProdFinEquiv (i, k)) =
      stageResidual f sc t h y (fun j l => Y (finProdFinEquiv (j, l))) i k := by
  rw [constructR_real]
  simp [stageResidual, Finset.sum_apply]

theorem dot_stage (v : Vec ℝ (sc.ns * n)) : dot v v = ∑ i, ∑ k, (v (finProdFinEquiv (i, k))) ^ 2 := by
  rw [dot_real, sum_stage]
  simp only [sq]

/-- the step made from a successful stage solve -/
theorem residualStepAt_of (hla : la.Exact) (hs : la.Sound) {Ai : Mat ℝ sc.ns} (hA : la.inv sc.mat = some Ai)
    {no : NewtonOpts ℝ} {a b : SampleI ℝ n} {hh : ℝ} {mx : ℤ} {cn : IrkCounters} {lg : CallLog ℝ n}
    {r : StageResult ℝ (sc.ns * n) n}
    (hr : newtonSolveStages nd la fn sc a.t hh a.y mx no.refreshJac no.dxDelta no.tol cn lg = .ret r) (hst : r.status = 0)
    (e3 : b.t = a.t + hh) (hy : b.y = fun k => a.y k + combineI sc r.Y (dWeights Ai fun i => sc.bw i) k) :
    ∃ d, ResidualStepAt fn no sc a b d fun j l => r.Y (finProdFinEquiv (j, l)) := by
  obtain ⟨d, hd, H⟩ := C37_update hla hA fn.fn a.t hh a.y r.Y
  obtain ⟨H1, H2⟩ := H (fun j => fn.fn (a.t + sc.cn j * hh) (a.y + fun l => r.Y (finProdFinEquiv (j, l))))
    (fun i => stageResidual fn.fn sc a.t hh a.y (fun j l => r.Y (finProdFinEquiv (j, l))) i)
    (fun _ => rfl) (fun _ => rfl)
  have hsub : b.t - a.t = hh := by rw [e3]; ring
  rw [← hy] at H1 H2
  refine ⟨d, hd, ?_, ?_, ?_⟩
  · rw [hsub]; exact H1
  · rw [hsub]; exact H2
  · rw [hsub]
    obtain ⟨-, m, Ys, dYs, S⟩ := stage_run hr
    rcases S.stop with ⟨-, s2, -, s4, -⟩ | ⟨s1, -⟩
    · rcases s4 with s4 | s4
      · left
        rw [ltb_real, dot_stage] at s4
        rw [S.final, sq no.tol]
        simpa only [constructR_eq] using s4
      · right
        rw [ltb_real, dot_stage] at s4
        refine ⟨fun i k => dYs (m - 1) (finProdFinEquiv (i, k)), by rw [sq no.dxDelta]; exact s4, ?_⟩
        intro p
        funext q
        have e := C36_newton_equation hla hs S (j := m - 1) (by omega) p q
        rw [constructR_eq] at e
        have hprev : (fun j l => Ys (m - 1) (finProdFinEquiv (j, l)) : Fin sc.ns → Vec ℝ n) =
            (fun j l => r.Y (finProdFinEquiv (j, l))) - fun i k => dYs (m - 1) (finProdFinEquiv (i, k)) := by
          funext j l
          have := congrFun (S.upd (m - 1) (by omega)) (finProdFinEquiv (j, l))
          rw [show m - 1 + 1 = m by omega] at this
          rw [Pi.sub_apply, Pi.sub_apply, S.final, this]
          simp
        rw [hprev] at e
        rw [Pi.neg_apply, ← e]
        simp [Finset.sum_apply, Matrix.mulVec, dotProduct]
    · omega

/-- **C37 (runs).**  Every accepted step of a returned run is a Runge–Kutta step up to the weighted residual of stage
values that satisfy the stopping test. -/
theorem C37_run (hla : la.Exact) (hs : la.Sound) (h : irkGuts nd la fn t0 t1 y0 o dt sc oo fuel = some (.ret out)) :
    ∃ no, o.newtonOpts = some no ∧
    ∃ acc : List (SampleI ℝ n), acc.head? = some ⟨t0, y0, 0, 0⟩ ∧
      acc.length = out.count.newtonSuccess - out.count.rejectErr + 1 ∧
      out.yVals = (if oo.storeInVectors then everyNth oo.interval.toNat acc else acc.take 1).map (·.y) ∧
      out.tVals = (if oo.storeInVectors then everyNth oo.interval.toNat acc else acc.take 1).map (·.t) ∧
      acc.IsChain (ResidualStep fn no sc) := by
  obtain ⟨no, Ai, hno, hA, acc, hh, hch, hlen, ⟨rec, hrec, q1, q2, -⟩, -⟩ := C38_records h
  refine ⟨no, hno, acc, ?_, hlen, by rw [← hrec]; exact q2, by rw [← hrec]; exact q1, ?_⟩
  · rw [hh]
    simp only [lit_real, Rat.cast_zero]
    rfl
  · refine hch.imp ?_
    rintro a b ⟨hh, mx, cn, lg, r, hr, hst, e3, e4, -⟩
    obtain ⟨d, hd⟩ := residualStepAt_of hla hs hA (b := b) hr hst e3 (by rw [e4]; rfl)
    exact ⟨d, _, hd⟩

/-- the stages of every iterate are orthogonal to an invariant direction -/
theorem stages_orth (hla : la.Exact) (hs : la.Sound) {w : Fin n → ℝ}
    (hf : ∀ t y, ∑ k, w k * fn.fn t y k = 0) (hJ : ∀ t y l, ∑ k, w k * fn.jac t y k l = 0)
    {t h : ℝ} {y : Vec ℝ n} {maxit refresh : ℤ} {xtol Rtol : ℝ} {count : IrkCounters} {log : CallLog ℝ n}
    {r : StageResult ℝ (sc.ns * n) n}
    (hr : newtonSolveStages nd la fn sc t h y maxit refresh xtol Rtol count log = .ret r) (i : Fin sc.ns) :
    ∑ k, w k * r.Y (finProdFinEquiv (i, k)) = 0 := by
  obtain ⟨-, m, Ys, dYs, H⟩ := stage_run hr
  have hAll : ∀ j ≤ m, ∀ i : Fin sc.ns, ∑ k, w k * Ys j (finProdFinEquiv (i, k)) = 0 := by
    intro j
    induction j with
    | zero =>
      intro _ i
      rw [H.start]
      simp
    | succ j ih =>
      intro hj i
      have hY := ih (by omega)
      have hdY : ∑ k, w k * dYs j (finProdFinEquiv (i, k)) = 0 := by
        have e : ∀ q, dYs j (finProdFinEquiv (i, q)) = h * ∑ u : Fin sc.ns, sc.a i u *
            ∑ l, fn.jac t y q l * dYs j (finProdFinEquiv (u, l)) -
            constructR fn.fn sc t h y (Ys j) (finProdFinEquiv (i, q)) := by
          intro q
          have := C36_newton_equation hla hs H (by omega : j < m) i q
          linarith
        simp only [e, mul_sub, Finset.sum_sub_distrib]
        have e1 : ∑ q, w q * (h * ∑ u : Fin sc.ns, sc.a i u *
            ∑ l, fn.jac t y q l * dYs j (finProdFinEquiv (u, l))) = 0 := by
          have : ∀ q, w q * (h * ∑ u : Fin sc.ns, sc.a i u * ∑ l, fn.jac t y q l * dYs j (finProdFinEquiv (u, l))) =
              ∑ u : Fin sc.ns, ∑ l, h * sc.a i u * dYs j (finProdFinEquiv (u, l)) * (w q * fn.jac t y q l) := by
            intro q
            rw [Finset.mul_sum, Finset.mul_sum]
            refine Finset.sum_congr rfl fun u _ => ?_
            rw [Finset.mul_sum, Finset.mul_sum, Finset.mul_sum]
            exact Finset.sum_congr rfl fun l _ => by ring
          simp only [this]
          rw [Finset.sum_comm]
          refine Finset.sum_eq_zero fun u _ => ?_
          rw [Finset.sum_comm]
          refine Finset.sum_eq_zero fun l _ => ?_
          rw [← Finset.mul_sum, hJ, mul_zero]
        have e2 : ∑ q, w q * constructR fn.fn sc t h y (Ys j) (finProdFinEquiv (i, q)) = 0 := by
          simp only [constructR_real, mul_sub, Finset.sum_sub_distrib, hY, zero_sub, neg_eq_zero]
          have : ∀ q, w q * (h * ∑ u : Fin sc.ns, sc.a i u *
              fn.fn (t + sc.cn u * h) (y + fun l => Ys j (finProdFinEquiv (u, l))) q) =
              ∑ u : Fin sc.ns, h * sc.a i u *
                (w q * fn.fn (t + sc.cn u * h) (y + fun l => Ys j (finProdFinEquiv (u, l))) q) := by
            intro q
            rw [Finset.mul_sum, Finset.mul_sum]
            exact Finset.sum_congr rfl fun u _ => by ring
          simp only [this]
          rw [Finset.sum_comm]
          refine Finset.sum_eq_zero fun u _ => ?_
          rw [← Finset.mul_sum, hf, mul_zero]
        rw [e1, e2, sub_zero]
      rw [H.upd j (by omega)]
      simp only [lit_real, Rat.cast_one, one_mul, mul_add, Finset.sum_add_distrib]
      rw [hY i, hdY, add_zero]
  rw [H.final]
  exact hAll m (le_refl _) i

/-- **C44.**  Linear invariants: if `w·f = 0` and `w·J = 0` identically, `w·y` has its initial value in every recorded
sample and in every line written, whatever tolerances and iteration limits are. -/
theorem C44_linear (hla : la.Exact) (hs : la.Sound) {w : Fin n → ℝ}
    (hf : ∀ t y, ∑ k, w k * fn.fn t y k = 0) (hJ : ∀ t y l, ∑ k, w k * fn.jac t y k l = 0)
    (h : irkGuts nd la fn t0 t1 y0 o dt sc oo fuel = some (.ret out)) :
    (∀ y ∈ out.yVals, ∑ k, w k * y k = ∑ k, w k * y0 k) ∧
      ∀ p ∈ out.file, ∑ k, w k * p.2 k = ∑ k, w k * y0 k := by
  obtain ⟨no, Ai, -, hA, acc, hh, hch, -, ⟨rec, hrec, -, q2, -⟩, -, -, hfile⟩ := C38_records h
  have hstep : ∀ a b, IrkStep nd la fn o no sc Ai a b → ∑ k, w k * b.y k = ∑ k, w k * a.y k := by
    rintro a b ⟨hh, _, _, _, r, hr, -, -, e4, -⟩
    rw [e4]
    simp only [sumFin_real, mul_add, Finset.sum_add_distrib, add_eq_left, Finset.mul_sum]
    rw [Finset.sum_comm]
    refine Finset.sum_eq_zero fun i _ => ?_
    rw [Finset.sum_comm]
    refine Finset.sum_eq_zero fun j _ => ?_
    have := stages_orth hla hs hf hJ hr i
    calc ∑ k, w k * (r.Y (finProdFinEquiv (i, k)) * (Ai j i * sc.bw j))
        = (∑ k, w k * r.Y (finProdFinEquiv (i, k))) * (Ai j i * sc.bw j) := by
          rw [Finset.sum_mul]; exact Finset.sum_congr rfl fun k _ => by ring
      _ = 0 := by rw [this, zero_mul]
  have hall : ∀ b ∈ acc, ∑ k, w k * b.y k = ∑ k, w k * y0 k := by
    cases acc with
    | nil => simp
    | cons x l =>
      simp only [List.head?_cons, Option.some.injEq] at hh
      have key : ∀ (l : List (SampleI ℝ n)) (x : SampleI ℝ n), (x :: l).IsChain (IrkStep nd la fn o no sc Ai) →
          ∑ k, w k * x.y k = ∑ k, w k * y0 k → ∀ b ∈ x :: l, ∑ k, w k * b.y k = ∑ k, w k * y0 k := by
        intro l
        induction l with
        | nil => intro x _ hx b hb; rw [List.mem_singleton] at hb; rw [hb]; exact hx
        | cons z l ih =>
          intro x hc hx b hb
          rw [List.isChain_cons_cons] at hc
          rcases List.mem_cons.mp hb with rfl | hb
          · exact hx
          · exact ih z hc.2 ((hstep _ _ hc.1).trans hx) b hb
      exact key l x hch (by rw [hh])
  constructor
  · intro y hy
    rw [q2, hrec] at hy
    obtain ⟨b, hb, rfl⟩ := List.mem_map.mp hy
    split_ifs at hb
    · exact hall b ((everyNth_sublist _ _).subset hb)
    · exact hall b ((List.take_sublist _ _).subset hb)
  · intro p hp
    rw [hfile] at hp
    split_ifs at hp
    · obtain ⟨b, hb, rfl⟩ := List.mem_map.mp hp
      exact hall b ((everyNth_sublist _ _).subset ((List.tail_sublist _).subset hb))
    · cases hp

/-- **C25 (implicit).**  With assertions enabled an empty or reversed interval or a non-positive step is refused. -/
theorem C25_irk_refused (hbad : t1 ≤ t0 ∨ dt ≤ 0) :
    irkGuts false la fn t0 t1 y0 o dt sc oo fuel = some .assertFail := by
  have hc : ltb (lit 0) (clipDt t0 t1 dt) = false := by
    rw [clipDt_real]
    simp only [lit_real, Rat.cast_zero, ltb_real_false]
    rcases hbad with h | h
    · exact (min_le_right _ _).trans (by linarith)
    · exact (min_le_left _ _).trans h
  unfold irkGuts
  simp only
  cases o.newtonOpts with
  | none => rfl
  | some no => simp only [hc]; rfl

/-- **C25 (implicit, `odeint`).** -/
theorem C25_irk_odeint_refused {m : ℤ} (hbad : t1 ≤ t0 ∨ dt ≤ 0) :
    irkOdeint false la fn t0 t1 y0 o oo m dt fuel = some .assertFail := by
  unfold irkOdeint
  simp only
  split_ifs
  · rfl
  · exact C25_irk_refused hbad
  · exact C25_irk_refused hbad

/-- **C18 (implicit), what holds.**  With `max_dt > 0` and an initial step not longer than `max_dt` no accepted step is
longer.  Missing from the claim: an initial `dt` larger than `max_dt` is used as it is. -/
theorem C18_irk_max_dt_partial (h : irkGuts nd la fn t0 t1 y0 o dt sc oo fuel = some (.ret out))
    (hpos : nd = false ∨ (0 < dt ∧ t0 < t1)) (hmx : 0 < o.maxDt) (hdt : dt ≤ o.maxDt)
    (hst : oo.storeInVectors = true) (hint : oo.interval.toNat = 1) {i : ℕ} {t t' : ℝ}
    (ht : out.tVals[i]? = some t) (ht' : out.tVals[i + 1]? = some t') : t' - t ≤ o.maxDt := by
  obtain ⟨s, acc, -, -, hinv, hv, -⟩ := irk_accs_real (Rel := fun a b => b.t - a.t ≤ o.maxDt)
    (J := fun s => s.dt ≤ o.maxDt) h hpos
    (fun no _ => by
      change clipDt t0 t1 dt ≤ _
      rw [clipDt_real]; exact (min_le_left _ _).trans hdt)
    (fun no mo Ai s s' hT hJ _ hb => by
      have hc := bodyCaseI nd la fn t1 o no oo sc mo (dWeights Ai fun i => sc.bw i) (dWeights Ai fun i => sc.bw2 i) s
      rw [hb] at hc
      cases hc with
      | newton hl hm r hr hs had =>
        have hl' : s.t < t1 := by simpa using hl
        obtain ⟨c1, -, c3⟩ := clip_factsI hT hl'
        simp only [newtonReject, lit_real]
        have : ((7 / 10 : ℚ) : ℝ) = 7 / 10 := by norm_num
        rw [this]; linarith
      | rejected hl hm r hr hs had a ha hE hj => exact (attemptI_facts hT (by simpa using hl) hr hs ha).2.2.2.1 hmx
      | accepted hl hm r hr hs had a ha hE hj hi hw =>
        exact (attemptI_facts hT (by simpa using hl) hr hs ha).2.2.2.1 hmx)
    (fun no mo Ai s r a l _ _ hT hJ hlt hr hs ha hj e1 e2 => by
      obtain ⟨q1, -⟩ := attemptI_spec ha
      simp only [newSampleI, q1, e1, add_sub_cancel_left]
      exact ((clip_factsI hT hlt).2.2).trans hJ)
  rw [hv.cols.t, storedI, if_pos hst, hint, everyNth_one, List.getElem?_map, Option.map_eq_some_iff] at ht ht'
  obtain ⟨a, ha, rfl⟩ := ht
  obtain ⟨b, hb, rfl⟩ := ht'
  obtain ⟨hi, rfl⟩ := List.getElem?_eq_some_iff.mp ha
  obtain ⟨hi', rfl⟩ := List.getElem?_eq_some_iff.mp hb
  exact List.isChain_iff_getElem.mp hinv.chain i hi'

/-- **C21 (implicit).**  A pass that does not accept (neither counter of accepted attempts grows: the step index stays)
leaves time, value, records and lines unchanged and shortens the step: to 0.7 times the attempted step when Newton
failed, to at most 0.9 times when the error was too large. -/
theorem C21_irk_reject {mo : ℕ} {d d2 : Vec ℝ sc.ns} {s s' : IrkState ℝ (sc.ns * n) n} (hT : TimeInvI t0 t1 s)
    (hb : irkBody nd la fn t1 o no oo sc mo d d2 s = .next s') (hst : s'.step = s.step) :
    s'.t = s.t ∧ s'.y = s.y ∧ s'.sol.tVals = s.sol.tVals ∧ s'.sol.yVals = s.sol.yVals ∧
      s'.sol.stages = s.sol.stages ∧ s'.sol.errEst = s.sol.errEst ∧ s'.sol.err = s.sol.err ∧
      s'.sol.file = s.sol.file ∧ 0 < s'.dt ∧ s'.dt ≤ 9 / 10 * min s.dt (t1 - s.t) ∧
      (s'.sol.count.rejectNewton ≠ s.sol.count.rejectNewton → s'.dt = 7 / 10 * min s.dt (t1 - s.t)) := by
  have hc := bodyCaseI nd la fn t1 o no oo sc mo d d2 s
  rw [hb] at hc
  have hpos := (timeInvI_next hT hb).dt
  cases hc with
  | newton hl hm r hr hs had =>
    have hl' : s.t < t1 := by simpa using hl
    obtain ⟨c1, -, c3⟩ := clip_factsI hT hl'
    have e : (newtonReject s (clipDt s.t t1 s.dt) no.maxit r.status r.count r.log).dt = 7 / 10 * min s.dt (t1 - s.t) := by
      simp only [newtonReject, lit_real, clipDt_real]
      norm_num
      ring
    rw [← clipDt_real] at e ⊢
    exact ⟨rfl, rfl, rfl, rfl, rfl, rfl, rfl, rfl, hpos, by rw [e]; linarith, fun _ => e⟩
  | rejected hl hm r hr hs had a ha hE hj =>
    have hl' : s.t < t1 := by simpa using hl
    have := (attemptI_facts hT hl' hr hs ha).2.2.2.2 hj
    rw [clipDt_real] at this
    refine ⟨rfl, rfl, rfl, rfl, rfl, rfl, rfl, rfl, hpos, this, fun hne => absurd ?_ hne⟩
    obtain ⟨-, L, K, -, hcn⟩ := solve_count hr
    obtain ⟨L', -, hcn', -⟩ := attemptI_count ha
    simp [rejectI, hcn', StageResult.success, hcn, IrkOutput.bump]
  | accepted hl hm r hr hs had a ha hE hj hi hw =>
    exfalso
    simp [acceptI] at hst

end Verif
