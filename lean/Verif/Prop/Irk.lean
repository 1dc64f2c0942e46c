import Verif.IrkLemmas

/-!
# Properties C36, C38, C39, C40, C41, C42, C17, C25 of the implicit integrator, in any arithmetic
-/

set_option linter.unusedSectionVars false

namespace Verif
section
variable {F : Type} [Add F] [Sub F] [Mul F] [Div F] [Neg F] [Scalar F] {n : ℕ}
  {nd : Bool} {la : LinAlg F} {fn : OdeFun F n} {sc : SolverCoeffs F} {t dt : F} {y : Vec F n}
  {maxit refresh : ℤ} {xtol Rtol : F} {count : IrkCounters} {log : CallLog F n} {r : StageResult F (sc.ns * n) n}
  {t0 t1 : F} {y0 : Vec F n} {o : IrkOpts F} {oo : OutOpts} {fuel : ℕ} {out : IrkOutput F (sc.ns * n) n}

/-- **C36.**  A returned stage solve is described by iterates `Ys 0 = 0, …, Ys m` and increments `dYs`: each increment
solves with the factors of `I - dt*A⊗J(t,y)`, each iterate adds it.  SUCCESS (0): the last pass, and only the last,
met the test.  MAXIT_EXCEEDED (3): no pass met it and `maxit - 1` were made.  No other status is possible. -/
theorem C36_contract (h : newtonSolveStages nd la fn sc t dt y maxit refresh xtol Rtol count log = .ret r) :
    ∃ (m : ℕ) (Ys dYs : ℕ → Vec F (sc.ns * n)), Ys 0 = (fun _ => lit 0) ∧ r.Y = Ys m ∧
      (∀ j < m, ∃ L U P x, nd = false ∧ la.lu (fun p q => eye (sc.ns * n) p q - dt * kron sc.mat (fn.jac t y) p q) =
          some (L, U, P) ∧
        la.solveL (fun p q => - L p q) (mulVec P (constructR fn.fn sc t dt y (Ys j))) = some x ∧
        la.solveU U x = some (dYs j) ∧ Ys (j + 1) = fun p => Ys j p + lit 1 * dYs j p) ∧
      ((r.status = 0 ∧ 0 < m ∧ (m : ℤ) < maxit ∧
          (ltb (dot (constructR fn.fn sc t dt y r.Y) (constructR fn.fn sc t dt y r.Y)) (Rtol * Rtol) = true ∨
            ltb (dot (dYs (m - 1)) (dYs (m - 1))) (xtol * xtol) = true) ∧
          ∀ j, j + 1 < m → ¬ (ltb (dot (constructR fn.fn sc t dt y (Ys (j + 1)))
            (constructR fn.fn sc t dt y (Ys (j + 1)))) (Rtol * Rtol) = true ∨
              ltb (dot (dYs j) (dYs j)) (xtol * xtol) = true)) ∨
       (r.status = 3 ∧ (m : ℤ) = max (maxit - 1) 0 ∧
          ∀ j < m, ¬ (ltb (dot (constructR fn.fn sc t dt y (Ys (j + 1)))
            (constructR fn.fn sc t dt y (Ys (j + 1)))) (Rtol * Rtol) = true ∨
              ltb (dot (dYs j) (dYs j)) (xtol * xtol) = true)) ) := by
  obtain ⟨-, m, Ys, dYs, H⟩ := stage_run h
  refine ⟨m, Ys, dYs, H.start, H.final, ?_, ?_⟩
  · intro j hj
    have hd := H.dir j hj
    unfold stageDir at hd
    split at hd
    · cases hd
    · rename_i L U P hl
      unfold stageLup at hl
      cases nd with
      | true => simp at hl
      | false =>
        simp only [Bool.false_eq_true, if_false] at hl
        split at hd
        · cases hd
        · rename_i x hx
          split at hd
          · cases hd
          · rename_i z hz
            simp only [Outcome.ret.injEq] at hd
            subst hd
            exact ⟨L, U, P, x, rfl, hl, hx, hz, H.upd j hj⟩
  · rcases H.stop with ⟨h1, h2, h3, h4, h5, h6⟩ | ⟨h1, h2, h3, h4⟩
    · left
      refine ⟨h1, h2, by omega, ?_, H.early⟩
      rw [H.final]; exact h4
    · right
      exact ⟨h1, by omega, h4⟩

/-- **C36 (evaluations).**  The user functions are called exactly so: `J(t,y)` once, the right-hand side at the `Ns`
stages of each iterate `0, …, m`, and `J(t,y)` again (always at the same point) after each unsuccessful pass whose
index is a multiple of `refresh_jac`; `fun_evals` and `jac_evals` grow by these numbers and nothing else changes. -/
theorem C36_evaluations (h : newtonSolveStages nd la fn sc t dt y maxit refresh xtol Rtol count log = .ret r) :
    ∃ (m : ℕ) (Ys : ℕ → Vec F (sc.ns * n)), Ys 0 = (fun _ => lit 0) ∧ r.Y = Ys m ∧ r.J = fn.jac t y ∧
      r.log.funs = log.funs ++ (List.range (m + 1)).flatMap (fun j => (List.finRange sc.ns).map fun i : Fin sc.ns =>
        (t + sc.cn i * dt, fun k => y k + Ys j (finProdFinEquiv (i, k)))) ∧
      r.log.jacs = log.jacs ++ (t, y) :: List.replicate
        ((List.range (r.iters - 1)).filter fun k => ((k + 1 : ℕ) : ℤ) % refresh = 0).length (t, y) ∧
      (r.iters : ℤ) = (if r.status = 0 then (m : ℤ) else m + 1) ∧
      r.count = { count with
        funEvals := count.funEvals + sc.ns * (m + 1)
        jacEvals := count.jacEvals + 1 +
          ((List.range (r.iters - 1)).filter fun k => ((k + 1 : ℕ) : ℤ) % refresh = 0).length } := by
  obtain ⟨-, m, Ys, dYs, H⟩ := stage_run h
  have hrf : refreshes refresh 1 (r.iters - 1) =
      ((List.range (r.iters - 1)).filter fun k => ((k + 1 : ℕ) : ℤ) % refresh = 0).length := by
    unfold refreshes
    congr 2
    funext k
    rw [Nat.add_comm]
  refine ⟨m, Ys, H.start, H.final, H.jac, ?_, ?_, ?_, ?_⟩
  · rw [H.funs, List.range_succ_eq_map, List.flatMap_cons, List.flatMap_map, H.start]
    simp only [constructCalls, List.append_assoc]
    rfl
  · rw [H.jacs, ← hrf]; simp
  · rcases H.stop with ⟨h1, h2, h3, h4, h5, h6⟩ | ⟨h1, h2, h3, h4⟩
    · rw [if_pos h1]; omega
    · rw [if_neg (by omega), h3]; omega
  · rw [H.count, ← hrf]
    simp only [Nat.mul_succ]
    congr 1; omega

/-- **C36 (release builds).**  `arma::lu` is called inside an `assert`; with `NDEBUG` the factors are empty and a solve
that makes any pass (`maxit > 1`) throws. -/
theorem C36_ndebug_throws (hm : 1 < maxit) :
    newtonSolveStages true la fn sc t dt y maxit refresh xtol Rtol count log = .throws := by
  cases h : newtonSolveStages true la fn sc t dt y maxit refresh xtol Rtol count log with
  | throws => rfl
  | ret r =>
    obtain ⟨m, Ys, dYs, -, -, h1, h2⟩ := C36_contract h
    have : 0 < m := by rcases h2 with h2 | h2 <;> omega
    obtain ⟨_, _, _, _, hn, -⟩ := h1 0 this
    cases hn
  | assertFail =>
    exfalso
    unfold newtonSolveStages refreshJac at h
    simp only [if_true, Outcome.bind] at h
    split_ifs at h
    obtain ⟨k, hk⟩ : ∃ k, (maxit - 1).toNat = k + 1 := ⟨(maxit - 1).toNat - 1, by omega⟩
    rw [hk] at h
    simp [stageIter, stageStep, stageDir, Outcome.bind] at h
  | ub =>
    exfalso
    unfold newtonSolveStages refreshJac at h
    simp only [if_true, Outcome.bind] at h
    split_ifs at h
    obtain ⟨k, hk⟩ : ∃ k, (maxit - 1).toNat = k + 1 := ⟨(maxit - 1).toNat - 1, by omega⟩
    rw [hk] at h
    simp [stageIter, stageStep, stageDir, Outcome.bind] at h

/-- what the caller sees of a run whose accepted samples (initial one included) are `acc` -/
structure RunView {m : ℕ} (oo : OutOpts) (acc : List (SampleI F n)) (out : IrkOutput F m n) : Prop where
  cols : IsColumnsI out (storedI oo acc)
  file : out.file = writtenI oo acc
  status : out.status = 0 ∨ out.status = 128 ∨ out.status = 4

/-- general form: the accepted samples of a finished run form a chain -/
theorem irk_accs {Rel : SampleI F n → SampleI F n → Prop} {J : IrkState F (sc.ns * n) n → Prop}
    (h : irkGuts nd la fn t0 t1 y0 o dt sc oo fuel = some (.ret out))
    (hJ0 : ∀ no, o.newtonOpts = some no → (nd = true ∨ ltb (lit 0) (clipDt t0 t1 dt) = true) →
      J (irkInit (sc.ns * n) t0 y0 (clipDt t0 t1 dt) no.maxit))
    (hJ : ∀ no mo Ai s s', o.newtonOpts = some no → minOrder sc = some mo → la.inv sc.mat = some Ai → J s →
      irkBody nd la fn t1 o no oo sc mo (dWeights Ai fun i => sc.bw i) (dWeights Ai fun i => sc.bw2 i) s = .next s' →
      J s')
    (hacc : ∀ no mo Ai s r a l, o.newtonOpts = some no → minOrder sc = some mo → la.inv sc.mat = some Ai →
      J s → ltb s.t t1 = true → ¬ (0 ≤ o.maxSteps ∧ o.maxSteps < s.step) →
      solveAt nd la fn t1 no sc s = .ret r → r.status = 0 → o.adaptive = true →
      attemptI la fn o sc mo (dWeights Ai fun i => sc.bw i) (dWeights Ai fun i => sc.bw2 i) s (clipDt s.t t1 s.dt)
        r.success = some a →
      (nd = false → leb (lit 0) a.errTot = true) → a.reject = false →
      l.t = s.t → l.y = s.y → Rel l (newSampleI s a)) :
    ∃ no mo Ai s acc, o.newtonOpts = some no ∧ minOrder sc = some mo ∧ la.inv sc.mat = some Ai ∧
      Reach (irkBody nd la fn t1 o no oo sc mo (dWeights Ai fun i => sc.bw i) (dWeights Ai fun i => sc.bw2 i))
        (irkInit (sc.ns * n) t0 y0 (clipDt t0 t1 dt) no.maxit) s ∧
      irkBody nd la fn t1 o no oo sc mo (dWeights Ai fun i => sc.bw i) (dWeights Ai fun i => sc.bw2 i) s
        = .done (.ret out) ∧ J s ∧ AccInv Rel t0 y0 oo s acc ∧ RunView oo acc out ∧
      (out.status = 0 → ltb s.t t1 = false) := by
  obtain ⟨no, mo, Ai, s, h1, h2, h3, h4, h5, h6, h7⟩ := irkGuts_ret h
  obtain ⟨hj, acc, hinv⟩ := reach_accs (J := J) (Rel := Rel) (hJ0 no h1 h5)
    (fun s s' => hJ no mo Ai s s' h1 h2 h3) (fun s r a l => hacc no mo Ai s r a l h1 h2 h3) h6
  have hc := bodyCaseI nd la fn t1 o no oo sc mo (dWeights Ai fun i => sc.bw i) (dWeights Ai fun i => sc.bw2 i) s
  have h7' := h7
  rw [h7] at hc
  refine ⟨no, mo, Ai, s, acc, h1, h2, h3, h6, h7, hj, hinv, ?_⟩
  have hcol := hinv.cols
  cases hc with
  | finished hf =>
    exact ⟨⟨⟨hcol.t, hcol.y, hcol.st, hcol.ee, hcol.e⟩, hinv.file, Or.inl hinv.status⟩, fun _ => hf⟩
  | limit hl hm =>
    exact ⟨⟨⟨hcol.t, hcol.y, hcol.st, hcol.ee, hcol.e⟩, hinv.file, Or.inr (Or.inl rfl)⟩, fun h => absurd h (by simp)⟩
  | general hl hm r hr hs had =>
    exact ⟨⟨⟨hcol.t, hcol.y, hcol.st, hcol.ee, hcol.e⟩, hinv.file, Or.inr (Or.inr rfl)⟩, fun h => absurd h (by simp)⟩
  | stop r hr => exact absurd rfl (hr out)

/-- One accepted step, from sample `a` to sample `b`: a stage solve from `a` with some step size `h` and status
SUCCESS, the new value `a.y + (stages)*(inv(A).t()*b)`, and an error estimate whose weighted norm does not exceed 1. -/
def IrkStep (nd : Bool) (la : LinAlg F) (fn : OdeFun F n) (o : IrkOpts F) (no : NewtonOpts F) (sc : SolverCoeffs F)
    (Ai : Mat F sc.ns) (a b : SampleI F n) : Prop :=
  ∃ h maxit count log r,
    newtonSolveStages nd la fn sc a.t h a.y maxit no.refreshJac no.dxDelta no.tol count log = .ret r ∧
    r.status = 0 ∧ b.t = a.t + h ∧
    (b.y = fun k => a.y k + sumFin sc.ns fun i =>
      r.Y (finProdFinEquiv (i, k)) * sumFin sc.ns fun j => Ai j i * sc.bw j) ∧
    b.err = errNorm n (errTot o.toErk a.y b.y b.errEst) ∧ ltb (lit 1) b.err = false ∧
    (nd = false → leb (lit 0) (errTot o.toErk a.y b.y b.errEst) = true)

theorem irkStep_of {no : NewtonOpts F} {mo : ℕ} {Ai : Mat F sc.ns} {d2 : Vec F sc.ns}
    {s : IrkState F (sc.ns * n) n} {r : StageResult F (sc.ns * n) n} {a : AttemptI F n} {l : SampleI F n}
    (hr : solveAt nd la fn t1 no sc s = .ret r) (hs : r.status = 0)
    (ha : attemptI la fn o sc mo (dWeights Ai fun i => sc.bw i) d2 s (clipDt s.t t1 s.dt) r.success = some a)
    (hE : nd = false → leb (lit 0) a.errTot = true) (hj : a.reject = false) (h1 : l.t = s.t) (h2 : l.y = s.y) :
    IrkStep nd la fn o no sc Ai l (newSampleI s a) := by
  obtain ⟨e1, e2, e3, e4, e5, -⟩ := attemptI_spec ha
  refine ⟨clipDt s.t t1 s.dt, s.newtonMaxit, s.sol.bump.count, s.sol.log, r, ?_, hs, ?_, ?_, ?_, ?_, ?_⟩
  · rw [h1, h2]; exact hr
  · simp only [newSampleI, e1, h1]
  · simp only [newSampleI, e2, h2]; rfl
  · simp only [newSampleI, e4, h2]; rw [← e3]
  · simp only [newSampleI]; rw [← e5]; exact hj
  · intro hn; simp only [newSampleI, h2]; rw [← e3]; exact hE hn

/-- **C38 (records), C40, C41, C42, any arithmetic.**  There is a list `acc`, the initial sample and then the accepted
steps in order (each related to its predecessor by `IrkStep`; their number is `newton_success - reject_err`), such
that the records are the members whose index is a multiple of `output_interval` (only the initial one when storing is
off), the stream lines are the later members with such an index, and every recorded stage vector is zero. -/
theorem C38_records (h : irkGuts nd la fn t0 t1 y0 o dt sc oo fuel = some (.ret out)) :
    ∃ no Ai, o.newtonOpts = some no ∧ la.inv sc.mat = some Ai ∧
    ∃ acc : List (SampleI F n), acc.head? = some ⟨t0, y0, fun _ => lit 0, lit 0⟩ ∧
      acc.IsChain (IrkStep nd la fn o no sc Ai) ∧
      acc.length = out.count.newtonSuccess - out.count.rejectErr + 1 ∧
      (∃ rec : List (SampleI F n), rec = (if oo.storeInVectors then everyNth oo.interval.toNat acc else acc.take 1) ∧
        out.tVals = rec.map (·.t) ∧ out.yVals = rec.map (·.y) ∧ out.errEst = rec.map (·.errEst) ∧
        out.err = rec.map (·.err) ∧ out.stages = rec.map fun _ _ => lit 0) ∧
      (out.status = 0 ∨ out.status = 128 ∨ out.status = 4) ∧
      (out.status = 0 → ∃ l, acc.getLast? = some l ∧ ltb l.t t1 = false) ∧
      out.file = (if oo.writeToFile then ((everyNth oo.interval.toNat acc).tail).map (fun b => (b.t, b.y)) else []) := by
  obtain ⟨no0, mo0, Ai0, -, g1, g2, g3, -⟩ := irkGuts_ret h
  obtain ⟨no, mo, Ai, s, acc, h1, h2, h3, -, hb, hcn, hinv, hv, hend⟩ :=
    irk_accs (Rel := IrkStep nd la fn o no0 sc Ai0) (J := CountInvI) h (fun _ _ _ => countInvI_init _ _ _ _)
      (fun no mo Ai s s' _ _ _ hj hb => countInvI_next hj hb)
      (fun no mo Ai s r a l k1 k2 k3 _ _ _ hr hs _ ha hE hj e1 e2 => by
        rw [g1] at k1; rw [g3] at k3
        cases k1; cases k3
        exact irkStep_of hr hs ha hE hj e1 e2)
  rw [g1] at h1; rw [g3] at h3
  cases h1; cases h3
  have hcase := bodyCaseI nd la fn t1 o no0 oo sc mo (dWeights Ai0 fun i => sc.bw i) (dWeights Ai0 fun i => sc.bw2 i) s
  rw [hb] at hcase
  have hlen : acc.length = out.count.newtonSuccess - out.count.rejectErr + 1 := by
    have e := hcn.ok
    have e2 := hinv.len
    cases hcase with
    | finished hf => simp only; omega
    | limit hl hm => simp only [IrkOutput.bump]; omega
    | general hl hm r hr hs had =>
      obtain ⟨-, L, K, -, hcn'⟩ := solve_count hr
      simp only [hcn', IrkOutput.bump]; omega
    | stop r hr => exact absurd rfl (hr out)
  refine ⟨no0, Ai0, g1, g3, acc, hinv.head, hinv.chain, hlen,
    ⟨_, rfl, hv.cols.t, hv.cols.y, hv.cols.ee, hv.cols.e, hv.cols.st⟩, hv.status, ?_, hv.file⟩
  intro h0
  obtain ⟨l, hl, h1, -⟩ := hinv.last
  exact ⟨l, hl, by rw [h1]; exact hend h0⟩

/-- **C38 (lengths).** -/
theorem C38_lengths (h : irkGuts nd la fn t0 t1 y0 o dt sc oo fuel = some (.ret out)) :
    out.yVals.length = out.tVals.length ∧ out.stages.length = out.tVals.length ∧
      out.errEst.length = out.tVals.length ∧ out.err.length = out.tVals.length ∧
      out.tVals.head? = some t0 ∧ out.yVals.head? = some y0 := by
  obtain ⟨-, -, -, -, acc, hh, -, -, ⟨rec, hrec, h1, h2, h3, h4, h5⟩, -⟩ := C38_records h
  have hr : rec.head? = some ⟨t0, y0, fun _ => lit 0, lit 0⟩ := by
    obtain ⟨x, l, rfl⟩ : ∃ x l, acc = x :: l := by
      cases acc with
      | nil => cases hh
      | cons x l => exact ⟨x, l, rfl⟩
    simp only [List.head?_cons] at hh
    rw [hrec]
    split_ifs
    · obtain ⟨l', hl'⟩ := everyNth_ne (k := oo.interval.toNat) (x := x) (l := l)
      rw [hl']; exact hh
    · exact hh
  rw [h1, h2, h3, h4, h5]
  simp [hr]

/-- **C41.**  The lines written with a stream are the accepted samples with index `k, 2k, …`, `k = output_interval`:
line `i` is sample `(i+1)*k`, and there are `⌊accepted / k⌋` lines. -/
theorem C41_stream (h : irkGuts nd la fn t0 t1 y0 o dt sc oo fuel = some (.ret out)) (hk : 0 < oo.interval.toNat) :
    ∃ no Ai, o.newtonOpts = some no ∧ la.inv sc.mat = some Ai ∧
    ∃ acc : List (SampleI F n), acc.head? = some ⟨t0, y0, fun _ => lit 0, lit 0⟩ ∧
      acc.IsChain (IrkStep nd la fn o no sc Ai) ∧
      acc.length = out.count.newtonSuccess - out.count.rejectErr + 1 ∧
      (oo.writeToFile = true → out.file.length = (acc.length - 1) / oo.interval.toNat ∧
        ∀ i < out.file.length, out.file[i]? = (acc[(i + 1) * oo.interval.toNat]?).map fun b => (b.t, b.y)) ∧
      (oo.writeToFile = false → out.file = []) := by
  obtain ⟨no, Ai, g1, g2, acc, h1, h2, h3, -, -, -, hf⟩ := C38_records h
  refine ⟨no, Ai, g1, g2, acc, h1, h2, h3, ?_, ?_⟩
  · intro hw
    rw [if_pos hw] at hf
    have hl : (everyNth oo.interval.toNat acc).length = (acc.length - 1) / oo.interval.toNat + 1 := by
      rw [everyNth_length hk]
      have : 0 < acc.length := by omega
      rw [show acc.length + oo.interval.toNat - 1 = (acc.length - 1) + oo.interval.toNat by omega,
        Nat.add_div_right _ hk]
    constructor
    · rw [hf, List.length_map, List.length_tail, hl, Nat.add_sub_cancel]
    · intro i _
      rw [hf, List.getElem?_map, List.getElem?_tail, everyNth_getElem? hk]
  · intro hw
    rw [hf, if_neg (by simp [hw])]

/-- **C39.**  On SUCCESS all counters are exact. -/
theorem C39_counters (h : irkGuts nd la fn t0 t1 y0 o dt sc oo fuel = some (.ret out)) (hs : out.status = 0) :
    ∃ acc : List (SampleI F n), acc.head? = some ⟨t0, y0, fun _ => lit 0, lit 0⟩ ∧
      out.tVals = (if oo.storeInVectors then everyNth oo.interval.toNat acc else acc.take 1).map (·.t) ∧
      out.count.attempt = (acc.length - 1) + out.count.rejectErr + out.count.rejectNewton ∧
      out.count.newtonSuccess = (acc.length - 1) + out.count.rejectErr ∧
      out.count.newtonMaxitExceed = out.count.rejectNewton ∧
      out.count.newtonIncrDiverge = 0 ∧ out.count.newtonIterErrorTooLarge = 0 ∧
      out.count.funEvals = out.log.funs.length ∧ out.count.jacEvals = out.log.jacs.length ∧
      out.acceptFrac = some (lit ((acc.length - 1 : ℕ) : ℚ) / lit (out.count.attempt : ℚ)) := by
  obtain ⟨no, mo, Ai, s, acc, -, -, -, -, hb, hc, hinv, hv, -⟩ :=
    irk_accs (Rel := fun _ _ => True) (J := CountInvI) h (fun _ _ _ => countInvI_init _ _ _ _)
      (fun no mo Ai s s' _ _ _ hj hb => countInvI_next hj hb) (by simp)
  have hcase := bodyCaseI nd la fn t1 o no oo sc mo (dWeights Ai fun i => sc.bw i) (dWeights Ai fun i => sc.bw2 i) s
  rw [hb] at hcase
  have hlen := hinv.len
  refine ⟨acc, hinv.head, hv.cols.t, ?_⟩
  cases hcase with
  | finished hf =>
    have hl : acc.length - 1 = s.step := by omega
    rw [hl]
    exact ⟨hc.att, hc.ok, hc.mx, hc.dv, hc.ie, hc.fe, hc.je, rfl⟩
  | limit hl hm => exact absurd hs (by simp)
  | general hl hm r hr hs' had => exact absurd hs (by simp)
  | stop r hr => exact absurd rfl (hr out)

/-- **C40.**  Every recorded error value after the first passed the test `err <= 1` (written `!(err > 1)`), in any
arithmetic. -/
theorem C40_accepted (h : irkGuts nd la fn t0 t1 y0 o dt sc oo fuel = some (.ret out)) :
    ∀ e ∈ out.err.tail, ltb (lit 1) e = false := by
  obtain ⟨no, Ai, -, -, acc, hh, hch, -, ⟨rec, hrec, -, -, -, he, -⟩, -⟩ := C38_records h
  have hall : ∀ b ∈ acc.tail, ltb (lit 1) b.err = false := by
    cases acc with
    | nil => simp
    | cons x l =>
      intro b hb
      simp only [List.tail_cons] at hb
      obtain ⟨a, ha⟩ := chain_pred hch hb
      obtain ⟨_, _, _, _, _, -, -, -, -, -, h6, -⟩ := ha
      exact h6
  have hsub : rec.tail.Sublist acc.tail := by
    rw [hrec]
    split_ifs
    · exact (everyNth_sublist _ _).tail
    · exact (List.take_sublist _ _).tail
  intro e hm
  rw [he, ← List.map_tail] at hm
  obtain ⟨b, hb, rfl⟩ := List.mem_map.mp hm
  exact hall b (hsub.subset hb)

/-- **C39 (user calls on every return).** -/
theorem C39_calls (h : irkGuts nd la fn t0 t1 y0 o dt sc oo fuel = some (.ret out)) :
    out.count.funEvals = out.log.funs.length ∧ out.count.jacEvals = out.log.jacs.length := by
  obtain ⟨no, mo, Ai, s, acc, -, -, -, -, hb, hc, hinv, hv, -⟩ :=
    irk_accs (Rel := fun _ _ => True) (J := CountInvI) h (fun _ _ _ => countInvI_init _ _ _ _)
      (fun no mo Ai s s' _ _ _ hj hb => countInvI_next hj hb) (by simp)
  have hcase := bodyCaseI nd la fn t1 o no oo sc mo (dWeights Ai fun i => sc.bw i) (dWeights Ai fun i => sc.bw2 i) s
  rw [hb] at hcase
  cases hcase with
  | finished hf => exact ⟨hc.fe, hc.je⟩
  | limit hl hm => exact ⟨hc.fe, hc.je⟩
  | general hl hm r hr hs' had =>
    obtain ⟨-, L, K, hl', hcn⟩ := solve_count hr
    constructor
    · simp [hl', hcn, IrkOutput.bump, hc.fe]
    · simp [hl', hcn, IrkOutput.bump, hc.je]
  | stop r hr => exact absurd rfl (hr out)

end
end Verif
