import Verif.Irk

/-!
# The iterates of `newton_solve_stages`

`StageRun` describes a run of the stage solver by the sequence of its iterates; `stage_run` shows every returned run
has this form.
-/

set_option linter.unusedSectionVars false

namespace Verif
section
variable {F : Type} [Add F] [Sub F] [Mul F] [Div F] [Neg F] [Scalar F] {n : ℕ}

theorem Outcome.bind_ret {α β : Type} {o : Outcome α} {g : α → Outcome β} {b : β} (h : o.bind g = .ret b) :
    ∃ a, o = .ret a ∧ g a = .ret b := by
  cases o with
  | ret a => exact ⟨a, rfl, h⟩
  | assertFail => cases h
  | throws => cases h
  | ub => cases h

/-- the stopping test -/
def Converged (f : F → Vec F n → Vec F n) (sc : SolverCoeffs F) (t dt : F) (y : Vec F n) (xtol Rtol : F)
    (Y dY : Vec F (sc.ns * n)) : Prop :=
  ltb (dot (constructR f sc t dt y Y) (constructR f sc t dt y Y)) (Rtol * Rtol) = true ∨
    ltb (dot dY dY) (xtol * xtol) = true

/-- the factors in use: those of `I - dt*kron(A,J(t,y))`, none in a build without assertions -/
def stageLup (nd : Bool) (la : LinAlg F) (fn : OdeFun F n) (sc : SolverCoeffs F) (t dt : F) (y : Vec F n) :
    Option (Mat F (sc.ns * n) × Mat F (sc.ns * n) × Mat F (sc.ns * n)) :=
  if nd then none else la.lu (stageJac sc dt (fn.jac t y))

/-- number of refreshes of the Jacobi matrix in `m` completed passes, the first of them with index `i` -/
def refreshes (refresh : ℤ) (i m : ℕ) : ℕ :=
  ((List.range m).filter fun k => ((i + k : ℕ) : ℤ) % refresh = 0).length

theorem refreshes_succ (refresh : ℤ) (i m : ℕ) :
    refreshes refresh i (m + 1) = (if (i : ℤ) % refresh = 0 then 1 else 0) + refreshes refresh (i + 1) m := by
  unfold refreshes
  rw [List.range_succ_eq_map, List.filter_cons, List.filter_map]
  have : (List.filter ((fun k : ℕ => decide (((i + k : ℕ) : ℤ) % refresh = 0)) ∘ Nat.succ) (List.range m)).length
      = (List.filter (fun k : ℕ => decide (((i + 1 + k : ℕ) : ℤ) % refresh = 0)) (List.range m)).length := by
    congr 1
    apply List.filter_congr
    intro k _
    simp only [Function.comp, Nat.succ_eq_add_one]
    rw [show i + (k + 1) = i + 1 + k by omega]
  by_cases h : (i : ℤ) % refresh = 0
  · simp only [add_zero, h, decide_true, if_true, List.length_cons, List.length_map, this]; omega
  · simp only [add_zero, h, decide_false, Bool.false_eq_true, if_false, List.length_map, this]; omega

/-- iterates `Ys 0, …, Ys m` with increments `dYs`, stopping at the first pass that converges -/
structure StageRun (nd : Bool) (la : LinAlg F) (fn : OdeFun F n) (sc : SolverCoeffs F) (t dt : F) (y : Vec F n)
    (refresh : ℤ) (xtol Rtol : F) (i : ℕ) (Y0 : Vec F (sc.ns * n)) (count : IrkCounters) (log : CallLog F n)
    (k : ℕ) (r : StageResult F (sc.ns * n) n) (m : ℕ) (Ys dYs : ℕ → Vec F (sc.ns * n)) : Prop where
  start : Ys 0 = Y0
  dir : ∀ j < m, stageDir la (stageLup nd la fn sc t dt y) (constructR fn.fn sc t dt y (Ys j)) = .ret (dYs j)
  upd : ∀ j < m, Ys (j + 1) = fun p => Ys j p + lit 1 * dYs j p
  final : r.Y = Ys m
  res : r.Rnorm2 = dot (constructR fn.fn sc t dt y (Ys m)) (constructR fn.fn sc t dt y (Ys m))
  jac : r.J = fn.jac t y
  early : ∀ j, j + 1 < m → ¬ Converged fn.fn sc t dt y xtol Rtol (Ys (j + 1)) (dYs j)
  stop : (r.status = 0 ∧ 0 < m ∧ m ≤ k ∧ Converged fn.fn sc t dt y xtol Rtol (Ys m) (dYs (m - 1)) ∧
            r.iters + 1 = i + m ∧ r.xnorm2 = dot (dYs (m - 1)) (dYs (m - 1))) ∨
         (r.status = 3 ∧ m = k ∧ r.iters = i + m ∧
            ∀ j < m, ¬ Converged fn.fn sc t dt y xtol Rtol (Ys (j + 1)) (dYs j))
  funs : r.log.funs = log.funs ++ (List.range m).flatMap fun j => constructCalls sc t dt y (Ys (j + 1))
  jacs : r.log.jacs = log.jacs ++ List.replicate (refreshes refresh i (r.iters - i)) (t, y)
  count : r.count = { count with
    funEvals := count.funEvals + sc.ns * m
    jacEvals := count.jacEvals + refreshes refresh i (r.iters - i) }

variable {nd : Bool} {la : LinAlg F} {fn : OdeFun F n} {sc : SolverCoeffs F} {t dt : F} {y : Vec F n}
  {refresh : ℤ} {xtol Rtol : F}

theorem refreshJac_ret {s s' : StageState F (sc.ns * n) n} (h : refreshJac nd la fn sc t dt y s = .ret s') 
    (hl : nd = true → s.lup = none) :
    s' = { s with
      J := fn.jac t y
      lup := stageLup nd la fn sc t dt y
      count := { s.count with jacEvals := s.count.jacEvals + 1 }
      log := { s.log with jacs := s.log.jacs ++ [(t, y)] } } := by
  unfold refreshJac at h
  cases nd with
  | true =>
    simp only [if_true, Outcome.ret.injEq] at h
    rw [← h]
    simp [stageLup, hl rfl]
  | false =>
    simp only [Bool.false_eq_true, if_false] at h
    cases hlu : la.lu (stageJac sc dt (fn.jac t y)) with
    | none => rw [hlu] at h; cases h
    | some lup =>
      rw [hlu] at h
      simp only [Outcome.ret.injEq] at h
      rw [← h]
      simp [stageLup, hlu]

theorem stageIter_run (k : ℕ) (s : StageState F (sc.ns * n) n) (r : StageResult F (sc.ns * n) n)
    (h : stageIter nd la fn sc t dt y refresh xtol Rtol k s = .ret r)
    (hR : s.R = constructR fn.fn sc t dt y s.Y) (hJ : s.J = fn.jac t y)
    (hl : s.lup = stageLup nd la fn sc t dt y) :
    ∃ m Ys dYs, StageRun nd la fn sc t dt y refresh xtol Rtol s.iters s.Y s.count s.log k r m Ys dYs := by
  induction k generalizing s with
  | zero =>
    simp only [stageIter, Outcome.ret.injEq] at h
    subst h
    refine ⟨0, fun _ => s.Y, fun _ => s.Y, rfl, by simp, by simp, rfl, by simp [hR], hJ, by simp, ?_, by simp, ?_, ?_⟩
    · exact Or.inr ⟨rfl, rfl, by simp, by simp⟩
    · simp [refreshes]
    · simp [refreshes]
  | succ k ih =>
    rw [stageIter] at h
    obtain ⟨q, hq, hb⟩ := Outcome.bind_ret h
    unfold stageStep at hq
    obtain ⟨dY, hdY, hq⟩ := Outcome.bind_ret hq
    simp only at hq
    by_cases hc : (ltb (dot (constructR fn.fn sc t dt y fun p => s.Y p + lit 1 * dY p)
        (constructR fn.fn sc t dt y fun p => s.Y p + lit 1 * dY p)) (Rtol * Rtol) ||
        ltb (dot dY dY) (xtol * xtol)) = true
    · rw [if_pos hc] at hq
      simp only [Outcome.ret.injEq] at hq
      subst hq
      simp only [Outcome.ret.injEq] at hb
      subst hb
      refine ⟨1, fun j => if j = 0 then s.Y else fun p => s.Y p + lit 1 * dY p, fun _ => dY, by simp, ?_, ?_, by simp,
        by simp, hJ, by simp, ?_, ?_, ?_, ?_⟩
      · intro j hj
        obtain rfl : j = 0 := by omega
        simp only [if_true]
        rw [← hl, ← hR]; exact hdY
      · intro j hj
        obtain rfl : j = 0 := by omega
        simp
      · left
        refine ⟨rfl, by omega, by omega, ?_, rfl, rfl⟩
        simpa [Converged, Bool.or_eq_true] using hc
      · simp
      · simp [refreshes]
      · simp [refreshes]
    · rw [if_neg hc] at hq
      by_cases hr0 : refresh = 0
      · rw [if_pos hr0] at hq; cases hq
      rw [if_neg hr0] at hq
      obtain ⟨s'', hs'', hq⟩ := Outcome.bind_ret hq
      simp only [Outcome.ret.injEq] at hq
      subst hq
      simp only at hb
      have hconv : ¬ Converged fn.fn sc t dt y xtol Rtol (fun p => s.Y p + lit 1 * dY p) dY := by
        simpa [Converged, Bool.or_eq_true] using hc
      have hs : s''.Y = (fun p => s.Y p + lit 1 * dY p) ∧ s''.R = constructR fn.fn sc t dt y s''.Y ∧
          s''.J = fn.jac t y ∧ s''.lup = stageLup nd la fn sc t dt y ∧
          s''.count = { s.count with
            funEvals := s.count.funEvals + sc.ns
            jacEvals := s.count.jacEvals + (if (s.iters : ℤ) % refresh = 0 then 1 else 0) } ∧
          s''.log = { funs := s.log.funs ++ constructCalls sc t dt y (fun p => s.Y p + lit 1 * dY p)
                      jacs := s.log.jacs ++ List.replicate (if (s.iters : ℤ) % refresh = 0 then 1 else 0) (t, y) } := by
        by_cases hi : (s.iters : ℤ) % refresh = 0
        · rw [if_pos hi] at hs''
          have := refreshJac_ret hs'' (fun h => by simp only; rw [hl]; simp [stageLup, h])
          subst this
          simp [hi]
        · rw [if_neg hi] at hs''
          simp only [Outcome.ret.injEq] at hs''
          subst hs''
          simp [hi, hJ, hl]
      obtain ⟨hY, hR', hJ', hl', hcn, hlg⟩ := hs
      obtain ⟨m, Ys, dYs, H⟩ := ih _ hb hR' hJ' hl'
      have hir : s.iters + 1 ≤ r.iters := by
        rcases H.stop with h | h
        · have := h.2.2.2.2.1; simp only at this; omega
        · have := h.2.2.1; simp only at this; omega
      refine ⟨m + 1, fun j => if j = 0 then s.Y else Ys (j - 1), fun j => if j = 0 then dY else dYs (j - 1), by simp,
        ?_, ?_, by simpa using H.final, by simpa using H.res, H.jac, ?_, ?_, ?_, ?_, ?_⟩
      · intro j hj
        cases j with
        | zero => simp only [if_true]; rw [← hl, ← hR]; exact hdY
        | succ j => simpa using H.dir j (by omega)
      · intro j hj
        cases j with
        | zero => simp [H.start, hY]
        | succ j => simpa using H.upd j (by omega)
      · intro j hj
        cases j with
        | zero => simpa [H.start, hY] using hconv
        | succ j => simpa using H.early j (by omega)
      · rcases H.stop with ⟨h1, h2, h3, h4, h5, h6⟩ | ⟨h1, h2, h3, h4⟩
        · left
          have : m ≠ 0 := by omega
          refine ⟨h1, by omega, by omega, ?_, ?_, ?_⟩
          · simpa [this] using h4
          · simp only at h5; omega
          · simpa [this] using h6
        · right
          refine ⟨h1, by omega, ?_, ?_⟩
          · simp only at h3; omega
          · intro j hj
            cases j with
            | zero => simpa [H.start, hY] using hconv
            | succ j => simpa using h4 j (by omega)
      · rw [H.funs]
        simp only [hlg, List.range_succ_eq_map, List.flatMap_cons, List.flatMap_map]
        simp only [List.append_assoc, Nat.succ_eq_add_one, Nat.add_eq_zero_iff, one_ne_zero, and_false, if_false,
          Nat.add_sub_cancel, Nat.zero_add, H.start, hY]
      · rw [H.jacs]
        simp only [hlg]
        rw [show r.iters - s.iters = (r.iters - (s.iters + 1)) + 1 by omega, refreshes_succ, List.append_assoc,
          List.replicate_append_replicate]
      · rw [H.count]
        simp only [hcn]
        rw [show r.iters - s.iters = (r.iters - (s.iters + 1)) + 1 by omega, refreshes_succ]
        simp only [Nat.mul_succ]
        congr 1 <;> omega

/-- Every returned run of `newton_solve_stages`. -/
theorem stage_run {maxit : ℤ} {count : IrkCounters} {log : CallLog F n} {r : StageResult F (sc.ns * n) n}
    (h : newtonSolveStages nd la fn sc t dt y maxit refresh xtol Rtol count log = .ret r) :
    (sc.ns = 0 ∨ (0 < n ∧ sc.ns ≤ sc.c.length)) ∧
    ∃ m Ys dYs, StageRun nd la fn sc t dt y refresh xtol Rtol 1 (fun _ => lit 0)
      { count with funEvals := count.funEvals + sc.ns, jacEvals := count.jacEvals + 1 }
      { funs := log.funs ++ constructCalls sc t dt y (fun _ => lit 0), jacs := log.jacs ++ [(t, y)] }
      (maxit - 1).toNat r m Ys dYs := by
  unfold newtonSolveStages at h
  simp only at h
  obtain ⟨s1, hs1, h⟩ := Outcome.bind_ret h
  have := refreshJac_ret hs1 (fun _ => rfl)
  subst this
  split_ifs at h with hn
  refine ⟨by omega, ?_⟩
  exact stageIter_run _ _ _ h rfl rfl rfl

end
end Verif
