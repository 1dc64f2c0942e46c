import Verif.StageVariants
import Verif.Prop.IrkSymmetry
import Verif.Prop.IrkAffine

/-!
# Property C111: the template parameters of `newton_solve_stages`
-/

set_option linter.unusedSectionVars false
set_option autoImplicit false

namespace Verif
open Spec
section
variable {F : Type} [Add F] [Sub F] [Mul F] [Div F] [Neg F] [Scalar F] {n : ℕ}
  {ad plu nd : Bool} {la : LinAlg F} {fn : OdeFun F n} {sc : SolverCoeffs F} {t dt : F} {y : Vec F n}
  {maxit refresh : ℤ} {xtol Rtol : F} {count : IrkCounters} {log : CallLog F n} {r : StageResult F (sc.ns * n) n}

theorem refreshG_plu (s : StageStateG F (sc.ns * n) n) :
    (refreshG true nd la fn sc t dt y s).bind (fun a => .ret a.toStageState) = refreshJac nd la fn sc t dt y s.toStageState ∧
      ∀ a, refreshG true nd la fn sc t dt y s = .ret a → a.step = s.step := by
  unfold refreshG refreshJac
  cases nd with
  | true => exact ⟨rfl, fun a h => by simp only [Bool.not_true, Bool.and_false, Bool.false_eq_true, if_false, Outcome.ret.injEq] at h; rw [← h]⟩
  | false =>
    cases h : la.lu (stageJac sc dt (fn.jac t y)) with
    | none => exact ⟨by simp [Outcome.bind, h], by simp [h]⟩
    | some q => exact ⟨by simp [Outcome.bind, h], fun a ha => by simp only [Bool.not_false, Bool.and_self, if_true, h, Outcome.ret.injEq] at ha; rw [← ha]⟩

theorem iterG_instance : ∀ (k : ℕ) (s : StageStateG F (sc.ns * n) n), s.step = lit 1 →
    iterG false true nd la fn sc t dt y refresh xtol Rtol k s = stageIter nd la fn sc t dt y refresh xtol Rtol k s.toStageState
  | 0, s, _ => rfl
  | k + 1, s, hs => by
    unfold iterG stageIter stepG stageStep dirG
    simp only [if_true, Bool.false_eq_true, if_false]
    cases hd : stageDir la s.lup s.R with
    | assertFail => rfl
    | throws => rfl
    | ub => rfl
    | ret dY =>
      simp only [Outcome.bind, hs]
      by_cases hc : (ltb (dot (constructR fn.fn sc t dt y fun p => s.Y p + lit 1 * dY p)
        (constructR fn.fn sc t dt y fun p => s.Y p + lit 1 * dY p)) (Rtol * Rtol) ||
        ltb (dot dY dY) (xtol * xtol)) = true
      · simp only [hc, if_true]
      · simp only [hc, Bool.false_eq_true, if_false]
        by_cases hr : refresh = 0
        · simp only [hr, if_true]
        · simp only [hr, if_false]
          by_cases hi : (s.iters : ℤ) % refresh = 0
          · simp only [hi, if_true]
            set s' : StageStateG F (sc.ns * n) n := { s with
              Y := fun p => s.Y p + lit 1 * dY p
              R := constructR fn.fn sc t dt y fun p => s.Y p + lit 1 * dY p
              count := { s.count with funEvals := s.count.funEvals + sc.ns }
              log := { s.log with funs := s.log.funs ++ constructCalls sc t dt y (fun p => s.Y p + lit 1 * dY p) }
              step := lit 1 } with hs'
            obtain ⟨h1, h2⟩ := refreshG_plu (nd := nd) (la := la) (fn := fn) (t := t) (dt := dt) (y := y) s'
            have e : refreshJac nd la fn sc t dt y
              { s.toStageState with
                Y := fun p => s.Y p + lit 1 * dY p
                R := constructR fn.fn sc t dt y fun p => s.Y p + lit 1 * dY p
                count := { s.count with funEvals := s.count.funEvals + sc.ns }
                log := { s.log with funs := s.log.funs ++ constructCalls sc t dt y (fun p => s.Y p + lit 1 * dY p) } } =
              (refreshG true nd la fn sc t dt y s').bind (fun a => .ret a.toStageState) := h1.symm
            rw [e]
            cases hg : refreshG true nd la fn sc t dt y s' with
            | assertFail => rfl
            | throws => rfl
            | ub => rfl
            | ret a =>
              simp only [Outcome.bind]
              exact iterG_instance k _ (by simpa using h2 a hg)
          · simp only [hi, if_false]
            exact iterG_instance k _ rfl

/-- **C111, the integrator's instance.**  `newton_solve_stages<functor_type, false, true>` is the stage solver the other theorems are
about: in any arithmetic, every argument, with and without assertions. -/
theorem C111_instance : newtonSolveStagesG false true nd la fn sc t dt y maxit refresh xtol Rtol count log =
    newtonSolveStages nd la fn sc t dt y maxit refresh xtol Rtol count log := by
  unfold newtonSolveStagesG newtonSolveStages
  simp only
  obtain ⟨h1, h2⟩ := refreshG_plu (nd := nd) (la := la) (fn := fn) (t := t) (dt := dt) (y := y)
    ({ iters := 1, Y := fun _ => lit 0, R := fun _ => lit 0, lup := none, J := fn.jac t y, count := count, log := log, JY := eye _, step := lit 1 } :
      StageStateG F (sc.ns * n) n)
  rw [← h1]
  cases hg : refreshG true nd la fn sc t dt y ({ iters := 1, Y := fun _ => lit 0, R := fun _ => lit 0, lup := none, J := fn.jac t y, count := count, log := log, JY := eye _, step := lit 1 } :
      StageStateG F (sc.ns * n) n) with
  | assertFail => rfl
  | throws => rfl
  | ub => rfl
  | ret a =>
    simp only [Outcome.bind, Bool.false_eq_true, if_false]
    split_ifs
    · rfl
    · exact iterG_instance _ _ rfl

/-- the factors in use -/
def lupG (plu nd : Bool) (la : LinAlg F) (fn : OdeFun F n) (sc : SolverCoeffs F) (t dt : F) (y : Vec F n) :
    Option (Mat F (sc.ns * n) × Mat F (sc.ns * n) × Mat F (sc.ns * n)) :=
  if plu then stageLup nd la fn sc t dt y else none

/-- the direction computed from the residual `R` with the matrix at `(t, y)` -/
def dirAt (plu nd : Bool) (la : LinAlg F) (fn : OdeFun F n) (sc : SolverCoeffs F) (t dt : F) (y : Vec F n) (R : Vec F (sc.ns * n)) :
    Outcome (Vec F (sc.ns * n)) :=
  if plu then stageDir la (stageLup nd la fn sc t dt y) R
  else match la.solve (stageJac sc dt (fn.jac t y)) R with
    | none => .throws
    | some x => .ret fun p => - x p

/-- the damping -/
def damp (ad : Bool) {m : ℕ} (R : Vec F m) : F := if ad then lit 1 / ssqrt (lit 1 + dot R R) else lit 1

/-- the state at the loop head -/
structure GInv (ad plu nd : Bool) (la : LinAlg F) (fn : OdeFun F n) (sc : SolverCoeffs F) (t dt : F) (y : Vec F n)
    (s : StageStateG F (sc.ns * n) n) : Prop where
  res : s.R = constructR fn.fn sc t dt y s.Y
  jac : s.J = fn.jac t y
  JY : s.JY = stageJac sc dt (fn.jac t y)
  lup : s.lup = lupG plu nd la fn sc t dt y
  step : s.step = damp ad s.R

theorem refreshG_ret {s s' : StageStateG F (sc.ns * n) n} (h : refreshG plu nd la fn sc t dt y s = .ret s')
    (hl : (plu && !nd) = false → s.lup = none) :
    s' = { s with
      J := fn.jac t y
      JY := stageJac sc dt (fn.jac t y)
      lup := lupG plu nd la fn sc t dt y
      count := { s.count with jacEvals := s.count.jacEvals + 1 }
      log := { s.log with jacs := s.log.jacs ++ [(t, y)] } } := by
  unfold refreshG at h
  unfold lupG stageLup
  by_cases hp : (plu && !nd) = true
  · simp only [hp, if_true] at h
    rw [Bool.and_eq_true] at hp
    have hnd : nd = false := by simpa using hp.2
    cases hlu : la.lu (stageJac sc dt (fn.jac t y)) with
    | none => rw [hlu] at h; cases h
    | some lup =>
      rw [hlu] at h
      simp only [Outcome.ret.injEq] at h
      rw [← h]
      simp [hp.1, hnd]
  · simp only [hp, Bool.false_eq_true, if_false, Outcome.ret.injEq] at h
    have hl := hl (by simpa using hp)
    rw [← h]
    cases plu <;> cases nd <;> simp_all

/-- iterates of a run of the template -/
structure GRun (ad plu nd : Bool) (la : LinAlg F) (fn : OdeFun F n) (sc : SolverCoeffs F) (t dt : F) (y : Vec F n)
    (refresh : ℤ) (xtol Rtol : F) (i : ℕ) (Y0 : Vec F (sc.ns * n)) (count : IrkCounters)
    (k : ℕ) (r : StageResult F (sc.ns * n) n) (m : ℕ) (Ys dYs : ℕ → Vec F (sc.ns * n)) : Prop where
  start : Ys 0 = Y0
  dir : ∀ j < m, dirAt plu nd la fn sc t dt y (constructR fn.fn sc t dt y (Ys j)) = .ret (dYs j)
  upd : ∀ j < m, Ys (j + 1) = fun p => Ys j p + damp ad (constructR fn.fn sc t dt y (Ys j)) * dYs j p
  final : r.Y = Ys m
  jac : r.J = fn.jac t y
  early : ∀ j, j + 1 < m → ¬ Converged fn.fn sc t dt y xtol Rtol (Ys (j + 1)) (dYs j)
  stop : (r.status = 0 ∧ 0 < m ∧ m ≤ k ∧ Converged fn.fn sc t dt y xtol Rtol (Ys m) (dYs (m - 1)) ∧ r.iters + 1 = i + m) ∨
         (r.status = 3 ∧ m = k ∧ r.iters = i + m ∧ ∀ j < m, ¬ Converged fn.fn sc t dt y xtol Rtol (Ys (j + 1)) (dYs j))
  count : r.count = { count with
    funEvals := count.funEvals + sc.ns * m
    jacEvals := count.jacEvals + refreshes refresh i (r.iters - i) }

theorem dirG_at {s : StageStateG F (sc.ns * n) n} (hs : GInv ad plu nd la fn sc t dt y s) :
    dirG plu la s = dirAt plu nd la fn sc t dt y (constructR fn.fn sc t dt y s.Y) := by
  unfold dirG dirAt
  rw [← hs.res, hs.JY, hs.lup, lupG]
  cases plu
  · simp only [Bool.false_eq_true, if_false]
    cases la.solve (stageJac sc dt (fn.jac t y)) s.R <;> rfl
  · simp

theorem iterG_run (k : ℕ) (s : StageStateG F (sc.ns * n) n) (r : StageResult F (sc.ns * n) n)
    (h : iterG ad plu nd la fn sc t dt y refresh xtol Rtol k s = .ret r) (hs : GInv ad plu nd la fn sc t dt y s) :
    ∃ m Ys dYs, GRun ad plu nd la fn sc t dt y refresh xtol Rtol s.iters s.Y s.count k r m Ys dYs := by
  induction k generalizing s with
  | zero =>
    simp only [iterG, Outcome.ret.injEq] at h
    subst h
    refine ⟨0, fun _ => s.Y, fun _ => s.Y, rfl, by simp, by simp, rfl, hs.jac, by simp, ?_, by simp [refreshes]⟩
    exact Or.inr ⟨rfl, rfl, by simp, by simp⟩
  | succ k ih =>
    rw [iterG] at h
    obtain ⟨q, hq, hb⟩ := Outcome.bind_ret h
    unfold stepG at hq
    obtain ⟨dY, hdY, hq⟩ := Outcome.bind_ret hq
    rw [dirG_at hs] at hdY
    have hst : s.step = damp ad (constructR fn.fn sc t dt y s.Y) := by rw [hs.step, hs.res]
    rw [hst] at hq
    simp only at hq
    set Y' : Vec F (sc.ns * n) := fun p => s.Y p + damp ad (constructR fn.fn sc t dt y s.Y) * dY p with hY'
    by_cases hc : (ltb (dot (constructR fn.fn sc t dt y Y') (constructR fn.fn sc t dt y Y')) (Rtol * Rtol) ||
        ltb (dot dY dY) (xtol * xtol)) = true
    · rw [if_pos hc] at hq
      simp only [Outcome.ret.injEq] at hq
      subst hq
      simp only [Outcome.ret.injEq] at hb
      subst hb
      refine ⟨1, fun j => if j = 0 then s.Y else Y', fun _ => dY, by simp, ?_, ?_, by simp, hs.jac, by simp, ?_, by simp [refreshes]⟩
      · intro j hj
        obtain rfl : j = 0 := by omega
        simpa using hdY
      · intro j hj
        obtain rfl : j = 0 := by omega
        simp [hY']
      · left
        refine ⟨rfl, by omega, by omega, ?_, rfl⟩
        simpa [Converged, Bool.or_eq_true] using hc
    · rw [if_neg hc] at hq
      by_cases hr0 : refresh = 0
      · rw [if_pos hr0] at hq; cases hq
      rw [if_neg hr0] at hq
      obtain ⟨s'', hs'', hq⟩ := Outcome.bind_ret hq
      simp only [Outcome.ret.injEq] at hq
      subst hq
      simp only at hb
      have hconv : ¬ Converged fn.fn sc t dt y xtol Rtol Y' dY := by
        simpa [Converged, Bool.or_eq_true] using hc
      have hfac : (plu && !nd) = false → s.lup = none := by
        intro hp
        rw [hs.lup, lupG, stageLup]
        cases plu <;> cases nd <;> simp_all
      have hinv : s''.Y = Y' ∧ GInv ad plu nd la fn sc t dt y { s'' with iters := s.iters + 1 } ∧
          s''.count = { s.count with
            funEvals := s.count.funEvals + sc.ns
            jacEvals := s.count.jacEvals + (if (s.iters : ℤ) % refresh = 0 then 1 else 0) } := by
        by_cases hi : (s.iters : ℤ) % refresh = 0
        · rw [if_pos hi] at hs''
          have := refreshG_ret hs'' hfac
          subst this
          refine ⟨rfl, ⟨rfl, rfl, rfl, rfl, ?_⟩, by simp [hi]⟩
          unfold damp
          cases ad
          · simp
          · rfl
        · rw [if_neg hi] at hs''
          simp only [Outcome.ret.injEq] at hs''
          subst hs''
          refine ⟨rfl, ⟨rfl, hs.jac, hs.JY, hs.lup, ?_⟩, by simp [hi]⟩
          unfold damp
          cases ad
          · simp
          · rfl
      obtain ⟨hY, hI, hcn⟩ := hinv
      obtain ⟨m, Ys, dYs, H⟩ := ih _ hb hI
      have hir : s.iters + 1 ≤ r.iters := by
        rcases H.stop with h | h
        · have := h.2.2.2.2; simp only at this; omega
        · have := h.2.2.1; simp only at this; omega
      refine ⟨m + 1, fun j => if j = 0 then s.Y else Ys (j - 1), fun j => if j = 0 then dY else dYs (j - 1), by simp,
        ?_, ?_, by simpa using H.final, H.jac, ?_, ?_, ?_⟩
      · intro j hj
        cases j with
        | zero => simpa using hdY
        | succ j => simpa using H.dir j (by omega)
      · intro j hj
        cases j with
        | zero => simp [H.start, hY, hY']
        | succ j => simpa using H.upd j (by omega)
      · intro j hj
        cases j with
        | zero => simpa [H.start, hY] using hconv
        | succ j => simpa using H.early j (by omega)
      · rcases H.stop with ⟨h1, h2, h3, h4, h5⟩ | ⟨h1, h2, h3, h4⟩
        · left
          have : m ≠ 0 := by omega
          refine ⟨h1, by omega, by omega, ?_, ?_⟩
          · simpa [this] using h4
          · simp only at h5; omega
        · right
          refine ⟨h1, by omega, ?_, ?_⟩
          · simp only at h3; omega
          · intro j hj
            cases j with
            | zero => simpa [H.start, hY] using hconv
            | succ j => simpa using h4 j (by omega)
      · rw [H.count]
        simp only [hcn]
        rw [show r.iters - s.iters = (r.iters - (s.iters + 1)) + 1 by omega, refreshes_succ]
        simp only [Nat.mul_succ]
        congr 1 <;> omega

theorem stage_runG (h : newtonSolveStagesG ad plu nd la fn sc t dt y maxit refresh xtol Rtol count log = .ret r) :
    (sc.ns = 0 ∨ (0 < n ∧ sc.ns ≤ sc.c.length)) ∧
    ∃ m Ys dYs, GRun ad plu nd la fn sc t dt y refresh xtol Rtol 1 (fun _ => lit 0)
      { count with funEvals := count.funEvals + sc.ns, jacEvals := count.jacEvals + 1 } (maxit - 1).toNat r m Ys dYs := by
  unfold newtonSolveStagesG at h
  simp only at h
  obtain ⟨s1, hs1, h⟩ := Outcome.bind_ret h
  have := refreshG_ret hs1 (fun _ => rfl)
  subst this
  by_cases hn : sc.ns ≠ 0 ∧ (n = 0 ∨ sc.c.length < sc.ns)
  · rw [if_pos hn] at h; cases h
  rw [if_neg hn] at h
  exact ⟨by omega, iterG_run _ _ _ h ⟨rfl, rfl, rfl, rfl, rfl⟩⟩

/-- **C111, contract.**  For every choice of the template parameters, with and without assertions, in any arithmetic: a returned call of
`newton_solve_stages` has made iterates from 0, each obtained from the one before by the damped direction computed with
`I - dt*A⊗J(t,y)`; SUCCESS (0) means that the last pass, and no earlier one, met one of the two tests, MAXIT_EXCEEDED (3) that none of
`maxit - 1` passes did; no other status occurs, and the evaluation counters are exact. -/
theorem C111_contract (h : newtonSolveStagesG ad plu nd la fn sc t dt y maxit refresh xtol Rtol count log = .ret r) :
    ∃ (m : ℕ) (Ys dYs : ℕ → Vec F (sc.ns * n)), Ys 0 = (fun _ => lit 0) ∧ r.Y = Ys m ∧ r.J = fn.jac t y ∧
      (∀ j < m, (plu = false → ∃ x, la.solve (fun p q => eye (sc.ns * n) p q - dt * kron sc.mat (fn.jac t y) p q)
          (constructR fn.fn sc t dt y (Ys j)) = some x ∧ dYs j = fun p => - x p) ∧
        (plu = true → ∃ L U P x, nd = false ∧ la.lu (fun p q => eye (sc.ns * n) p q - dt * kron sc.mat (fn.jac t y) p q) = some (L, U, P) ∧
          la.solveL (fun p q => - L p q) (mulVec P (constructR fn.fn sc t dt y (Ys j))) = some x ∧ la.solveU U x = some (dYs j)) ∧
        Ys (j + 1) = fun p => Ys j p + (if ad then lit 1 / ssqrt (lit 1 + dot (constructR fn.fn sc t dt y (Ys j)) (constructR fn.fn sc t dt y (Ys j)))
          else lit 1) * dYs j p) ∧
      ((r.status = 0 ∧ 0 < m ∧ (m : ℤ) < maxit ∧
          (ltb (dot (constructR fn.fn sc t dt y r.Y) (constructR fn.fn sc t dt y r.Y)) (Rtol * Rtol) = true ∨
            ltb (dot (dYs (m - 1)) (dYs (m - 1))) (xtol * xtol) = true) ∧
          ∀ j, j + 1 < m → ¬ (ltb (dot (constructR fn.fn sc t dt y (Ys (j + 1)))
            (constructR fn.fn sc t dt y (Ys (j + 1)))) (Rtol * Rtol) = true ∨
              ltb (dot (dYs j) (dYs j)) (xtol * xtol) = true)) ∨
       (r.status = 3 ∧ (m : ℤ) = max (maxit - 1) 0 ∧
          ∀ j < m, ¬ (ltb (dot (constructR fn.fn sc t dt y (Ys (j + 1)))
            (constructR fn.fn sc t dt y (Ys (j + 1)))) (Rtol * Rtol) = true ∨
              ltb (dot (dYs j) (dYs j)) (xtol * xtol) = true))) ∧
      r.count.funEvals = count.funEvals + sc.ns * (m + 1) ∧
      r.count.jacEvals = count.jacEvals + 1 + ((List.range (r.iters - 1)).filter fun k => ((1 + k : ℕ) : ℤ) % refresh = 0).length := by
  obtain ⟨-, m, Ys, dYs, H⟩ := stage_runG h
  refine ⟨m, Ys, dYs, H.start, H.final, H.jac, ?_, ?_, ?_, ?_⟩
  · intro j hj
    have hd := H.dir j hj
    unfold dirAt at hd
    refine ⟨?_, ?_, H.upd j hj⟩
    · rintro rfl
      simp only [Bool.false_eq_true, if_false] at hd
      split at hd
      · cases hd
      · rename_i x hx
        simp only [Outcome.ret.injEq] at hd
        exact ⟨x, hx, hd.symm⟩
    · rintro rfl
      simp only [if_true] at hd
      unfold stageDir at hd
      split at hd
      · cases hd
      · rename_i L U P hl
        unfold stageLup at hl
        cases nd with
        | true => simp at hl
        | false =>
          simp only [Bool.false_eq_true, if_false] at hl
          split at hd
          · cases hd
          · rename_i x hx
            split at hd
            · cases hd
            · rename_i z hz
              simp only [Outcome.ret.injEq] at hd
              subst hd
              exact ⟨L, U, P, x, rfl, hl, hx, hz⟩
  · rcases H.stop with ⟨h1, h2, h3, h4, h5⟩ | ⟨h1, h2, h3, h4⟩
    · left
      refine ⟨h1, h2, by omega, ?_, H.early⟩
      rw [H.final]; exact h4
    · right
      exact ⟨h1, by omega, h4⟩
  · rw [H.count]; simp only; ring
  · rw [H.count]; rfl

end

section
variable {n : ℕ} {ad nd : Bool} {fn : OdeFun ℝ n} {sc : SolverCoeffs ℝ} {t dt : ℝ} {y : Vec ℝ n}
  {maxit refresh : ℤ} {xtol Rtol : ℝ} {count : IrkCounters} {log : CallLog ℝ n}

open Classical in
theorem dirAt_real (plu : Bool) (h : plu = true → nd = false) (R : Vec ℝ (sc.ns * n)) :
    dirAt plu nd laReal fn sc t dt y R = if IsUnit (Matrix.of (stageJac sc dt (fn.jac t y))).det then
      .ret (-(Matrix.of (stageJac sc dt (fn.jac t y)))⁻¹.mulVec R) else .throws := by
  unfold dirAt
  cases plu
  · simp only [Bool.false_eq_true, if_false, laReal]
    by_cases hM : IsUnit (Matrix.of (stageJac sc dt (fn.jac t y))).det
    · simp only [if_pos hM]; rfl
    · simp only [if_neg hM]
  · simp only [if_true, stageLup, h rfl, Bool.false_eq_true, if_false]
    exact stageDir_laReal _ _

theorem refreshG_real (s : StageStateG ℝ (sc.ns * n) n) : ∃ a, refreshG true false laReal fn sc t dt y s = .ret a ∧
    refreshG false nd laReal fn sc t dt y { s with lup := none } = .ret { a with lup := none } := by
  obtain ⟨q, hq⟩ := laReal_lu_some (stageJac sc dt (fn.jac t y))
  unfold refreshG
  simp [hq]

theorem refreshG_inv {plu : Bool} {s a : StageStateG ℝ (sc.ns * n) n} (h : refreshG plu nd laReal fn sc t dt y s = .ret a)
    (hl : (plu && !nd) = false → s.lup = none) (hr : s.R = constructR fn.fn sc t dt y s.Y) (hs : s.step = damp ad s.R) :
    GInv ad plu nd laReal fn sc t dt y a := by
  rw [refreshG_ret h hl]
  exact ⟨hr, rfl, rfl, rfl, hs⟩

theorem iterG_plu : ∀ (k : ℕ) (s : StageStateG ℝ (sc.ns * n) n), GInv ad true false laReal fn sc t dt y s →
    iterG ad true false laReal fn sc t dt y refresh xtol Rtol k s =
      iterG ad false nd laReal fn sc t dt y refresh xtol Rtol k { s with lup := none }
  | 0, s, _ => rfl
  | k + 1, s, hs => by
    have hs' : GInv ad false nd laReal fn sc t dt y { s with lup := none } := ⟨hs.res, hs.jac, hs.JY, rfl, hs.step⟩
    unfold iterG stepG
    rw [dirG_at hs, dirG_at hs', dirAt_real true (by simp), dirAt_real false (by simp)]
    by_cases hM : IsUnit (Matrix.of (stageJac sc dt (fn.jac t y))).det
    swap
    · simp only [if_neg hM]; rfl
    simp only [if_pos hM, Outcome.bind]
    generalize hdY : -(Matrix.of (stageJac sc dt (fn.jac t y)))⁻¹.mulVec (constructR fn.fn sc t dt y s.Y) = dY
    by_cases hc : (ltb (dot (constructR fn.fn sc t dt y fun p => s.Y p + s.step * dY p)
        (constructR fn.fn sc t dt y fun p => s.Y p + s.step * dY p)) (Rtol * Rtol) || ltb (dot dY dY) (xtol * xtol)) = true
    · simp only [hc, if_true]
    · simp only [hc, Bool.false_eq_true, if_false]
      by_cases hr : refresh = 0
      · simp only [hr, if_true]
      · simp only [hr, if_false]
        set st : StageStateG ℝ (sc.ns * n) n := { s with
          Y := fun p => s.Y p + s.step * dY p
          R := constructR fn.fn sc t dt y fun p => s.Y p + s.step * dY p
          count := { s.count with funEvals := s.count.funEvals + sc.ns }
          log := { s.log with funs := s.log.funs ++ constructCalls sc t dt y (fun p => s.Y p + s.step * dY p) }
          step := if ad = true then lit 1 / ssqrt (lit 1 + dot (constructR fn.fn sc t dt y fun p => s.Y p + s.step * dY p)
            (constructR fn.fn sc t dt y fun p => s.Y p + s.step * dY p)) else s.step } with hst
        have hstep : st.step = damp ad st.R := by
          have := hs.step
          unfold damp at this ⊢
          cases ad
          · simpa [hst] using this
          · rfl
        by_cases hi : (s.iters : ℤ) % refresh = 0
        · simp only [hi, if_true]
          obtain ⟨a, h1, h2⟩ := refreshG_real (nd := nd) (fn := fn) (t := t) (dt := dt) (y := y) st
          rw [h1, h2]
          simp only
          have := refreshG_inv h1 (by simp) rfl hstep
          exact iterG_plu k _ ⟨this.res, this.jac, this.JY, this.lup, this.step⟩
        · simp only [hi, if_false]
          exact iterG_plu k _ ⟨rfl, hs.jac, hs.JY, hs.lup, hstep⟩

/-- **C111, factorised or not.**  In exact arithmetic and with assertions the parameter `PLU_decomposition` does not matter: both
settings have the same outcome - the same result, or both throw because `I - dt*A⊗J` is singular. -/
theorem C111_plu : newtonSolveStagesG ad true false laReal fn sc t dt y maxit refresh xtol Rtol count log =
    newtonSolveStagesG ad false nd laReal fn sc t dt y maxit refresh xtol Rtol count log := by
  unfold newtonSolveStagesG
  simp only
  obtain ⟨a, h1, h2⟩ := refreshG_real (nd := nd) (fn := fn) (t := t) (dt := dt) (y := y)
    ({ iters := 1, Y := fun _ => lit 0, R := fun _ => lit 0, lup := none, J := fn.jac t y, count := count, log := log,
       JY := eye _, step := lit 1 } : StageStateG ℝ (sc.ns * n) n)
  rw [h1, h2]
  simp only [Outcome.bind]
  by_cases hn : sc.ns ≠ 0 ∧ (n = 0 ∨ sc.c.length < sc.ns)
  · rw [if_pos hn, if_pos hn]
  · rw [if_neg hn, if_neg hn]
    have := refreshG_ret h1 (fun _ => rfl)
    subst this
    exact iterG_plu _ _ ⟨rfl, rfl, rfl, rfl, rfl⟩

/-- **C111, without assertions.**  Compiled with `NDEBUG` the factorisation inside `assert` is not performed: the variants with
`PLU_decomposition` throw as soon as one pass is made (any arithmetic), while the others do not depend on `NDEBUG`. -/
theorem C111_ndebug {F : Type} [Add F] [Sub F] [Mul F] [Div F] [Neg F] [Scalar F] {la : LinAlg F} {fn : OdeFun F n}
    {sc : SolverCoeffs F} {t dt : F} {y : Vec F n} {xtol Rtol : F} {log : CallLog F n} :
    (2 ≤ maxit → newtonSolveStagesG ad true true la fn sc t dt y maxit refresh xtol Rtol count log = .throws) ∧
    newtonSolveStagesG ad false true la fn sc t dt y maxit refresh xtol Rtol count log =
      newtonSolveStagesG ad false false la fn sc t dt y maxit refresh xtol Rtol count log := by
  constructor
  · intro hm
    unfold newtonSolveStagesG refreshG
    simp only [Bool.not_true, Bool.and_false, Bool.false_eq_true, if_false, Outcome.bind]
    by_cases hn : sc.ns ≠ 0 ∧ (n = 0 ∨ sc.c.length < sc.ns)
    · rw [if_pos hn]
    · rw [if_neg hn, show (maxit - 1).toNat = (maxit - 2).toNat + 1 by omega]
      simp [iterG, stepG, dirG, stageDir, Outcome.bind]
  · have hr : ∀ s : StageStateG F (sc.ns * n) n, refreshG false true la fn sc t dt y s = refreshG false false la fn sc t dt y s :=
      fun _ => rfl
    have hi : ∀ (k : ℕ) (s : StageStateG F (sc.ns * n) n), iterG ad false true la fn sc t dt y refresh xtol Rtol k s =
        iterG ad false false la fn sc t dt y refresh xtol Rtol k s := by
      intro k
      induction k with
      | zero => intro s; rfl
      | succ k ih =>
        intro s
        unfold iterG stepG
        simp only [hr, ih]
    unfold newtonSolveStagesG
    simp only [hr, hi]

/-- the residual of an affine right-hand side along a Newton direction -/
theorem constructR_affine (ha : IsAffine fn) (hM : IsUnit (Matrix.of (stageJac sc dt (fn.jac t y))).det)
    (Y : Vec ℝ (sc.ns * n)) (s : ℝ) :
    constructR fn.fn sc t dt y (fun p => Y p + s *
        (-(Matrix.of (stageJac sc dt (fn.jac t y)))⁻¹.mulVec (constructR fn.fn sc t dt y Y)) p) =
      (1 - s) • constructR fn.fn sc t dt y Y := by
  obtain ⟨J, g, hf, hJ⟩ := ha
  set R := constructR fn.fn sc t dt y Y with hR
  generalize hdY : -(Matrix.of (stageJac sc dt (fn.jac t y)))⁻¹.mulVec R = dY
  have hMd : mulVec (stageJac sc dt (fn.jac t y)) dY = -R := by
    rw [mulVec_real, ← hdY, Matrix.mulVec_neg, Matrix.mulVec_mulVec, Matrix.mul_nonsing_inv _ hM, Matrix.one_mulVec]
  funext p
  obtain ⟨⟨i, q⟩, rfl⟩ := finProdFinEquiv.surjective p
  rw [constructR_eq]
  have e : (fun j l => Y (finProdFinEquiv (j, l)) + s * dY (finProdFinEquiv (j, l)) : Fin sc.ns → Vec ℝ n) =
      (fun j l => Y (finProdFinEquiv (j, l))) + s • fun j l => dY (finProdFinEquiv (j, l)) := rfl
  rw [e, stageResidual_affine hf, Pi.add_apply, ← constructR_eq, ← hR]
  have h2 := congrFun hMd (finProdFinEquiv (i, q))
  have h3 : mulVec (stageJac sc dt (fn.jac t y)) dY (finProdFinEquiv (i, q)) =
      dY (finProdFinEquiv (i, q)) - mulVec (fun p q => dt * kron sc.mat (fn.jac t y) p q) dY (finProdFinEquiv (i, q)) := by
    have : (stageJac sc dt (fn.jac t y)) = fun p q => eye (sc.ns * n) p q - dt * kron sc.mat (fn.jac t y) p q := rfl
    rw [this, mulVec_real, mulVec_real]
    simp only [Matrix.mulVec, dotProduct, Matrix.of_apply, sub_mul, Finset.sum_sub_distrib, eye_real, Matrix.one_apply, ite_mul,
      one_mul, zero_mul, Finset.sum_ite_eq, Finset.mem_univ, if_true]
  rw [h3, kron_mulVec] at h2
  simp only [Pi.neg_apply] at h2
  simp only [Pi.sub_apply, Pi.smul_apply, Finset.sum_apply, smul_eq_mul, Matrix.mulVec_smul, Matrix.mulVec, dotProduct]
  simp only [hJ] at h2
  have e4 : ∑ j : Fin sc.ns, sc.a i j * (s * ∑ l, J q l * dY (finProdFinEquiv (j, l))) =
      s * ∑ j : Fin sc.ns, sc.mat i j * ∑ l, J q l * dY (finProdFinEquiv (j, l)) := by
    rw [Finset.mul_sum]
    exact Finset.sum_congr rfl fun j _ => by rw [show sc.mat i j = sc.a i j from rfl]; ring
  rw [e4]
  linear_combination s * h2

theorem iterG_total (hr : refresh ≠ 0) (hM : IsUnit (Matrix.of (stageJac sc dt (fn.jac t y))).det) (k : ℕ)
    (s : StageStateG ℝ (sc.ns * n) n) (hs : GInv ad false nd laReal fn sc t dt y s) :
    ∃ r, iterG ad false nd laReal fn sc t dt y refresh xtol Rtol k s = .ret r := by
  induction k generalizing s with
  | zero => exact ⟨_, rfl⟩
  | succ k ih =>
    unfold iterG stepG
    rw [dirG_at hs, dirAt_real false (by simp), if_pos hM]
    simp only [Outcome.bind]
    generalize hdY : -(Matrix.of (stageJac sc dt (fn.jac t y)))⁻¹.mulVec (constructR fn.fn sc t dt y s.Y) = dY
    by_cases hc : (ltb (dot (constructR fn.fn sc t dt y fun p => s.Y p + s.step * dY p)
        (constructR fn.fn sc t dt y fun p => s.Y p + s.step * dY p)) (Rtol * Rtol) || ltb (dot dY dY) (xtol * xtol)) = true
    · simp only [hc, if_true]
      exact ⟨_, rfl⟩
    · simp only [hc, Bool.false_eq_true, if_false, hr]
      have hstep : (if ad = true then lit 1 / ssqrt (lit 1 + dot (constructR fn.fn sc t dt y fun p => s.Y p + s.step * dY p)
            (constructR fn.fn sc t dt y fun p => s.Y p + s.step * dY p)) else s.step) =
          damp ad (constructR fn.fn sc t dt y fun p => s.Y p + s.step * dY p) := by
        have := hs.step
        unfold damp at this ⊢
        cases ad
        · simpa using this
        · rfl
      by_cases hi : (s.iters : ℤ) % refresh = 0
      · simp only [hi, if_true]
        unfold refreshG
        simp only [Bool.false_and, Bool.false_eq_true, if_false]
        exact ih _ ⟨rfl, rfl, rfl, hs.lup, hstep⟩
      · simp only [hi, if_false]
        exact ih _ ⟨rfl, hs.jac, hs.JY, hs.lup, hstep⟩

theorem stagesG_total (plu : Bool) (hp : plu = true → nd = false) (hn : 0 < n) (hc : sc.ns ≤ sc.c.length) (hr : refresh ≠ 0)
    (hM : IsUnit (Matrix.of (stageJac sc dt (fn.jac t y))).det) :
    ∃ r, newtonSolveStagesG ad plu nd laReal fn sc t dt y maxit refresh xtol Rtol count log = .ret r := by
  have key : ∃ r, newtonSolveStagesG ad false false laReal fn sc t dt y maxit refresh xtol Rtol count log = .ret r := by
    unfold newtonSolveStagesG refreshG
    simp only [Bool.false_and, Bool.false_eq_true, if_false, Outcome.bind]
    rw [if_neg (by omega)]
    exact iterG_total hr hM _ _ ⟨rfl, rfl, rfl, rfl, rfl⟩
  cases plu
  · cases nd
    · exact key
    · rw [(C111_ndebug (F := ℝ)).2]; exact key
  · obtain rfl := hp rfl
    rw [C111_plu (nd := false)]
    exact key

/-- the residual `Y_i - dt*Σ a_ij f(t + c_j dt, y + Y_j)` of stage `i` -/
noncomputable def resAt (fn : OdeFun ℝ n) (sc : SolverCoeffs ℝ) (t dt : ℝ) (y : Vec ℝ n) (Y : Vec ℝ (sc.ns * n)) (i : Fin sc.ns) : Vec ℝ n :=
  stageResidual fn.fn sc t dt y (fun j l => Y (finProdFinEquiv (j, l))) i

/-- sum of the squares of the residual -/
noncomputable def sqRes (fn : OdeFun ℝ n) (sc : SolverCoeffs ℝ) (t dt : ℝ) (y : Vec ℝ n) (Y : Vec ℝ (sc.ns * n)) : ℝ :=
  ∑ i, ∑ k, (resAt fn sc t dt y Y i k) ^ 2

theorem sqRes_dot (Y : Vec ℝ (sc.ns * n)) :
    dot (constructR fn.fn sc t dt y Y) (constructR fn.fn sc t dt y Y) = sqRes fn sc t dt y Y := by
  rw [dot_stage]
  simp only [constructR_eq]
  rfl

theorem resAt_ext {c : ℝ} {Y Z : Vec ℝ (sc.ns * n)} (h : constructR fn.fn sc t dt y Z = c • constructR fn.fn sc t dt y Y) (i : Fin sc.ns) :
    resAt fn sc t dt y Z i = c • resAt fn sc t dt y Y i := by
  funext k
  have := congrFun h (finProdFinEquiv (i, k))
  rw [constructR_eq, Pi.smul_apply, constructR_eq] at this
  exact this

theorem sqRes_smul {c : ℝ} {Y Z : Vec ℝ (sc.ns * n)} (h : ∀ i, resAt fn sc t dt y Z i = c • resAt fn sc t dt y Y i) :
    sqRes fn sc t dt y Z = c ^ 2 * sqRes fn sc t dt y Y := by
  unfold sqRes
  simp only [h, Pi.smul_apply, smul_eq_mul, mul_pow, Finset.mul_sum]

/-- the step length of the damped variant -/
noncomputable def dampLen (ρ : ℝ) : ℝ := 1 / Real.sqrt (1 + ρ)

theorem dampLen_pos {ρ : ℝ} (h : 0 ≤ ρ) : 0 < dampLen ρ := by unfold dampLen; positivity

theorem dampLen_le_one {ρ : ℝ} (h : 0 ≤ ρ) : dampLen ρ ≤ 1 := by
  unfold dampLen
  rw [div_le_one (by positivity)]
  exact Real.one_le_sqrt.mpr (by linarith)

theorem dampLen_anti {ρ σ : ℝ} (h : 0 ≤ ρ) (hσ : ρ ≤ σ) : dampLen σ ≤ dampLen ρ := by
  unfold dampLen
  exact one_div_le_one_div_of_le (by positivity) (Real.sqrt_le_sqrt (by linarith))

/-- **C111, affine right-hand sides.**  In exact arithmetic, with regular `I - dt*A⊗J` and `refresh_jac ≠ 0`, every variant (the factorised
ones with assertions) returns, and each pass multiplies the residual of all stages by `1 - s`, `s` the damping.  Hence the undamped
variants solve the stage equations in one pass, and the damped ones succeed once `(1 - s₀)^(2N) ‖R₀‖²` is below the square of the
tolerance; without a tolerance for the increments success means that the residual of the result is below the tolerance. -/
theorem C111_affine (plu : Bool) (hp : plu = true → nd = false) (ha : IsAffine fn) (hn : 0 < n) (hc : sc.ns ≤ sc.c.length)
    (hr : refresh ≠ 0) (hM : IsUnit (Matrix.of fun p q => eye (sc.ns * n) p q - dt * kron sc.mat (fn.jac t y) p q).det) :
    ∃ (r : StageResult ℝ (sc.ns * n) n) (m : ℕ) (Ys : ℕ → Vec ℝ (sc.ns * n)),
      newtonSolveStagesG ad plu nd laReal fn sc t dt y maxit refresh xtol Rtol count log = .ret r ∧ Ys 0 = 0 ∧ r.Y = Ys m ∧
      (∀ j < m, ∀ i, resAt fn sc t dt y (Ys (j + 1)) i =
        (1 - if ad then 1 / Real.sqrt (1 + sqRes fn sc t dt y (Ys j)) else 1) • resAt fn sc t dt y (Ys j) i) ∧
      (ad = false → Rtol ≠ 0 → 2 ≤ maxit → r.status = 0 ∧ m = 1 ∧ ∀ i, resAt fn sc t dt y r.Y i = 0) ∧
      (ad = true → ∀ N : ℕ, 1 ≤ N → (N : ℤ) < maxit →
        (1 - 1 / Real.sqrt (1 + sqRes fn sc t dt y 0)) ^ (2 * N) * sqRes fn sc t dt y 0 < Rtol ^ 2 → r.status = 0 ∧ m ≤ N) ∧
      (r.status = 0 → 0 < m ∧ (m : ℤ) < maxit ∧ (xtol = 0 → sqRes fn sc t dt y r.Y < Rtol ^ 2)) := by
  have hM' : IsUnit (Matrix.of (stageJac sc dt (fn.jac t y))).det := hM
  obtain ⟨r, h⟩ := stagesG_total (ad := ad) (maxit := maxit) (xtol := xtol) (Rtol := Rtol) (count := count) (log := log) plu hp hn hc hr hM'
  obtain ⟨-, m, Ys, dYs, H⟩ := stage_runG h
  have h0 : Ys 0 = 0 := by rw [H.start]; funext p; simp
  have hdamp : ∀ j, damp ad (constructR fn.fn sc t dt y (Ys j)) =
      if ad then 1 / Real.sqrt (1 + sqRes fn sc t dt y (Ys j)) else 1 := by
    intro j
    unfold damp
    rw [sqRes_dot]
    simp
  have hrec : ∀ j < m, ∀ i, resAt fn sc t dt y (Ys (j + 1)) i =
        (1 - if ad then 1 / Real.sqrt (1 + sqRes fn sc t dt y (Ys j)) else 1) • resAt fn sc t dt y (Ys j) i := by
    intro j hj i
    apply resAt_ext
    have hd := H.dir j hj
    rw [dirAt_real plu hp, if_pos hM'] at hd
    simp only [Outcome.ret.injEq] at hd
    rw [H.upd j hj, ← hd, constructR_affine ha hM', hdamp]
  refine ⟨r, m, Ys, h, h0, H.final, hrec, ?_, ?_, ?_⟩
  · rintro rfl ht hmax
    have hz : ∀ j < m, ∀ i, resAt fn sc t dt y (Ys (j + 1)) i = 0 := fun j hj i => by rw [hrec j hj i]; simp
    have hconv : ∀ j < m, Converged fn.fn sc t dt y xtol Rtol (Ys (j + 1)) (dYs j) := by
      intro j hj
      left
      rw [sqRes_dot, show sqRes fn sc t dt y (Ys (j + 1)) = 0 by unfold sqRes; simp [hz j hj]]
      simpa using ht
    rcases H.stop with ⟨h1, h2, h3, h4, h5⟩ | ⟨h1, h2, h3, h4⟩
    · have hm1 : m = 1 := by
        by_contra hne
        exact H.early 0 (by omega) (hconv 0 (by omega))
      refine ⟨h1, hm1, fun i => ?_⟩
      rw [H.final, hm1]
      exact hz 0 (by omega) i
    · exact absurd (hconv 0 (by omega)) (h4 0 (by omega))
  · rintro rfl N hN hNm hlt
    simp only [if_true] at hrec
    have hnn : ∀ Y : Vec ℝ (sc.ns * n), 0 ≤ sqRes fn sc t dt y Y := fun Y =>
      Finset.sum_nonneg fun _ _ => Finset.sum_nonneg fun _ _ => sq_nonneg _
    set ρ := sqRes fn sc t dt y 0 with hρ
    have hs0 : 0 ≤ 1 - dampLen ρ := by linarith [dampLen_le_one (hnn 0)]
    have hs1 : 1 - dampLen ρ ≤ 1 := by linarith [dampLen_pos (hnn 0)]
    have hb : ∀ j ≤ m, sqRes fn sc t dt y (Ys j) ≤ (1 - dampLen ρ) ^ (2 * j) * ρ := by
      intro j
      induction j with
      | zero => intro _; rw [h0]; simp [hρ]
      | succ j ih =>
        intro hj
        have ih := ih (by omega)
        have hle : sqRes fn sc t dt y (Ys j) ≤ ρ := ih.trans (mul_le_of_le_one_left (hnn 0) (pow_le_one₀ hs0 hs1))
        rw [sqRes_smul (hrec j (by omega)), show 2 * (j + 1) = 2 + 2 * j by ring, pow_add, mul_assoc]
        have hd := dampLen_anti (hnn (Ys j)) hle
        have hd1 := dampLen_le_one (hnn (Ys j))
        have h1 : (1 - dampLen (sqRes fn sc t dt y (Ys j))) ^ 2 ≤ (1 - dampLen ρ) ^ 2 :=
          pow_le_pow_left₀ (by linarith) (by linarith) 2
        exact mul_le_mul h1 ih (hnn _) (sq_nonneg _)
    have hcv : ∀ j, j + 1 = N → j < m → Converged fn.fn sc t dt y xtol Rtol (Ys (j + 1)) (dYs j) := by
      intro j hj hjm
      left
      rw [sqRes_dot]
      have := (hb (j + 1) (by omega)).trans_lt (by rw [hj]; exact hlt)
      simpa [sq] using this
    rcases H.stop with ⟨h1, h2, h3, h4, h5⟩ | ⟨h1, h2, h3, h4⟩
    · refine ⟨h1, ?_⟩
      by_contra hgt
      refine H.early (N - 1) (by omega) (hcv (N - 1) (by omega) (by omega))
    · exact absurd (hcv (N - 1) (by omega) (by omega)) (h4 (N - 1) (by omega))
  · intro hst
    rcases H.stop with ⟨h1, h2, h3, h4, h5⟩ | ⟨h1, -⟩
    · refine ⟨h2, by omega, fun hx => ?_⟩
      rcases h4 with h4 | h4
      · rw [sqRes_dot, ← H.final] at h4
        simpa [sq] using h4
      · rw [hx, dot_real] at h4
        have : 0 ≤ ∑ i, dYs (m - 1) i * dYs (m - 1) i := Finset.sum_nonneg fun _ _ => mul_self_nonneg _
        simp at h4
        linarith
    · omega

/-- **C111, the damped variants on affine right-hand sides.**  Enough passes always suffice. -/
theorem C111_affine_eventually (plu : Bool) (hp : plu = true → nd = false) (ha : IsAffine fn) (hn : 0 < n) (hc : sc.ns ≤ sc.c.length)
    (hr : refresh ≠ 0) (hM : IsUnit (Matrix.of fun p q => eye (sc.ns * n) p q - dt * kron sc.mat (fn.jac t y) p q).det) (ht : Rtol ≠ 0) :
    ∃ N : ℤ, ∀ maxit ≥ N, ∃ r, newtonSolveStagesG ad plu nd laReal fn sc t dt y maxit refresh xtol Rtol count log = .ret r ∧
      r.status = 0 := by
  cases ad with
  | false =>
    refine ⟨2, fun maxit hm => ?_⟩
    obtain ⟨r, m, Ys, h, -, -, -, h1, -⟩ := C111_affine (ad := false) (maxit := maxit) (xtol := xtol) (Rtol := Rtol) (count := count)
      (log := log) plu hp ha hn hc hr hM
    exact ⟨r, h, (h1 rfl ht hm).1⟩
  | true =>
    have hρ : 0 ≤ sqRes fn sc t dt y 0 := Finset.sum_nonneg fun _ _ => Finset.sum_nonneg fun _ _ => sq_nonneg _
    set q := (1 - dampLen (sqRes fn sc t dt y 0)) ^ 2 with hq
    have hq1 : q < 1 := by
      have h1 := dampLen_pos hρ
      have h2 := dampLen_le_one hρ
      rw [hq]; nlinarith
    have hlim : Filter.Tendsto (fun N : ℕ => q ^ N * sqRes fn sc t dt y 0) Filter.atTop (nhds 0) := by
      simpa using (tendsto_pow_atTop_nhds_zero_of_lt_one (sq_nonneg _) hq1).mul_const (sqRes fn sc t dt y 0)
    obtain ⟨N, hN⟩ := ((hlim.eventually (gt_mem_nhds (show 0 < Rtol ^ 2 by positivity))).and
      (Filter.eventually_ge_atTop 1)).exists
    refine ⟨N + 1, fun maxit hm => ?_⟩
    obtain ⟨r, m, Ys, h, -, -, -, -, h1, -⟩ := C111_affine (ad := true) (maxit := maxit) (xtol := xtol) (Rtol := Rtol) (count := count)
      (log := log) plu hp ha hn hc hr hM
    exact ⟨r, h, (h1 rfl N hN.2 (by omega) (by rw [pow_mul]; exact hN.1)).1⟩

/-- the right-hand side `√3` -/
noncomputable def constRoot : OdeFun ℝ 1 := ⟨fun _ _ _ => Real.sqrt 3, fun _ _ _ _ => 0⟩

theorem constRoot_affine : IsAffine constRoot := ⟨0, fun _ _ => Real.sqrt 3, fun _ _ => by funext k; simp [constRoot], fun _ _ _ _ => rfl⟩

theorem constRoot_unit : IsUnit (Matrix.of fun p q => eye ((irkCoeffs 200 : SolverCoeffs ℝ).ns * 1) p q -
    1 * kron (irkCoeffs 200 : SolverCoeffs ℝ).mat (constRoot.jac 0 0) p q).det := by
  have : (Matrix.of fun p q => eye ((irkCoeffs 200 : SolverCoeffs ℝ).ns * 1) p q -
    1 * kron (irkCoeffs 200 : SolverCoeffs ℝ).mat (constRoot.jac 0 0) p q) = 1 := by
    ext p q
    simp [eye_real, kron, constRoot]
  rw [this]
  simp

/-- **C111, damping matters.**  On `y' = √3`, one implicit Euler step of length 1 with tolerance 1/2 and `maxit = 2`, the default variant
gives up where the integrator's variant solves the equation exactly. -/
theorem C111_damping : ∃ r r',
    newtonSolveStagesG true false false laReal constRoot (irkCoeffs 200) 0 1 0 2 1 0 (1 / 2) ⟨0, 0, 0, 0, 0, 0, 0, 0, 0⟩ ⟨[], []⟩ = .ret r ∧
    newtonSolveStagesG false true false laReal constRoot (irkCoeffs 200) 0 1 0 2 1 0 (1 / 2) ⟨0, 0, 0, 0, 0, 0, 0, 0, 0⟩ ⟨[], []⟩ = .ret r' ∧
    r.status ≠ 0 ∧ r'.status = 0 ∧ ∀ i, resAt constRoot (irkCoeffs 200) 0 1 0 r'.Y i = 0 := by
  have hns : (irkCoeffs 200 : SolverCoeffs ℝ).ns ≤ (irkCoeffs 200 : SolverCoeffs ℝ).c.length := by
    simp [irkCoeffs, implicitEuler, SolverCoeffs.ns]
  obtain ⟨r, m, Ys, h, h0, hf, hrec, -, -, hs⟩ := C111_affine (ad := true) (nd := false) (maxit := 2) (refresh := 1) (xtol := 0) (Rtol := 1 / 2)
    (count := ⟨0, 0, 0, 0, 0, 0, 0, 0, 0⟩) (log := ⟨[], []⟩) false (by simp) constRoot_affine (by norm_num) hns (by norm_num) constRoot_unit
  obtain ⟨r', m', Ys', h', -, -, -, hu, -⟩ := C111_affine (ad := false) (nd := false) (maxit := 2) (refresh := 1) (xtol := 0) (Rtol := 1 / 2)
    (count := ⟨0, 0, 0, 0, 0, 0, 0, 0, 0⟩) (log := ⟨[], []⟩) true (by simp) constRoot_affine (by norm_num) hns (by norm_num) constRoot_unit
  obtain ⟨u1, -, u3⟩ := hu rfl (by norm_num) le_rfl
  refine ⟨r, r', h, h', fun hst => ?_, u1, u3⟩
  obtain ⟨s1, s2, s3⟩ := hs hst
  obtain rfl : m = 1 := by omega
  have hz : sqRes constRoot (irkCoeffs 200) 0 1 0 (Ys 0) = 3 := by
    rw [h0]
    unfold sqRes resAt stageResidual
    change ∑ i : Fin 1, _ = _
    simp only [Fin.sum_univ_one]
    have ha : (irkCoeffs 200 : SolverCoeffs ℝ).a 0 0 = 1 := by simp [irkCoeffs, implicitEuler, SolverCoeffs.a]
    change ((0 : ℝ) - 1 * (∑ j : Fin 1, (irkCoeffs 200 : SolverCoeffs ℝ).a 0 j • (fun _ : Fin 1 => Real.sqrt 3)) 0) ^ 2 = 3
    simp [ha]
  have h4 : Real.sqrt (1 + 3) = 2 := by
    rw [show (1 : ℝ) + 3 = 2 ^ 2 by norm_num]; simp
  have := sqRes_smul (hrec 0 (by norm_num))
  simp only [if_true, hz, h4] at this
  rw [← hf] at this
  have := s3 rfl
  norm_num at *
  linarith

/-- `C111_contract`: the run of `C111_damping` made its single pass and met neither test -/
example : ∃ r, newtonSolveStagesG true false false laReal constRoot (irkCoeffs 200) 0 1 0 2 1 0 (1 / 2) {} {} = .ret r ∧ r.status = 3 ∧
    r.count.funEvals = 2 := by
  obtain ⟨r, -, h, -, hs, -⟩ := C111_damping
  obtain ⟨m, Ys, dYs, -, -, -, -, hst, hf, -⟩ := C111_contract h
  rcases hst with ⟨h0, -⟩ | ⟨h3, hm, -⟩
  · exact absurd h0 hs
  · refine ⟨r, h, h3, ?_⟩
    have : m = 1 := by omega
    rw [hf, this]
    simp [irkCoeffs, implicitEuler, SolverCoeffs.ns]

/-- `C111_affine_eventually`: the default variant on the same step, tolerance `10⁻¹⁰` -/
example : ∃ N : ℤ, ∀ maxit ≥ N, ∃ r, newtonSolveStagesG true false true laReal constRoot (irkCoeffs 200) 0 1 0 maxit 1 0 (1 / 10 ^ 10) {} {} =
    .ret r ∧ r.status = 0 :=
  C111_affine_eventually false (by simp) constRoot_affine (by norm_num) (by simp [irkCoeffs, implicitEuler, SolverCoeffs.ns]) (by norm_num)
    constRoot_unit (by norm_num)

/-- `C111_ndebug`: the integrator's variant without assertions on the same step -/
example : newtonSolveStagesG false true true laReal constRoot (irkCoeffs 200) 0 1 0 10 1 0 (1 / 2) {} {} = .throws :=
  (C111_ndebug (F := ℝ)).1 (by norm_num)

end
end Verif
