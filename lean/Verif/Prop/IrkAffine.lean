import Verif.Prop.IrkReal

/-!
# Affine right-hand sides: the implicit integrator takes exact Runge–Kutta steps (strengthens C37)

`newton_solve_stages` uses the Jacobi matrix at `(t, y)` for all stages.  For an affine right-hand side that matrix is
exact, so the first Newton pass already solves the stage equations, and later passes keep them solved.
-/

set_option linter.unusedSectionVars false

namespace Verif
open Spec

variable {n : ℕ} {nd : Bool} {la : LinAlg ℝ} {fn : OdeFun ℝ n} {t0 t1 : ℝ} {y0 : Vec ℝ n} {o : IrkOpts ℝ}
  {dt : ℝ} {sc : SolverCoeffs ℝ} {oo : OutOpts} {fuel : ℕ} {out : IrkOutput ℝ (sc.ns * n) n}

/-- `fn(t, y) = J y + g(t)` for a constant matrix `J`, which `jac` returns -/
def IsAffine (fn : OdeFun ℝ n) : Prop :=
  ∃ (J : Matrix (Fin n) (Fin n) ℝ) (g : ℝ → Vec ℝ n), (∀ t y, fn.fn t y = J.mulVec y + g t) ∧
    ∀ t y i j, fn.jac t y i j = J i j

/-- the stage residual of an affine right-hand side -/
theorem stageResidual_affine {J : Matrix (Fin n) (Fin n) ℝ} {g : ℝ → Vec ℝ n}
    (hf : ∀ t y, fn.fn t y = J.mulVec y + g t) (t h : ℝ) (y : Vec ℝ n) (Y dY : Fin sc.ns → Vec ℝ n) (i : Fin sc.ns) :
    stageResidual fn.fn sc t h y (Y + dY) i = stageResidual fn.fn sc t h y Y i +
      (dY i - h • ∑ j : Fin sc.ns, sc.a i j • J.mulVec (dY j)) := by
  simp only [stageResidual, hf, Pi.add_apply, ← add_assoc, Matrix.mulVec_add]
  have : ∀ j : Fin sc.ns, sc.a i j • (J.mulVec y + J.mulVec (Y j) + J.mulVec (dY j) + g (t + sc.cn j * h)) =
      sc.a i j • (J.mulVec y + J.mulVec (Y j) + g (t + sc.cn j * h)) + sc.a i j • J.mulVec (dY j) := by
    intro j; rw [← smul_add]; congr 1; abel
  simp only [this, Finset.sum_add_distrib, smul_add]
  abel

/-- a successful stage solve for an affine right-hand side solves the stage equations exactly -/
theorem stage_affine (hla : la.Exact) (hs : la.Sound) (ha : IsAffine fn) {t h : ℝ} {y : Vec ℝ n} {maxit refresh : ℤ}
    {xtol Rtol : ℝ} {count : IrkCounters} {log : CallLog ℝ n} {r : StageResult ℝ (sc.ns * n) n}
    (hr : newtonSolveStages nd la fn sc t h y maxit refresh xtol Rtol count log = .ret r) (hst : r.status = 0)
    (i : Fin sc.ns) : stageResidual fn.fn sc t h y (fun j l => r.Y (finProdFinEquiv (j, l))) i = 0 := by
  obtain ⟨J, g, hf, hJ⟩ := ha
  obtain ⟨-, m, Ys, dYs, S⟩ := stage_run hr
  have key : ∀ j < m, ∀ i, stageResidual fn.fn sc t h y (fun p l => Ys (j + 1) (finProdFinEquiv (p, l))) i = 0 := by
    intro j hj i
    have e : (fun p l => Ys (j + 1) (finProdFinEquiv (p, l)) : Fin sc.ns → Vec ℝ n) =
        (fun p l => Ys j (finProdFinEquiv (p, l))) + fun p l => dYs j (finProdFinEquiv (p, l)) := by
      funext p l
      rw [S.upd j hj]
      simp
    rw [e, stageResidual_affine hf]
    funext q
    have e2 := C36_newton_equation hla hs S hj i q
    rw [constructR_eq] at e2
    simp only [Pi.add_apply, Pi.sub_apply, Pi.smul_apply, Finset.sum_apply, smul_eq_mul, Matrix.mulVec, dotProduct,
      Pi.zero_apply]
    simp only [hJ] at e2
    rw [e2]
    ring
  rcases S.stop with ⟨-, s2, -⟩ | ⟨s1, -⟩
  · have := key (m - 1) (by omega) i
    rw [show m - 1 + 1 = m by omega, ← S.final] at this
    exact this
  · omega

/-- in a build without assertions the stage matrix is never factorised and no stage solve succeeds -/
theorem stage_nd {t h : ℝ} {y : Vec ℝ n} {maxit refresh : ℤ} {xtol Rtol : ℝ} {count : IrkCounters} {log : CallLog ℝ n}
    {r : StageResult ℝ (sc.ns * n) n}
    (hr : newtonSolveStages true la fn sc t h y maxit refresh xtol Rtol count log = .ret r) : r.status ≠ 0 := by
  intro hst
  obtain ⟨-, m, Ys, dYs, S⟩ := stage_run hr
  rcases S.stop with ⟨-, s2, -⟩ | ⟨s1, -⟩
  · have := S.dir 0 s2
    simp [stageLup, stageDir] at this
  · omega

/-- **C37 (affine).**  For an affine right-hand side with its Jacobi matrix every accepted step of a returned run is an
exact step of the method forward in time, whatever the tolerances: the residual of the stage equations is zero. -/
theorem C37_affine (hla : la.Exact) (hs : la.Sound) (ha : IsAffine fn)
    (h : irkGuts nd la fn t0 t1 y0 o dt sc oo fuel = some (.ret out)) :
    ∃ acc : List (SampleI ℝ n), acc.head? = some ⟨t0, y0, 0, 0⟩ ∧
      out.yVals = (if oo.storeInVectors then everyNth oo.interval.toNat acc else acc.take 1).map (·.y) ∧
      out.tVals = (if oo.storeInVectors then everyNth oo.interval.toNat acc else acc.take 1).map (·.t) ∧
      out.file = (if oo.writeToFile then ((everyNth oo.interval.toNat acc).tail).map (fun b => (b.t, b.y)) else []) ∧
      acc.IsChain fun a b => a.t < b.t ∧ ∃ k, IsRKStep (fun i j : Fin sc.ns => sc.a i j) (fun i => sc.bw i)
        (fun i => sc.cn i) fn.fn a.t (b.t - a.t) a.y b.y k := by
  cases nd with
  | true =>
    obtain ⟨no, Ai, hno, hA, acc, hh, hch, hlen, ⟨rec, hrec, q1, q2, -⟩, -, -, hfile⟩ := C38_records h
    refine ⟨acc, ?_, by rw [← hrec]; exact q2, by rw [← hrec]; exact q1, hfile, ?_⟩
    · rw [hh]
      simp only [lit_real, Rat.cast_zero]
      rfl
    · refine hch.imp ?_
      rintro a b ⟨hh, mx, cn, lg, r, hr, hst, -⟩
      exact absurd hst (stage_nd hr)
  | false =>
    obtain ⟨s, acc, -, -, hinv, hv, -⟩ := irk_accs_real (J := fun _ => True)
      (Rel := fun a b => a.t < b.t ∧ ∃ k, IsRKStep (fun i j : Fin sc.ns => sc.a i j) (fun i => sc.bw i)
        (fun i => sc.cn i) fn.fn a.t (b.t - a.t) a.y b.y k) h (Or.inl rfl) (by simp) (by simp)
      (fun no mo Ai s r a l _ hA hT _ hlt hr hst haI hj e1 e2 => by
        obtain ⟨q1, q2, -⟩ := attemptI_spec haI
        have hlt' : l.t < (newSampleI s a).t := by
          simp only [newSampleI, q1, e1]
          linarith [(clip_factsI hT hlt).1]
        refine ⟨hlt', ?_⟩
        have hsub : (newSampleI s a).t - l.t = clipDt s.t t1 s.dt := by simp only [newSampleI, q1, e1]; ring
        have hr' : newtonSolveStages false la fn sc s.t (clipDt s.t t1 s.dt) s.y s.newtonMaxit no.refreshJac no.dxDelta
            no.tol s.sol.bump.count s.sol.log = .ret r := hr
        obtain ⟨d, hd, H⟩ := C37_update hla hA fn.fn s.t (clipDt s.t t1 s.dt) s.y r.Y
        obtain ⟨-, H2⟩ := H
          (fun j => fn.fn (s.t + sc.cn j * clipDt s.t t1 s.dt) (s.y + fun l => r.Y (finProdFinEquiv (j, l))))
          (fun i => stageResidual fn.fn sc s.t (clipDt s.t t1 s.dt) s.y (fun j l => r.Y (finProdFinEquiv (j, l))) i)
          (fun _ => rfl) (fun _ => rfl)
        have hy : (newSampleI s a).y = fun k => s.y k + combineI sc r.Y (dWeights Ai fun i => sc.bw i) k := by
          simp only [newSampleI, q2]; rfl
        rw [hsub, hy, e1, e2]
        exact ⟨_, H2 fun i => stage_affine hla hs ha hr' hst i⟩)
    refine ⟨acc, ?_, hv.cols.y, hv.cols.t, hv.file, hinv.chain⟩
    rw [hinv.head]
    simp only [firstI, lit_real, Rat.cast_zero]
    rfl

end Verif
