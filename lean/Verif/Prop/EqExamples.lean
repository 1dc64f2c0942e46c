import Verif.Prop.IrkSharp
import Verif.Prop.TestEq

/-!
# Concrete runs of the shipped equations and of the problems of property C82
-/

namespace Verif
open Spec Set TestEq

/-- `y' = y²` with its Jacobi matrix -/
def squareFun : OdeFun ℝ 1 := { fn := fun _ y k => y k ^ 2, jac := fun _ y _ _ => 2 * y 0 }

theorem square_jacobian (t : ℝ) (y : Vec ℝ 1) : IsJacobianAt (squareFun.fn t) (squareFun.jac t y) y := by
  have c := hasFDerivAt_coord y
  refine isJacobianAt_of fun i => ⟨_, (c i).pow 2, fun v => ?_⟩
  fin_cases i
  simp [squareFun]

/-- C82: RADAU_IIA_53 completes `y' = y²`, `y(0) = 1` on `[0, 9/10]`, with second order whatever the Newton options -/
example : ∃ C h0 : ℝ, 0 ≤ C ∧ 0 < h0 ∧ ∀ (o : IrkOpts ℝ) (no : NewtonOpts ℝ) (oo : OutOpts) (dt : ℝ),
    o.adaptive = true → o.maxSteps < 0 → o.newtonOpts = some no → 2 ≤ no.maxit → no.tol ≠ 0 → no.refreshJac ≠ 0 →
    0 < o.absTol → 0 ≤ o.relTol → oo.storeInVectors = true → oo.interval.toNat = 1 →
    (oo.writeToFile = true → oo.streamSet = true) → 0 < o.maxDt → o.maxDt ≤ h0 → 0 < dt → dt ≤ o.maxDt →
    ∃ fuel out yEnd, irkOdeint false laReal squareFun 0 (9 / 10) (fun _ => 1 / (1 - 0)) o oo 211 dt fuel = some (.ret out) ∧
      out.status = 0 ∧ out.tVals.getLast? = some (9 / 10) ∧ out.yVals.getLast? = some yEnd ∧
      ‖yEnd - fun _ => 1 / (1 - 9 / 10)‖ ≤ C * o.maxDt ^ 2 := by
  obtain ⟨C, h0, hC, hh0, key⟩ := C82_completes (m := 211) (r := 2) (fn := squareFun) (u := fun t _ => 1 / (1 - t)) (by decide)
    (contDiff_pi.mpr fun i => ((contDiff_apply ℝ ℝ i).comp contDiff_snd).pow 2) (Or.inr ⟨rfl, square_jacobian⟩) (by norm_num)
    (by norm_num) blowup_solution
  refine ⟨C, h0, hC, hh0, fun o no oo dt a1 a2 a3 a4 a5 a6 a7 a8 a9 a10 a11 a12 a13 a14 a15 => ?_⟩
  obtain ⟨fuel, out, yEnd, b1, b2, b3, b4, b5, -⟩ := key o no oo dt a1 a2 a3 a4 a5 a6 a7 a8 a9 a10 a11 a12 a13 a14 a15
  exact ⟨fuel, out, yEnd, b1, b2, b3, b4, b5⟩

/-- C82: with the zero matrix in place of the Jacobi matrix (`r = 1`) -/
example : ∃ C h0 : ℝ, 0 ≤ C ∧ 0 < h0 ∧ ∀ (nd : Bool) (la : LinAlg ℝ) (o : IrkOpts ℝ) (oo : OutOpts) (dt : ℝ) (fuel : ℕ)
    (out : IrkOutput ℝ ((irkCoeffs 231 : SolverCoeffs ℝ).ns * 1) 1) (h : ℝ), la.Exact → la.Sound →
    irkOdeint nd la ({ fn := fun _ y k => y k ^ 2, jac := fun _ _ _ _ => 0 } : OdeFun ℝ 1) 0 (9 / 10)
      ((fun (t : ℝ) (_ : Fin 1) => 1 / (1 - t)) 0) o oo 231 dt fuel = some (.ret out) → (nd = false ∨ (0 < dt ∧ (0 : ℝ) < 9 / 10)) →
    h ≤ h0 → 0 < o.maxDt → o.maxDt ≤ h → dt ≤ h →
    (∀ (i : ℕ) (t : ℝ) (y : Vec ℝ 1), out.tVals[i]? = some t → out.yVals[i]? = some y →
      ‖y - (fun (t : ℝ) (_ : Fin 1) => 1 / (1 - t)) t‖ ≤ C * h ^ 1) ∧
    ∀ l ∈ out.file, ‖l.2 - (fun (t : ℝ) (_ : Fin 1) => 1 / (1 - t)) l.1‖ ≤ C * h ^ 1 :=
  C82_convergence (m := 231) (r := 1) (fn := { fn := fun _ y k => y k ^ 2, jac := fun _ _ _ _ => 0 })
    (u := fun t _ => 1 / (1 - t)) (by decide) (contDiff_pi.mpr fun i => ((contDiff_apply ℝ ℝ i).comp contDiff_snd).pow 2)
    (Or.inl ⟨rfl, continuous_const⟩) (by norm_num) blowup_solution

/-- C82: the runs that `C82_order_sharp` speaks of exist: LOBATTO_IIIC_85 (declared order 8), Newton tolerance 1, has an error of second
order in the number of steps -/
example : ∃ h1 : ℝ, 0 < h1 ∧ ∀ h, 0 < h → h ≤ h1 → ∃ (o : IrkOpts ℝ) (fuel : ℕ)
    (out : IrkOutput ℝ ((irkCoeffs 232 : SolverCoeffs ℝ).ns * 2) 2) (yEnd : Vec ℝ 2), o.maxDt = h ∧
    irkOdeint false laReal driftFun 0 1 ![0, 0] o OutOpts.dflt 232 h fuel = some (.ret out) ∧
    out.status = 0 ∧ out.yVals.getLast? = some yEnd ∧ (1 - 0) ^ 3 / (3 * ((out.tVals.length - 1 : ℕ) : ℝ) ^ 2) ≤ ‖yEnd - ![1, 0]‖ := by
  obtain ⟨C, h0, -, hh0, key⟩ := C82_completes (m := 232) (r := 2) (t0 := 0) (t1 := 1) (u := fun t => ![t, 0]) (by decide)
    (drift_smooth _) (Or.inr ⟨rfl, drift_jacobian⟩) (by norm_num) (by norm_num) (drift_solution 0 1)
  obtain ⟨h1, hh1, sharp⟩ := C82_order_sharp (m := 232) (by decide) 0 1 1 one_pos
  refine ⟨min h0 h1, lt_min hh0 hh1, fun h hh hle => ?_⟩
  set o : IrkOpts ℝ := { (IrkOpts.dflt : IrkOpts ℝ) with
    newtonOpts := some { (NewtonOpts.dflt : NewtonOpts ℝ) with tol := 1, maxit := 100, refreshJac := 1 }, maxDt := h, adaptive := true,
    maxSteps := -1, absTol := 1, relTol := 1 } with ho
  obtain ⟨fuel, out, yEnd, b1, b2, b3, b4, -⟩ := key o _ OutOpts.dflt h rfl (by simp [ho]) rfl (by simp)
    (by simp) (by simp) (by simp [ho]) (by simp [ho]) rfl rfl (by decide) hh (hle.trans (min_le_left _ _)) hh le_rfl
  obtain ⟨-, k2⟩ := sharp false laReal o _ OutOpts.dflt h fuel out laReal_exact laReal_sound b1 (Or.inl rfl) rfl
    (by simp) hh (hle.trans (min_le_right _ _)) (hle.trans (min_le_right _ _)) rfl rfl
  obtain ⟨y2, c1, c2⟩ := k2 b2
  exact ⟨o, fuel, out, y2, rfl, b1, b2, c1, by simpa using c2⟩

/-! ### the dimer equation -/

/-- solution of the dimer equation with rate 1 from `(1, 0)` -/
noncomputable def dimerSol (t : ℝ) : Vec ℝ 2 :=
  ![(2 + Real.exp (-3 * t)) / (4 - Real.exp (-3 * t)), (1 - Real.exp (-3 * t)) / (4 - Real.exp (-3 * t))]

theorem dimerSol_deriv {t : ℝ} (ht : 0 ≤ t) : HasDerivAt dimerSol ((dimer (1 : ℝ)).fn t (dimerSol t)) t := by
  have he : Real.exp (-3 * t) ≤ 1 := Real.exp_le_one_iff.mpr (by linarith)
  have hd : (4 : ℝ) - Real.exp (-3 * t) ≠ 0 := by intro h; linarith
  have hE : HasDerivAt (fun t : ℝ => Real.exp (-3 * t)) (Real.exp (-3 * t) * -3) t := by
    simpa using ((hasDerivAt_id t).const_mul (-3 : ℝ)).exp
  unfold dimerSol
  rw [hasDerivAt_pi]
  intro i
  fin_cases i
  · refine (((hE.const_add 2).div (hE.const_sub 4) hd)).congr_deriv ?_
    simp [dimer]
    field_simp
    ring
  · refine (((hE.const_sub 1).div (hE.const_sub 4) hd)).congr_deriv ?_
    simp [dimer]
    field_simp
    ring

theorem dimer_smooth (k : WithTop ℕ∞) : ContDiff ℝ k fun q : ℝ × Vec ℝ 2 => (dimer (1 : ℝ)).fn q.1 q.2 := by
  have c0 : ContDiff ℝ k fun q : ℝ × Vec ℝ 2 => q.2 0 := (contDiff_apply ℝ ℝ (0 : Fin 2)).comp contDiff_snd
  have c1 : ContDiff ℝ k fun q : ℝ × Vec ℝ 2 => q.2 1 := (contDiff_apply ℝ ℝ (1 : Fin 2)).comp contDiff_snd
  refine contDiff_pi.mpr fun i => ?_
  fin_cases i
  · simp only [dimer, lit_real, Fin.zero_eta, Matrix.cons_val_zero]
    exact (((contDiff_const.mul c0).mul c0).add (contDiff_const.mul c1))
  · simp only [dimer, lit_real, Fin.mk_one, Matrix.cons_val_one, Matrix.cons_val_zero]
    exact ((contDiff_const.mul c0).mul c0).sub (contDiff_const.mul c1)

/-- C82 and C57: for small steps RADAU_IIA_53 completes the dimer equation on `[0, 10]`, and every recorded value has the mass of the
initial value -/
example : ∃ h0 : ℝ, 0 < h0 ∧ ∀ (o : IrkOpts ℝ) (dt : ℝ), o.adaptive = true → o.maxSteps < 0 → o.newtonOpts = some NewtonOpts.dflt →
    0 < o.absTol → 0 ≤ o.relTol → 0 < o.maxDt → o.maxDt ≤ h0 → 0 < dt → dt ≤ o.maxDt →
    ∃ fuel out, irkOdeint false laReal (dimer 1) 0 10 (dimerSol 0) o OutOpts.dflt 211 dt fuel = some (.ret out) ∧ out.status = 0 ∧
      ∀ y ∈ out.yVals, y 0 + 2 * y 1 = 1 := by
  obtain ⟨C, h0, -, hh0, key⟩ := C82_completes (m := 211) (r := 2) (fn := dimer 1) (u := dimerSol) (t0 := 0) (t1 := 10) (by decide)
    (dimer_smooth _) (Or.inr ⟨rfl, fun t y => C55_jacobian_partial (.dimer 1) t y⟩) (by norm_num) (by norm_num)
    fun t ht => (dimerSol_deriv ht.1).hasDerivWithinAt
  refine ⟨h0, hh0, fun o dt a1 a2 a3 a4 a5 a6 a7 a8 a9 => ?_⟩
  obtain ⟨fuel, out, -, b1, b2, -⟩ := key o NewtonOpts.dflt OutOpts.dflt dt a1 a2 a3 (by norm_num [NewtonOpts.dflt])
    (by norm_num [NewtonOpts.dflt]) (by norm_num [NewtonOpts.dflt]) a4 a5 rfl rfl (by decide) a6 a7 a8 a9
  refine ⟨fuel, out, b1, b2, fun y hy => ?_⟩
  rw [odeint_guts (by decide)] at b1
  have := (C57_irk (.dimer 1) laReal_exact laReal_sound b1).1 y hy
  simp only [Fin.sum_univ_two, Matrix.cons_val_zero, Matrix.cons_val_one, dimerSol] at this
  norm_num at this
  linarith

/-- C57: the classical Runge–Kutta method on the four-species kinetic equation: a run exists, and every value has mass 1 -/
example : ∃ fuel out, erkOdeint false (kinetic4 (1 : ℝ) 2 3).fn 0 1 ![1, 0, 0, 0] ErkOpts.dflt OutOpts.dflt 110 (1 / 10) fuel =
    some (.ret out) ∧ out.status = 0 ∧ ∀ y ∈ out.yVals, y 0 + 2 * y 1 + 3 * y 2 + 4 * y 3 = 1 := by
  obtain ⟨fuel, out, h1, h2, -⟩ := fixed_run_exists (nd := false) (f := (kinetic4 (1 : ℝ) 2 3).fn) (y0 := ![1, 0, 0, 0]) (t0 := 0) (t1 := 1)
    (m := 110) (o := ErkOpts.dflt) (oo := OutOpts.dflt) (dt := 1 / 10) (by decide) (by unfold StreamOK; decide)
    (Or.inr (by simp [erkCoeffs, rungeKutta4])) (by norm_num) (by norm_num) (Or.inl (by simp [ErkOpts.dflt]))
  refine ⟨fuel, out, h1, h2, fun y hy => ?_⟩
  have := C57_erk (.kinetic4 1 2 3) h1 (Or.inl rfl) y hy
  simpa [Fin.sum_univ_four] using this

end Verif
