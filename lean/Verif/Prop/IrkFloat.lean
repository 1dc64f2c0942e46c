import Verif.IrkFloatRun
import Verif.Prop.BdfFloat
import Verif.Prop.IrkConverge

/-!
# Property C129: the implicit integrators in arithmetic with rounding errors
-/

set_option autoImplicit false

namespace Verif
open Spec Set

section
variable {F : Type} [Add F] [Sub F] [Mul F] [Div F] [Neg F] [Scalar F] {u B : ℝ}

/-- the tableaux of RADAU_IIA_32 and LOBATTO_IIIC_43 contain fractions only, so they are accurate in any arithmetic -/
theorem nearTableau_irk (A : FloatArith F u B) (hB : (1000000 : ℝ) ≤ B) {m : ℤ} (hm : m = 210 ∨ m = 230) : NearTableau A (irkCoeffs m) (irkCoeffs m) := by
  have hl : ∀ r : ℚ, |r| ≤ 1000000 → NearCoef A (lit r) (lit r : ℝ) := fun r hr =>
    nearCoef_lit A r (le_trans (by exact_mod_cast hr) hB)
  have hq : ∀ a b : ℚ, smallNat a = true → smallNat b = true → b ≠ 0 → NearCoef A (q a b) (q a b : ℝ) := by
    intro a b ha hb hb0
    obtain ⟨a, rfl, ha1⟩ := smallNat_spec ha
    obtain ⟨b, rfl, hb1⟩ := smallNat_spec hb
    exact nearCoef_q A ha1 hb1 (Nat.pos_of_ne_zero (by exact_mod_cast hb0)) (le_trans (by exact_mod_cast ha1) hB)
  have hn : ∀ a b : ℚ, smallNat a = true → smallNat b = true → b ≠ 0 → NearCoef A (nq a b) (nq a b : ℝ) := by
    intro a b ha hb hb0
    obtain ⟨a, rfl, ha1⟩ := smallNat_spec ha
    obtain ⟨b, rfl, hb1⟩ := smallNat_spec hb
    exact nearCoef_nq A ha1 hb1 (Nat.pos_of_ne_zero (by exact_mod_cast hb0)) (le_trans (by exact_mod_cast ha1) hB)
  rcases hm with rfl | rfl
  all_goals
    constructor
    · repeat' first
        | exact .nil
        | refine .cons ?_ ?_
        | exact hl _ (by norm_num)
        | exact hq _ _ (by decide +kernel) (by decide +kernel) (by norm_num)
        | exact hn _ _ (by decide +kernel) (by decide +kernel) (by norm_num)
    · repeat' first
        | exact .nil
        | refine .cons ?_ ?_
        | exact hl _ (by norm_num)
        | exact hq _ _ (by decide +kernel) (by decide +kernel) (by norm_num)
    · repeat' first
        | exact .nil
        | refine .cons ?_ ?_
        | exact hl _ (by norm_num)
        | exact hq _ _ (by decide +kernel) (by decide +kernel) (by norm_num)
    · rfl

/-- every tableau is accurate in exact arithmetic -/
theorem nearTableau_real (B : ℝ) (sc : SolverCoeffs ℝ) : NearTableau (realArith B) sc sc := by
  have h : ∀ x : ℝ, NearCoef (realArith B) x x := fun x => ⟨rfl, by simp [realArith]⟩
  have h2 : ∀ l : List ℝ, List.Forall₂ (NearCoef (realArith B)) l l := fun l => List.forall₂_same.mpr fun x _ => h x
  exact ⟨List.forall₂_same.mpr fun l _ => h2 l, h2 _, h2 _, rfl⟩

/-- the methods that can run have an embedded method, so `odeint` hands its options on unchanged -/
theorem irkOdeint_float_guts {n : ℕ} {nd : Bool} {la : LinAlg F} {fn : OdeFun F n} {t0 t1 : F} {y0 : Vec F n} {o : IrkOpts F} {oo : OutOpts} {m : ℤ} {dt : F}
    {fuel : ℕ} (hm : m ∈ ([210, 211, 230, 231, 232] : List ℤ)) {out : IrkOutput F ((irkCoeffs m : SolverCoeffs F).ns * n) n}
    (h : irkOdeint nd la fn t0 t1 y0 o oo m dt fuel = some (.ret out)) : irkGuts nd la fn t0 t1 y0 o dt (irkCoeffs m) oo fuel = some (.ret out) := by
  have hb : ((irkCoeffs m : SolverCoeffs F).b2.length == 0) = false := by
    simp only [List.mem_cons, List.not_mem_nil, or_false] at hm
    rcases hm with rfl | rfl | rfl | rfl | rfl <;> rfl
  unfold irkOdeint at h
  simp only [hb, Bool.and_false, Bool.false_eq_true, if_false] at h
  split_ifs at h with hv
  · exact absurd h (by simp)
  · exact h

end

/-- **C129.**  Let `U` solve `U' = f(t,U)` on `[a,b]`, `f` being `p` times continuously differentiable with `p` the declared order of the method, and let
`δ > 0`.  For every bound `Jb` there are constants `C` and `h₀ > 0` such that: in an arithmetic with unit roundoff `u` on numbers up to `B ≥ C`, with a
computed right-hand side accurate to `ε`, any "Jacobi matrix" with row sums up to `Jb`, the linear systems of the Newton iteration solved up to a residual of
`ρ`, `inv(A)` accurate to `ρ` and an initial value accurate to `e₀`, every run over an interval within `[a+δ, b-δ]` whose step sizes are at most `h ≤ h₀` and
that returns after accepting `N - 1` steps has everything it recorded or streamed finite and within
`X = C (h^p + ε + e₀ + N (u + ρ + θ))` of the solution at the recorded times, if `X ≤ 1`.  `θ` is what the stopping tests of the Newton iteration leave:
`min (h²) (tol + h dx_delta + √u)`. -/
theorem C129_convergence {n p : ℕ} {m : ℤ} (hm : m ∈ ([210, 211, 230, 231, 232] : List ℤ)) (hp : (irkCoeffs m : SolverCoeffs ℝ).order = some (p : ℤ))
    {f : ℝ → Vec ℝ n → Vec ℝ n} (hf : ContDiff ℝ p fun q : ℝ × Vec ℝ n => f q.1 q.2) {U : ℝ → Vec ℝ n} {a b δ Jb : ℝ} (hδ : 0 < δ) (hJb : 0 ≤ Jb)
    (hU : ∀ t ∈ Icc a b, HasDerivWithinAt U (f t (U t)) (Icc a b) t) :
    ∃ C h0 : ℝ, 0 < C ∧ 0 < h0 ∧
      ∀ (F : Type) [Add F] [Sub F] [Mul F] [Div F] [Neg F] [Scalar F] (u B ε ρ : ℝ) (A : FloatArith F u B) (fn : OdeFun F n) (la : LinAlg F),
        0 ≤ u → 0 ≤ ε → 0 ≤ ρ → C ≤ B → NearTableau A (irkCoeffs m) (irkCoeffs m) → RhsAccurate A f U a b ε fn.fn → JacBounded A U a b Jb fn.jac →
        LuAccurate A la ((irkCoeffs m : SolverCoeffs F).ns * n) ρ → InvAccurate A la (irkCoeffs m) (irkCoeffs m) ρ →
        ∀ (nd : Bool) (o : IrkOpts F) (no : NewtonOpts F) (oo : OutOpts) (t0 t1 : F) (y0 : Vec F n) (dt : F) (fuel : ℕ)
          (out : IrkOutput F ((irkCoeffs m : SolverCoeffs F).ns * n) n) (h e0 : ℝ), isFin t0 = true → isFin t1 = true → (∀ k, isFin (y0 k) = true) →
          a + δ ≤ A.val t0 → A.val t0 ≤ A.val t1 → A.val t1 ≤ b - δ → ‖A.vec y0 - U (A.val t0)‖ ≤ e0 → 0 ≤ h → h ≤ h0 → o.newtonOpts = some no →
          isFin no.dxDelta = true → isFin no.tol = true → |A.val no.dxDelta| ≤ 1 → |A.val no.tol| ≤ 1 →
          StepsWithin A nd la fn t0 t1 y0 o dt (irkCoeffs m) oo h → irkOdeint nd la fn t0 t1 y0 o oo m dt fuel = some (.ret out) →
          ∀ X : ℝ, X = C * (h ^ p + ε + e0 + ((out.count.newtonSuccess - out.count.rejectErr + 1 : ℕ) : ℝ) *
              (u + ρ + min (h ^ 2) (|A.val no.tol| + h * |A.val no.dxDelta| + Real.sqrt u))) → X ≤ 1 →
          List.Forall₂ (GoodSample A U X) out.tVals out.yVals ∧ ∀ q ∈ out.file, GoodSample A U X q.1 q.2 := by
  obtain ⟨hp1, ho, hc⟩ := implicit_order hm hp
  have hdet : IsUnit (Matrix.of ((irkCoeffs m : SolverCoeffs ℝ).mat : Mat ℝ (irkCoeffs m : SolverCoeffs ℝ).ns)).det := by
    refine (usable_shipped ?_).inv
    have : ∀ m ∈ ([210, 211, 230, 231, 232] : List ℤ), m ∈ irkUsable := by decide
    exact this m hm
  obtain ⟨C, h0, hC, hh0, key⟩ := irk_float_converges hp1 hf hδ hJb hU ho hc hdet
  refine ⟨C, h0, hC, hh0, ?_⟩
  intro F _ _ _ _ _ _ u B ε ρ A fn la hu hε hρ hCB hnt hacc hjac hlu hinv nd o no oo t0 t1 y0 dt fuel out h e0 ft0 ft1 fy0 ha h01 hb' hy0 hh hh0 hno hxf hRf
    hx1 hR1 hwithin hrun X hX hsmall
  exact key F u B ε ρ A (irkCoeffs m) fn la hu hε hρ hCB hnt hacc hjac hlu hinv nd o no oo t0 t1 y0 dt fuel out h e0 ft0 ft1 fy0 ha h01 hb' hy0 hh hh0 hno hxf
    hRf hx1 hR1 hwithin (irkOdeint_float_guts hm hrun) X hX hsmall

/-! ### exact arithmetic -/

section
variable {n : ℕ} {t0 t1 : ℝ} {sc : SolverCoeffs ℝ}

/-- in exact arithmetic `max_dt` bounds the steps -/
theorem stepsWithin_real {nd : Bool} {la : LinAlg ℝ} {fn : OdeFun ℝ n} {y0 : Vec ℝ n} {o : IrkOpts ℝ} {dt h B : ℝ} {oo : OutOpts} (hc : 0 < clipDt t0 t1 dt)
    (h01 : t0 ≤ t1) (hmx : 0 < o.maxDt) (hle : o.maxDt ≤ h) (hdt : dt ≤ h) : StepsWithin (realArith B) nd la fn t0 t1 y0 o dt sc oo h := by
  intro no mo Ai s _ _ _ hr
  have : TimeInvI t0 t1 s ∧ s.dt ≤ h := by
    refine hr.inv (Inv := fun s => TimeInvI t0 t1 s ∧ s.dt ≤ h) ⟨timeInvI_init h01 hc _, ?_⟩ ?_
    · change clipDt t0 t1 dt ≤ h
      rw [clipDt_real]
      exact (min_le_left _ _).trans hdt
    · rintro x y ⟨hx, hd⟩ hb
      exact ⟨timeInvI_next hx hb, dt_le_next hmx hle hx hd hb⟩
  exact ⟨rfl, this.1.dt.le, this.2⟩

/-- exact linear algebra has no residual -/
theorem laExact_luAccurate {la : LinAlg ℝ} (hla : la.Exact) (hs : la.Sound) (B : ℝ) (m : ℕ) : LuAccurate (realArith B) la m 0 := by
  intro M r z _ _ _ _ h
  refine ⟨fun _ => rfl, fun i => ?_⟩
  have e : ∑ l, M i l * z l = - r i := congrFun (stageDir_newton hla hs h) i
  show |∑ l, M i l * z l + r i| ≤ 0
  rw [e, neg_add_cancel, abs_zero]

/-- exact linear algebra gives the inverse of the tableau -/
theorem laExact_invAccurate {la : LinAlg ℝ} (hla : la.Exact) (B : ℝ) (sc : SolverCoeffs ℝ) : InvAccurate (realArith B) la sc sc 0 := by
  intro Ai X h hX i j
  by_cases hu : IsUnit (Matrix.of sc.mat).det
  · rw [hla.inv _ hu] at h
    have hXA : Matrix.of (fun i j : Fin sc.ns => X i j) * Matrix.of sc.mat = 1 := by
      ext i k
      rw [Matrix.mul_apply, Matrix.one_apply]
      exact hX i k
    have e : (Matrix.of sc.mat)⁻¹ = Matrix.of (fun i j : Fin sc.ns => X i j) := Matrix.inv_eq_left_inv hXA
    have h' : Ai i j = X i j := by
      have := congrFun (congrFun (Option.some.inj h) i) j
      rw [← this, e]
      rfl
    exact ⟨rfl, by rw [h']; simp [realArith]⟩
  · rw [hla.inv_none _ hu] at h
    cases h

end

/-- **C129, exact arithmetic.**  With exact arithmetic and exact linear algebra, but an inexact right-hand side, an arbitrary bounded "Jacobi matrix" and
an inexact initial value, `max_dt` bounds the steps and the bound is `C (h^p + ε + e₀ + N min (h²) (tol + h dx_delta))`. -/
theorem C129_perturbed {n p : ℕ} {m : ℤ} (hm : m ∈ ([210, 211, 230, 231, 232] : List ℤ)) (hp : (irkCoeffs m : SolverCoeffs ℝ).order = some (p : ℤ))
    {f : ℝ → Vec ℝ n → Vec ℝ n} (hf : ContDiff ℝ p fun q : ℝ × Vec ℝ n => f q.1 q.2) {U : ℝ → Vec ℝ n} {a b δ Jb : ℝ} (hδ : 0 < δ) (hJb : 0 ≤ Jb)
    (hU : ∀ t ∈ Icc a b, HasDerivWithinAt U (f t (U t)) (Icc a b) t) :
    ∃ C h0 : ℝ, 0 < C ∧ 0 < h0 ∧
      ∀ (ε : ℝ) (fn : OdeFun ℝ n) (la : LinAlg ℝ), 0 ≤ ε → la.Exact → la.Sound →
        (∀ t y, a ≤ t → t ≤ b → ‖y - U t‖ ≤ 2 → (∀ k, |fn.fn t y k - f t y k| ≤ ε) ∧ ∀ i, ∑ l, |fn.jac t y i l| ≤ Jb) →
        ∀ (nd : Bool) (o : IrkOpts ℝ) (no : NewtonOpts ℝ) (oo : OutOpts) (t0 t1 : ℝ) (y0 : Vec ℝ n) (dt : ℝ) (fuel : ℕ)
          (out : IrkOutput ℝ ((irkCoeffs m : SolverCoeffs ℝ).ns * n) n) (h e0 : ℝ), a + δ ≤ t0 → t0 < t1 → t1 ≤ b - δ → ‖y0 - U t0‖ ≤ e0 → h ≤ h0 →
          o.newtonOpts = some no → |no.dxDelta| ≤ 1 → |no.tol| ≤ 1 → 0 < o.maxDt → o.maxDt ≤ h → 0 < dt → dt ≤ h →
          irkOdeint nd la fn t0 t1 y0 o oo m dt fuel = some (.ret out) →
          ∀ X : ℝ, X = C * (h ^ p + ε + e0 + ((out.count.newtonSuccess - out.count.rejectErr + 1 : ℕ) : ℝ) * min (h ^ 2) (|no.tol| + h * |no.dxDelta|)) →
            X ≤ 1 → List.Forall₂ (fun t y => ‖y - U t‖ ≤ X) out.tVals out.yVals ∧ ∀ q ∈ out.file, ‖q.2 - U q.1‖ ≤ X := by
  obtain ⟨C, h0, hC, hh0, key⟩ := C129_convergence hm hp hf hδ hJb hU
  refine ⟨C, h0, hC, hh0, ?_⟩
  intro ε fn la hε hla hs hfn nd o no oo t0 t1 y0 dt fuel out h e0 ha h01 hb' hy0 hh0' hno hx1 hR1 hmx hmxh hdt hdth hrun X hX hsmall
  have hc : 0 < clipDt t0 t1 dt := by rw [clipDt_real]; exact lt_min hdt (by linarith)
  have K := key ℝ 0 C ε 0 (realArith C) fn la le_rfl hε le_rfl le_rfl (nearTableau_real _ _)
    (fun t y _ _ q1 q2 q3 k => ⟨rfl, (hfn t y q1 q2 q3).1 k⟩) (fun t y _ _ q1 q2 q3 i => ⟨fun _ => rfl, (hfn t y q1 q2 q3).2 i⟩)
    (laExact_luAccurate hla hs _ _) (laExact_invAccurate hla _ _) nd o no oo t0 t1 y0 dt fuel out h e0 rfl rfl (fun _ => rfl) ha h01.le hb' hy0
    (hdt.le.trans hdth) hh0' hno rfl rfl hx1 hR1 (stepsWithin_real hc h01.le hmx hmxh hdth) hrun X (by rw [hX]; simp [realArith]) hsmall
  refine ⟨K.1.imp fun t y hg => hg.2.2, fun q hq => (K.2 q hq).2.2⟩

/-! ### the hypotheses can be met -/

/-- RADAU_IIA_53 on `y' = y²`, `y(0) = 1`, with the zero matrix as "Jacobi matrix" -/
example : ∃ C h0 : ℝ, 0 < C ∧ 0 < h0 ∧ ∀ (o : IrkOpts ℝ) (no : NewtonOpts ℝ) (oo : OutOpts) (dt : ℝ) (fuel : ℕ)
    (out : IrkOutput ℝ ((irkCoeffs 211 : SolverCoeffs ℝ).ns * 1) 1) (h : ℝ), h ≤ h0 → o.newtonOpts = some no → |no.dxDelta| ≤ 1 → |no.tol| ≤ 1 →
    0 < o.maxDt → o.maxDt ≤ h → 0 < dt → dt ≤ h → irkOdeint false laReal (squareOde ℝ) (1 / 10) (8 / 10) (fun _ => 10 / 9) o oo 211 dt fuel = some (.ret out) →
    ∀ X : ℝ, X = C * (h ^ 5 + 0 + 0 + ((out.count.newtonSuccess - out.count.rejectErr + 1 : ℕ) : ℝ) * min (h ^ 2) (|no.tol| + h * |no.dxDelta|)) → X ≤ 1 →
      List.Forall₂ (fun t y => ‖y - fun _ => 1 / (1 - t)‖ ≤ X) out.tVals out.yVals := by
  obtain ⟨C, h0, hC, hh0, key⟩ := C129_perturbed (n := 1) (m := 211) (p := 5) (a := 0) (b := 9 / 10) (δ := 1 / 10) (Jb := 0)
    (f := fun _ y k => y k ^ 2) (U := fun t _ => 1 / (1 - t)) (by decide) (by simp [irkCoeffs, radauIIA53])
    (contDiff_pi.mpr fun i => ((contDiff_apply ℝ ℝ i).comp contDiff_snd).pow 2) (by norm_num) le_rfl blowup_solution
  refine ⟨C, h0, hC, hh0, ?_⟩
  intro o no oo dt fuel out h a1 a2 a3 a4 a5 a6 a7 a8 a9 X hX hsmall
  refine (key 0 (squareOde ℝ) laReal le_rfl laReal_exact laReal_sound ?_ false o no oo (1 / 10) (8 / 10) _ dt fuel out h 0 (by norm_num) (by norm_num)
    (by norm_num) ?_ a1 a2 a3 a4 a5 a6 a7 a8 a9 X hX hsmall).1
  · intro t y _ _ _
    exact ⟨fun k => by simp [squareOde, pow_two], fun i => by simp [squareOde]⟩
  · refine le_of_eq (norm_eq_zero.mpr ?_)
    funext k
    simp only [Pi.sub_apply, Pi.zero_apply]
    norm_num

/-- linear algebra with one rounding: the exact solution of the system, rounded; and the inverse of the tableau of RADAU_IIA_32, rounded -/
noncomputable def laRound {F : Type} [Add F] [Sub F] [Mul F] [Div F] [Neg F] [Scalar F] (vq : F → ℚ) : LinAlg F where
  solve _ _ := none
  inv _ := some fun i j => lit (if i.val = 0 then (if j.val = 0 then 3 / 2 else 1 / 2) else if j.val = 0 then - 9 / 2 else 5 / 2)
  lu M := some (eye _, M, eye _)
  solveL _ v := some v
  solveU U v := some fun i => lit (-((Matrix.of fun i j => vq (U i j))⁻¹.mulVec fun j => vq (v j)) i)

section
variable {F : Type} [Add F] [Sub F] [Mul F] [Div F] [Neg F] [Scalar F] {u B : ℝ}

theorem laRound_luAccurate (A : FloatArith F u B) {vq : F → ℚ} (hval : ∀ x, A.val x = vq x) (hu0 : 0 ≤ u) (hu1 : u ≤ 1 / 1000000) (hB : 16 ≤ B) :
    LuAccurate A (laRound vq) 2 (68 * u) := by
  intro M r z hM hrow hr hr1 h
  simp only [stageDir, laRound, Outcome.ret.injEq] at h
  obtain ⟨v, hv⟩ : ∃ v : Vec F 2, v = mulVec (eye 2) r := ⟨_, rfl⟩
  rw [← hv] at h
  have hb2 : big 2 = 16 := by unfold big; norm_num
  -- the product with the identity
  have hvr : ∀ i, |A.val (v i) - A.val (r i)| ≤ 64 * u := by
    intro i
    have h1 : ∀ l, Near A (eye 2 i l * r l) ((if i = l then 1 else 0) * A.val (r l)) (u * big 2) := fun l =>
      (near_mul (G := 2) (by norm_num) (by rw [hb2]; exact hB) (hu0) (near_eye _ i l) (Near.self (hr l)) (by split_ifs <;> norm_num)
        (by linarith [hr1 l]) le_rfl zero_le_one zero_le_one).mono (by simp)
    have := near_sumFin (A := A) (G := 2) (m := 2) (Γ := 1) (by norm_num) (by rw [hb2]; exact hB) hu0 h1
      (fun l => by split_ifs <;> simp [hr1 l]) (by rw [hb2]; positivity) zero_le_one (by norm_num) (by rw [hb2]; push_cast; linarith)
    have h2 := this.2
    rw [hb2] at h2
    simp only [ite_mul, one_mul, zero_mul, Finset.sum_ite_eq, Finset.mem_univ, if_true] at h2
    rw [hv]
    refine h2.trans (le_of_eq ?_)
    push_cast; ring
  obtain ⟨N, hN⟩ : ∃ N : Matrix (Fin 2) (Fin 2) ℚ, N = Matrix.of fun i j => vq (M i j) := ⟨_, rfl⟩
  rw [← hN] at h
  have hNM : ∀ i j, A.val (M i j) = (N i j : ℝ) := fun i j => by rw [hval, hN]; rfl
  simp only [hNM] at hrow ⊢
  have r0 := hrow 0
  have r1 := hrow 1
  simp only [Fin.sum_univ_two] at r0 r1
  norm_num at r0 r1
  have a00 := abs_le.mp (show |(N 0 0 : ℝ) - 1| ≤ 1 / 4 by linarith [abs_nonneg (N 0 1 : ℝ)])
  have a01 := abs_le.mp (show |(N 0 1 : ℝ)| ≤ 1 / 4 by linarith [abs_nonneg ((N 0 0 : ℝ) - 1)])
  have a10 := abs_le.mp (show |(N 1 0 : ℝ)| ≤ 1 / 4 by linarith [abs_nonneg ((N 1 1 : ℝ) - 1)])
  have a11 := abs_le.mp (show |(N 1 1 : ℝ) - 1| ≤ 1 / 4 by linarith [abs_nonneg (N 1 0 : ℝ)])
  have hdet : IsUnit N.det := by
    rw [isUnit_iff_ne_zero, Matrix.det_fin_two]
    have : (0 : ℝ) < N 0 0 * N 1 1 - N 0 1 * N 1 0 := by nlinarith
    have h2 : (0 : ℚ) < N 0 0 * N 1 1 - N 0 1 * N 1 0 := by exact_mod_cast this
    exact h2.ne'
  obtain ⟨w, hw⟩ : ∃ w : Fin 2 → ℚ, w = -(N⁻¹.mulVec fun j => vq (v j)) := ⟨_, rfl⟩
  have hNw : N.mulVec w = - fun j => vq (v j) := by
    rw [hw, Matrix.mulVec_neg, Matrix.mulVec_mulVec, Matrix.mul_nonsing_inv _ hdet, Matrix.one_mulVec]
  have e0 : (N 0 0 : ℝ) * w 0 + N 0 1 * w 1 = -A.val (v 0) := by
    have := congrFun hNw 0
    simp only [Matrix.mulVec, dotProduct, Fin.sum_univ_two, Pi.neg_apply] at this
    rw [hval]; exact_mod_cast this
  have e1 : (N 1 0 : ℝ) * w 0 + N 1 1 * w 1 = -A.val (v 1) := by
    have := congrFun hNw 1
    simp only [Matrix.mulVec, dotProduct, Fin.sum_univ_two, Pi.neg_apply] at this
    rw [hval]; exact_mod_cast this
  have hv2 : ∀ i, |A.val (v i)| ≤ 9 / 8 := by
    intro i
    have h1 := hvr i
    have h2 := hr1 i
    rw [abs_le] at h1 h2 ⊢
    constructor <;> linarith
  -- the exact solution is bounded
  obtain ⟨mx, hmx⟩ : ∃ mx : ℝ, mx = max |(w 0 : ℝ)| |(w 1 : ℝ)| := ⟨_, rfl⟩
  have m0 : |(w 0 : ℝ)| ≤ mx := by rw [hmx]; exact le_max_left _ _
  have m1 : |(w 1 : ℝ)| ≤ mx := by rw [hmx]; exact le_max_right _ _
  have mpos : 0 ≤ mx := (abs_nonneg _).trans m0
  have hrowb : ∀ x y : ℝ, |x| ≤ mx → |y| ≤ mx → ∀ p s : ℝ, |p| + |s| ≤ 1 / 4 → |p * x + s * y| ≤ mx / 4 := by
    intro x y hx hy p s hps
    have h1 : |p * x| ≤ |p| * mx := by rw [abs_mul]; exact mul_le_mul_of_nonneg_left hx (abs_nonneg _)
    have h2 : |s * y| ≤ |s| * mx := by rw [abs_mul]; exact mul_le_mul_of_nonneg_left hy (abs_nonneg _)
    have h3 := mul_le_mul_of_nonneg_right hps mpos
    have := abs_add_le (p * x) (s * y)
    linarith
  have w0 : |(w 0 : ℝ)| ≤ 9 / 8 + mx / 4 := by
    have h1 := hrowb _ _ m0 m1 _ _ r0
    have : (w 0 : ℝ) = -A.val (v 0) - (((N 0 0 : ℝ) - 1) * w 0 + N 0 1 * w 1) := by linarith
    rw [this]
    have h2 := abs_sub (-A.val (v 0)) (((N 0 0 : ℝ) - 1) * w 0 + N 0 1 * w 1)
    rw [abs_neg] at h2
    linarith [hv2 0]
  have w1 : |(w 1 : ℝ)| ≤ 9 / 8 + mx / 4 := by
    have h1 := hrowb _ _ m1 m0 _ _ (by linarith : |(N 1 1 : ℝ) - 1| + |(N 1 0 : ℝ)| ≤ 1 / 4)
    have : (w 1 : ℝ) = -A.val (v 1) - (((N 1 1 : ℝ) - 1) * w 1 + N 1 0 * w 0) := by linarith
    rw [this]
    have h2 := abs_sub (-A.val (v 1)) (((N 1 1 : ℝ) - 1) * w 1 + N 1 0 * w 0)
    rw [abs_neg] at h2
    linarith [hv2 1]
  have hm2 : mx ≤ 3 / 2 := by
    have : mx ≤ 9 / 8 + mx / 4 := by rw [hmx] at w0 w1 ⊢; exact max_le w0 w1
    linarith
  have hwz : ∀ i, |(w i : ℝ)| ≤ 3 / 2 := by intro i; fin_cases i <;> [exact m0.trans hm2; exact m1.trans hm2]
  have hz : ∀ i, isFin (z i) = true ∧ |A.val (z i) - w i| ≤ 5 / 2 * u := by
    intro i
    have hzi : z i = lit (w i) := by rw [← h, hw]; rfl
    obtain ⟨k1, k2⟩ := A.lit (w i) ((hwz i).trans (by linarith))
    rw [hzi]
    refine ⟨k1, k2.trans ?_⟩
    have := mul_le_mul_of_nonneg_left (hwz i) hu0
    linarith
  refine ⟨fun i => (hz i).1, ?_⟩
  have d0 := abs_le.mp (hz 0).2
  have d1 := abs_le.mp (hz 1).2
  have v0 := abs_le.mp (hvr 0)
  have v1 := abs_le.mp (hvr 1)
  have hprod : ∀ p x : ℝ, |p| ≤ 5 / 4 → |x| ≤ 5 / 2 * u → |p * x| ≤ 25 / 8 * u := by
    intro p x h1 h2
    rw [abs_mul]
    exact (mul_le_mul h1 h2 (abs_nonneg _) (by norm_num)).trans (by linarith)
  have hsm : ∀ p x : ℝ, |p| ≤ 1 / 4 → |x| ≤ 5 / 2 * u → |p * x| ≤ 5 / 8 * u := by
    intro p x h1 h2
    rw [abs_mul]
    exact (mul_le_mul h1 h2 (abs_nonneg _) (by norm_num)).trans (by linarith)
  intro i
  fin_cases i
  · simp only [Fin.sum_univ_two, Fin.zero_eta, Fin.isValue]
    have p1 := abs_le.mp (hprod (N 0 0) _ (abs_le.mpr ⟨by linarith, by linarith⟩) (hz 0).2)
    have p2 := abs_le.mp (hsm (N 0 1) _ (abs_le.mpr a01) (hz 1).2)
    have g1 : (N 0 0 : ℝ) * A.val (z 0) = N 0 0 * (A.val (z 0) - w 0) + N 0 0 * w 0 := by ring
    have g2 : (N 0 1 : ℝ) * A.val (z 1) = N 0 1 * (A.val (z 1) - w 1) + N 0 1 * w 1 := by ring
    rw [g1, g2, abs_le]
    constructor <;> linarith
  · simp only [Fin.sum_univ_two, Fin.mk_one, Fin.isValue]
    have p1 := abs_le.mp (hsm (N 1 0) _ (abs_le.mpr a10) (hz 0).2)
    have p2 := abs_le.mp (hprod (N 1 1) _ (abs_le.mpr ⟨by linarith, by linarith⟩) (hz 1).2)
    have g1 : (N 1 0 : ℝ) * A.val (z 0) = N 1 0 * (A.val (z 0) - w 0) + N 1 0 * w 0 := by ring
    have g2 : (N 1 1 : ℝ) * A.val (z 1) = N 1 1 * (A.val (z 1) - w 1) + N 1 1 * w 1 := by ring
    rw [g1, g2, abs_le]
    constructor <;> linarith

/-- the rounded inverse of the tableau of RADAU_IIA_32 -/
theorem laRound_invAccurate (A : FloatArith F u B) {vq : F → ℚ} (hu : 0 ≤ u) (hB : 16 ≤ B) :
    InvAccurate A (laRound vq) (irkCoeffs 210) (irkCoeffs 210) (68 * u) := by
  have key : ∀ (Ai : Mat F 2) (X : ℕ → ℕ → ℝ), (laRound vq).inv (irkCoeffs 210 : SolverCoeffs F).mat = some Ai →
      IsInvBlock 2 (irkCoeffs 210 : SolverCoeffs ℝ).a X → ∀ i j : Fin 2, Near A (Ai i j) (X i j) (68 * u) := by
    intro Ai X h hX i j
    have h' : Ai = fun i j => lit (if i.val = 0 then (if j.val = 0 then 3 / 2 else 1 / 2) else if j.val = 0 then - 9 / 2 else 5 / 2) := (Option.some.inj h).symm
    have x00 := hX 0 0
    have x01 := hX 0 1
    have x10 := hX 1 0
    have x11 := hX 1 1
    simp only [Fin.sum_univ_two, Fin.isValue, Fin.val_zero, Fin.val_one, irkCoeffs, radauIIA32, SolverCoeffs.a] at x00 x01 x10 x11
    norm_num [Verif.q, nq] at x00 x01 x10 x11
    have hlit : ∀ x : ℚ, |(x : ℝ)| ≤ 9 / 2 → Near A (lit x) x (68 * u) := by
      intro x hx
      obtain ⟨k1, k2⟩ := A.lit x (hx.trans (by linarith))
      refine ⟨k1, k2.trans ?_⟩
      have := mul_le_mul_of_nonneg_left hx hu
      linarith
    rw [h']
    fin_cases i <;> fin_cases j <;> simp only [if_true, one_ne_zero, if_false]
    · have := hlit (3 / 2) (by norm_num)
      rwa [show X 0 0 = ((3 / 2 : ℚ) : ℝ) by push_cast; linarith]
    · have := hlit (1 / 2) (by norm_num)
      rwa [show X 0 1 = ((1 / 2 : ℚ) : ℝ) by push_cast; linarith]
    · have := hlit (- 9 / 2) (by norm_num [abs_le])
      rwa [show X 1 0 = ((- 9 / 2 : ℚ) : ℝ) by push_cast; linarith]
    · have := hlit (5 / 2) (by norm_num)
      rwa [show X 1 1 = ((5 / 2 : ℚ) : ℝ) by push_cast; linarith]
  exact key

end

/-- **The hypotheses of C129 can be met with rounding errors**: RADAU_IIA_32 for `y' = y²` on `[0, 9/10]`, in every binary arithmetic with a precision of at
least 20 bits, with the computed square, the (wrong) zero Jacobi matrix and linear algebra with one rounding. -/
example (q : ℕ) (hq : 20 ≤ q) (B : ℝ) (hB : 1000000 ≤ B) :
    NearTableau (BF.arith hq B) (irkCoeffs 210) (irkCoeffs 210) ∧
    RhsAccurate (BF.arith hq B) (fun (_ : ℝ) (y : Vec ℝ 1) (i : Fin 1) => y i ^ 2) (fun (t : ℝ) (_ : Fin 1) => 1 / (1 - t)) 0 (9 / 10)
      (145 * (1 / 2 ^ (q + 1))) (squareOde (BF q)).fn ∧
    LuAccurate (BF.arith hq B) (laRound BF.v) ((irkCoeffs 210 : SolverCoeffs (BF q)).ns * 1) (68 * (1 / 2 ^ (q + 1))) ∧
    InvAccurate (BF.arith hq B) (laRound BF.v) (irkCoeffs 210) (irkCoeffs 210) (68 * (1 / 2 ^ (q + 1))) := by
  refine ⟨nearTableau_irk _ hB (Or.inl rfl), square_accurate _ (by positivity) (by linarith), ?_, ?_⟩
  · refine laRound_luAccurate (BF.arith hq B) (fun _ => rfl) (by positivity) ?_ (by linarith)
    refine one_div_le_one_div_of_le (by norm_num) ?_
    calc (1000000 : ℝ) ≤ 2 ^ 21 := by norm_num
      _ ≤ 2 ^ (q + 1) := pow_le_pow_right₀ (by norm_num) (by omega)
  · exact laRound_invAccurate (BF.arith hq B) (by positivity) (by linarith)

end Verif
