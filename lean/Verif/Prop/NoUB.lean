import Verif.Prop.IrkMethods
import Verif.Prop.ErkCoeffs
import Verif.ErkTerm

/-!
# Property C71: the integrators execute no undefined operation

In any scalar arithmetic, for any right-hand side, any linear algebra and any step of any run.
-/

set_option linter.unusedSectionVars false

namespace Verif

section
variable {F : Type} [Add F] [Sub F] [Mul F] [Div F] [Neg F] [Scalar F]
variable {n : ℕ} {nd : Bool} {la : LinAlg F} {fn : OdeFun F n} {f : F → Vec F n → Vec F n} {t0 t1 dt : F} {y0 : Vec F n}
  {oo : OutOpts} {fuel : ℕ} {m : ℤ}

/-! ### helper lemmas -/

/-- a loop none of whose passes is undefined -/
theorem runLoop_ne_ub {S R : Type} {body : S → LoopStep S R} (h : ∀ s, body s ≠ .done .ub) (fuel : ℕ) (s : S) :
    runLoop body fuel s ≠ some .ub := by
  intro hr
  obtain ⟨s', -, hb⟩ := runLoop_some hr
  exact h s' hb

theorem bind_ne_ub {α β : Type} {x : Outcome α} {g : α → Outcome β} (hx : x ≠ .ub) (hg : ∀ a, g a ≠ .ub) :
    x.bind g ≠ .ub := by
  cases x with
  | ret a => exact hg a
  | assertFail => exact fun h => nomatch h
  | throws => exact fun h => nomatch h
  | ub => exact absurd rfl hx

theorem erkBody_ne_ub {o : ErkOpts F} {sc : SolverCoeffs F} {mo : ℕ} (hs : oo.writeToFile = true → oo.streamSet = true)
    (s : ErkState F n) : erkBody nd f t1 o oo sc mo s ≠ .done .ub := by
  unfold erkBody
  by_cases h1 : ltb s.t t1 = true
  · rw [if_pos h1]
    by_cases h2 : 0 ≤ o.maxSteps ∧ o.maxSteps < s.step
    · rw [if_pos h2]; exact fun h => nomatch h
    rw [if_neg h2]
    by_cases h3 : o.adaptive = true ∧ sc.b2.length ≠ sc.ns
    · rw [if_pos h3]; exact fun h => nomatch h
    rw [if_neg h3]
    simp only
    by_cases h4 : (o.adaptive && !nd && !(leb (lit 0) (attemptAt f t1 o sc mo s).errTot)) = true
    · rw [if_pos h4]; exact fun h => nomatch h
    rw [if_neg h4]
    by_cases h5 : (oo.writeToFile && !oo.streamSet) = true
    · simp only [Bool.and_eq_true, Bool.not_eq_true'] at h5
      rw [hs h5.1] at h5
      exact absurd h5.2 (by simp)
    rw [if_neg h5]
    by_cases h6 : (!o.adaptive || !(attemptAt f t1 o sc mo s).reject) = true
    · rw [if_pos h6]; exact fun h => nomatch h
    · rw [if_neg h6]; exact fun h => nomatch h
  · rw [if_neg h1]; exact fun h => nomatch h

theorem erkGuts_ne_ub {o : ErkOpts F} {sc : SolverCoeffs F} (hs : oo.writeToFile = true → oo.streamSet = true)
    (hmo : minOrder sc ≠ none) : erkGuts nd f t0 t1 y0 o dt sc oo fuel ≠ some .ub := by
  unfold erkGuts
  simp only
  by_cases h1 : (!nd && !(ltb (lit 0) (clipDt t0 t1 dt))) = true
  · rw [if_pos h1]; exact fun h => nomatch h
  rw [if_neg h1]
  cases h2 : minOrder sc with
  | none => exact absurd h2 hmo
  | some mo => exact runLoop_ne_ub (erkBody_ne_ub hs) _ _

theorem refreshJac_ne_ub {sc : SolverCoeffs F} {t h : F} {y : Vec F n} (s : StageState F (sc.ns * n) n) :
    refreshJac nd la fn sc t h y s ≠ .ub := by
  unfold refreshJac
  simp only
  cases nd with
  | true => exact fun h => nomatch h
  | false =>
    rw [if_neg (by simp)]
    cases la.lu (stageJac sc h (fn.jac t y)) with
    | none => exact fun h => nomatch h
    | some lup => exact fun h => nomatch h

theorem stageDir_ne_ub {k : ℕ} (lup : Option (Mat F k × Mat F k × Mat F k)) (R : Vec F k) : stageDir la lup R ≠ .ub := by
  unfold stageDir
  split
  · exact fun h => nomatch h
  · split
    · exact fun h => nomatch h
    · split
      · exact fun h => nomatch h
      · exact fun h => nomatch h

theorem stageIter_ne_ub {sc : SolverCoeffs F} {t h : F} {y : Vec F n} {refresh : ℤ} {xtol Rtol : F} (hr : refresh ≠ 0) :
    ∀ (k : ℕ) (s : StageState F (sc.ns * n) n), stageIter nd la fn sc t h y refresh xtol Rtol k s ≠ .ub
  | 0, s => fun h => nomatch h
  | k + 1, s => by
    unfold stageIter
    refine bind_ne_ub ?_ fun r => ?_
    · unfold stageStep
      refine bind_ne_ub (stageDir_ne_ub _ _) fun dY => ?_
      simp only
      split
      · exact fun h => nomatch h
      · refine bind_ne_ub ?_ fun _ h => nomatch h
        split
        · exact refreshJac_ne_ub _
        · exact fun h => nomatch h
    · cases r with
      | inr res => exact fun h => nomatch h
      | inl s' => exact stageIter_ne_ub hr k s'

theorem newtonSolveStages_ne_ub {sc : SolverCoeffs F} {t h : F} {y : Vec F n} {maxit refresh : ℤ} {xtol Rtol : F}
    (hr : refresh ≠ 0) {count : IrkCounters} {log : CallLog F n} :
    newtonSolveStages nd la fn sc t h y maxit refresh xtol Rtol count log ≠ .ub := by
  unfold newtonSolveStages
  refine bind_ne_ub (refreshJac_ne_ub _) fun s1 => ?_
  simp only
  split
  · exact fun h => nomatch h
  · exact stageIter_ne_ub hr _ _

theorem irkBody_ne_ub {o : IrkOpts F} {no : NewtonOpts F} {sc : SolverCoeffs F} {mo : ℕ} {d d2 : Vec F sc.ns}
    (hr : no.refreshJac ≠ 0) (hi : oo.interval.toNat ≠ 0) (hs : oo.writeToFile = true → oo.streamSet = true)
    (s : IrkState F (sc.ns * n) n) : irkBody nd la fn t1 o no oo sc mo d d2 s ≠ .done .ub := by
  unfold irkBody
  by_cases h1 : ltb s.t t1 = true
  · rw [if_pos h1]
    simp only
    by_cases h2 : 0 ≤ o.maxSteps ∧ o.maxSteps < s.step
    · rw [if_pos h2]; exact fun h => nomatch h
    rw [if_neg h2]
    cases h3 : newtonSolveStages nd la fn sc s.t (clipDt s.t t1 s.dt) s.y s.newtonMaxit no.refreshJac no.dxDelta no.tol
      s.sol.bump.count s.sol.log with
    | ub => exact absurd h3 (newtonSolveStages_ne_ub hr)
    | assertFail => exact fun h => nomatch h
    | throws => exact fun h => nomatch h
    | ret r =>
      simp only
      by_cases h4 : r.status ≠ 0
      · rw [if_pos h4]
        by_cases h5 : (!o.adaptive) = true
        · rw [if_pos h5]; exact fun h => nomatch h
        · rw [if_neg h5]; exact fun h => nomatch h
      rw [if_neg h4]
      by_cases h5 : (!o.adaptive) = true
      · rw [if_pos h5]; exact fun h => nomatch h
      rw [if_neg h5]
      cases h6 : attemptI la fn o sc mo d d2 s (clipDt s.t t1 s.dt) r.success with
      | none => exact fun h => nomatch h
      | some a =>
        simp only
        by_cases h7 : (!nd && !(leb (lit 0) a.errTot)) = true
        · rw [if_pos h7]; exact fun h => nomatch h
        rw [if_neg h7]
        by_cases h8 : a.reject = true
        · rw [if_pos h8]; exact fun h => nomatch h
        rw [if_neg h8, if_neg hi]
        by_cases h9 : ((s.step + 1) % oo.interval.toNat = 0 && oo.writeToFile && !oo.streamSet) = true
        · simp only [Bool.and_eq_true, Bool.not_eq_true'] at h9
          rw [hs h9.1.2] at h9
          exact absurd h9.2 (by simp)
        · rw [if_neg h9]; exact fun h => nomatch h
  · rw [if_neg h1]; exact fun h => nomatch h

theorem irkGuts_ne_ub {o : IrkOpts F} {no : NewtonOpts F} {sc : SolverCoeffs F} (hno : o.newtonOpts = some no)
    (hr : no.refreshJac ≠ 0) (hi : oo.interval.toNat ≠ 0) (hs : oo.writeToFile = true → oo.streamSet = true)
    (hmo : minOrder sc ≠ none) : irkGuts nd la fn t0 t1 y0 o dt sc oo fuel ≠ some .ub := by
  unfold irkGuts
  simp only [hno]
  by_cases h1 : (!nd && !(ltb (lit 0) (clipDt t0 t1 dt))) = true
  · rw [if_pos h1]; exact fun h => nomatch h
  rw [if_neg h1]
  cases h2 : minOrder sc with
  | none => exact absurd h2 hmo
  | some mo =>
    simp only
    by_cases h3 : sc.nRows ≠ sc.ns ∨ sc.nCols ≠ sc.ns
    · rw [if_pos h3]; exact fun h => nomatch h
    rw [if_neg h3]
    cases la.inv sc.mat with
    | none => exact fun h => nomatch h
    | some Ai =>
      simp only
      by_cases h4 : sc.b2.length ≠ sc.ns
      · rw [if_pos h4]; exact fun h => nomatch h
      rw [if_neg h4]
      exact runLoop_ne_ub (irkBody_ne_ub hr hi hs) _ _

/-! ### the property -/

/-- **C71 (explicit).**  `erk::odeint` with a stream set whenever it is to write: no undefined operation, for every method
code when assertions are enabled and for the implemented codes otherwise.  (`0.0 == 0.0` is required of the arithmetic
so that the shipped tableaux verify.) -/
theorem C71_erk {o : ErkOpts F} (h0 : eqb (lit 0 : F) (lit 0) = true) (hs : oo.writeToFile = true → oo.streamSet = true)
    (hm : nd = false ∨ m ∈ ([100, 110, 120, 130, 131, 132] : List ℤ)) :
    erkOdeint nd f t0 t1 y0 o oo m dt fuel ≠ some .ub := by
  unfold erkOdeint
  simp only
  by_cases h1 : (!nd && !erkVerify (erkCoeffs m : SolverCoeffs F)) = true
  · rw [if_pos h1]; exact fun h => nomatch h
  rw [if_neg h1]
  have hm' : m ∈ ([100, 110, 120, 130, 131, 132] : List ℤ) := by
    rcases hm with rfl | h
    · refine (C08_erk h0 m).mp ?_
      simpa using h1
    · exact h
  refine erkGuts_ne_ub hs ?_
  simp only [List.mem_cons, List.not_mem_nil, or_false] at hm'
  rcases hm' with rfl | rfl | rfl | rfl | rfl | rfl <;>
    exact fun h => nomatch h

/-- **C71 (implicit).**  `irk::odeint` with Newton options, `refresh_jac ≠ 0`, `output_interval ≠ 0` and a stream set
whenever it is to write: no undefined operation for every method code except 222 and 243 (assertions enabled; otherwise
for the implemented codes except these two). -/
theorem C71_irk_partial {o : IrkOpts F} {no : NewtonOpts F} (hno : o.newtonOpts = some no) (hr : no.refreshJac ≠ 0)
    (hi : oo.interval.toNat ≠ 0) (hs : oo.writeToFile = true → oo.streamSet = true) (h222 : m ≠ 222) (h243 : m ≠ 243)
    (hm : nd = false ∨ m ∈ ([200, 210, 211, 212, 213, 220, 230, 231, 232, 240] : List ℤ)) :
    irkOdeint nd la fn t0 t1 y0 o oo m dt fuel ≠ some .ub := by
  unfold irkOdeint
  simp only
  by_cases h1 : (!nd && !irkVerify (irkCoeffs m : SolverCoeffs F)) = true
  · rw [if_pos h1]; exact fun h => nomatch h
  rw [if_neg h1]
  have hm' : m ∈ ([200, 210, 211, 212, 213, 220, 230, 231, 232, 240] : List ℤ) := by
    rcases hm with rfl | h
    · have h2 := (C08_irk (F := F) m).mp (by simpa using h1)
      simp only [List.mem_cons, List.not_mem_nil, or_false] at h2 ⊢
      omega
    · exact h
  refine irkGuts_ne_ub (no := no) ?_ hr hi hs ?_
  · by_cases hb : (o.adaptive && (irkCoeffs m : SolverCoeffs F).b2.length == 0) = true
    · rw [if_pos hb]; exact hno
    · rw [if_neg hb]; exact hno
  · simp only [List.mem_cons, List.not_mem_nil, or_false] at hm'
    rcases hm' with rfl | rfl | rfl | rfl | rfl | rfl | rfl | rfl | rfl | rfl <;>
      exact fun h => nomatch h

/-- the first step is forward: the step that remains after clipping to the end of the span (irk.hpp 515-517) is positive -/
def StartsForward (t0 t1 dt : F) : Prop :=
  if ltb t1 (t0 + dt) = true then ltb (lit 0) (t1 - t0) = true else ltb (lit 0) dt = true

theorem startsForward_iff (t0 t1 dt : F) : StartsForward t0 t1 dt ↔ ltb (lit 0) (clipDt t0 t1 dt) = true := by
  unfold StartsForward clipDt
  split <;> rfl

/-- **C71 (implicit, exact extent).**  Under the same conditions `irk::odeint` executes an undefined operation exactly for the methods
`LOBATTO_IIIA_127` and `GAUSS_LEGENDRE_147` when the assertion on the first step is disabled or passes. -/
theorem C71_irk_exact {o : IrkOpts F} {no : NewtonOpts F} (hno : o.newtonOpts = some no) (hr : no.refreshJac ≠ 0)
    (hi : oo.interval.toNat ≠ 0) (hs : oo.writeToFile = true → oo.streamSet = true)
    (hm : nd = false ∨ m ∈ ([200, 210, 211, 212, 213, 220, 222, 230, 231, 232, 240, 243] : List ℤ)) :
    irkOdeint nd la fn t0 t1 y0 o oo m dt fuel = some .ub ↔
      ((m = 222 ∨ m = 243) ∧ (nd = true ∨ StartsForward t0 t1 dt)) := by
  rw [startsForward_iff]
  constructor
  · intro h
    by_cases hm2 : m = 222 ∨ m = 243
    · refine ⟨hm2, ?_⟩
      by_contra hc
      rw [not_or] at hc
      have hnd : nd = false := by simpa using hc.1
      have hdt : ltb (lit 0) (clipDt t0 t1 dt) = false := by simpa using hc.2
      subst hnd
      unfold irkOdeint irkGuts at h
      simp only at h
      split at h
      · cases h
      · split at h
        · cases h
        · simp [hdt] at h
    · rw [not_or] at hm2
      refine absurd h (C71_irk_partial hno hr hi hs hm2.1 hm2.2 (hm.imp id fun h => ?_))
      simp only [List.mem_cons, List.not_mem_nil, or_false] at h ⊢
      omega
  · rintro ⟨h1, h2⟩
    exact C43_uninitialised h1 hno h2

end

/-- the claim for all implemented implicit methods -/
def C71_claim : Prop :=
  ∀ (m : ℤ), irkVerify (irkCoeffs m : SolverCoeffs ℝ) = true → ∀ (n : ℕ) (fn : OdeFun ℝ n) (t0 t1 : ℝ) (y0 : Vec ℝ n)
    (o : IrkOpts ℝ) (no : NewtonOpts ℝ) (oo : OutOpts) (dt : ℝ) (fuel : ℕ), o.newtonOpts = some no → no.refreshJac ≠ 0 →
    oo.interval.toNat ≠ 0 → (oo.writeToFile = true → oo.streamSet = true) →
    irkOdeint false laReal fn t0 t1 y0 o oo m dt fuel ≠ some .ub

/-- `LOBATTO_IIIA_127`: uninitialised orders -/
theorem C71_refuted : ¬ C71_claim := fun h =>
  h 222 ((C08_irk 222).mpr (by decide)) 1 (constFun fun _ => 1) 0 1 (fun _ => 0) (demoOpts (-1)) NewtonOpts.dflt OutOpts.dflt 1 1
    rfl (by decide) (by decide) (fun h => absurd h (by decide))
    (C43_uninitialised (Or.inl rfl) rfl (Or.inr (by rw [clipDt_real]; simp)))

/-- the hypotheses are satisfiable -/
example : erkOdeint (F := ℝ) (n := 2) true (fun t y k => t / y k) 0 1 (fun _ => 0) ErkOpts.dflt OutOpts.dflt 131 1 7 ≠ some .ub :=
  C71_erk (by simp) (fun h => absurd h (by decide)) (Or.inr (by decide))

example : irkOdeint (F := ℝ) (n := 2) true laReal { fn := fun t y k => t / y k, jac := fun _ _ _ _ => 0 } 0 1 (fun _ => 0)
    (demoOpts (-1)) OutOpts.dflt 240 1 7 ≠ some .ub :=
  C71_irk_partial (no := NewtonOpts.dflt) rfl (by decide) (by decide) (fun h => absurd h (by decide)) (by decide) (by decide)
    (Or.inr (by decide))

/-- `C71_irk_exact`: `GAUSS_LEGENDRE_147` on an empty span fails the assertion and is undefined without it -/
example : irkOdeint (F := ℝ) (n := 2) false laReal { fn := fun t y k => t / y k, jac := fun _ _ _ _ => 0 } 1 1 (fun _ => 0)
      (demoOpts (-1)) OutOpts.dflt 243 1 7 ≠ some .ub ∧
    irkOdeint (F := ℝ) (n := 2) true laReal { fn := fun t y k => t / y k, jac := fun _ _ _ _ => 0 } 1 1 (fun _ => 0)
      (demoOpts (-1)) OutOpts.dflt 243 1 7 = some .ub :=
  ⟨fun h => by
    obtain ⟨-, h | h⟩ := (C71_irk_exact (no := NewtonOpts.dflt) rfl (by decide) (by decide) (fun h => absurd h (by decide)) (Or.inl rfl)).mp h
    · cases h
    · simp [StartsForward] at h,
   (C71_irk_exact (no := NewtonOpts.dflt) rfl (by decide) (by decide) (fun h => absurd h (by decide)) (Or.inr (by decide))).mpr
     ⟨Or.inr rfl, Or.inl rfl⟩⟩

end Verif
