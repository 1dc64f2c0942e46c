import Verif.IrkShipped
import Verif.Prop.Methods

/-!
# Properties C08, C17, C42, C43, C48, C49, C63 for the implicit integrator and its methods
-/

set_option linter.unusedSectionVars false

namespace Verif
open Spec

section generic
variable {F : Type} [Add F] [Sub F] [Mul F] [Div F] [Neg F] [Scalar F] {n : ℕ}
  {nd : Bool} {la : LinAlg F} {fn : OdeFun F n} {t0 t1 : F} {y0 : Vec F n} {o : IrkOpts F} {oo : OutOpts}
  {m : ℤ} {dt : F} {fuel : ℕ} {sc : SolverCoeffs F} {out : IrkOutput F (sc.ns * n) n}

/-! ### C08 -/

/-- **C08 (implicit table).**  In any arithmetic, the coefficients of `m` verify exactly for the twelve implemented
codes; every other `int`, including the enumerated but unimplemented 221, 233, 241 and 242, does not. -/
theorem C08_irk (m : ℤ) : irkVerify (irkCoeffs m : SolverCoeffs F) = true ↔
    m ∈ ([200, 210, 211, 212, 213, 220, 222, 230, 231, 232, 240, 243] : List ℤ) := by
  constructor
  · intro h
    by_contra hm
    simp only [List.mem_cons, List.not_mem_nil, or_false, not_or] at hm
    obtain ⟨h1, h2, h3, h4, h5, h6, h7, h8, h9, h10, h11, h12⟩ := hm
    rw [irkCoeffs, if_neg h1, if_neg h2, if_neg h3, if_neg h4, if_neg h5, if_neg h6, if_neg h7, if_neg h8, if_neg h9,
      if_neg h10, if_neg h11, if_neg h12] at h
    cases h
  · intro hm
    simp only [List.mem_cons, List.not_mem_nil, or_false] at hm
    rcases hm with rfl | rfl | rfl | rfl | rfl | rfl | rfl | rfl | rfl | rfl | rfl | rfl <;> rfl

/-- **C08 (consequence).**  `irk::odeint` with a code that is not implemented stops at its assertion; with assertions
compiled out it reads the uninitialised orders (or a null pointer). -/
theorem C08_irk_unsupported
    (hm : m ∉ ([200, 210, 211, 212, 213, 220, 222, 230, 231, 232, 240, 243] : List ℤ)) :
    irkOdeint nd la fn t0 t1 y0 o oo m dt fuel = some (if nd then .ub else .assertFail) := by
  have hv : irkVerify (irkCoeffs m : SolverCoeffs F) = false := by
    have := (C08_irk (F := F) m).not.mpr hm
    simpa using this
  have hsc : (irkCoeffs m : SolverCoeffs F) = { gamma := lit 0 } := by
    simp only [List.mem_cons, List.not_mem_nil, or_false, not_or] at hm
    obtain ⟨h1, h2, h3, h4, h5, h6, h7, h8, h9, h10, h11, h12⟩ := hm
    simp [irkCoeffs, *]
  have hmo : minOrder (irkCoeffs m : SolverCoeffs F) = none := by rw [hsc]; rfl
  unfold irkOdeint
  simp only
  cases nd
  · simp [hv]
  · simp only [Bool.not_true, Bool.false_and, Bool.false_eq_true, if_false, if_true]
    unfold irkGuts
    simp only [hmo]
    cases hno : (if (o.adaptive && (irkCoeffs m : SolverCoeffs F).b2.length == 0) = true then
      { o with adaptive := false } else o).newtonOpts with
    | none => simp
    | some no => simp

example : irkVerify (irkCoeffs 211 : SolverCoeffs ℝ) = true := (C08_irk 211).mpr (by decide)
/-- `LOBATTO_IIIA_85` (221) is enumerated but not implemented -/
example : ("LOBATTO_IIIA_85", (221 : ℤ)) ∈ irkMethods ∧ irkVerify (irkCoeffs 221 : SolverCoeffs ℝ) = false := by
  refine ⟨by decide, ?_⟩
  have := (C08_irk (F := ℝ) 221).not.mpr (by decide)
  simpa using this

/-! ### C17 -/

/-- **C17, implicit integrator; what holds.**  At most `max_steps + 1` steps are accepted, and
ERROR_MAX_STEPS_EXCEEDED is reported only after exactly that many, in any arithmetic.  The stated bound `max_steps` is
false (`C17_irk_refuted`). -/
theorem C17_irk_max_steps_partial (hms : 0 ≤ o.maxSteps)
    (h : irkGuts nd la fn t0 t1 y0 o dt sc oo fuel = some (.ret out)) :
    ((out.count.newtonSuccess : ℤ) - out.count.rejectErr ≤ o.maxSteps + 1) ∧
    (out.status = 128 → (out.count.newtonSuccess : ℤ) - out.count.rejectErr = o.maxSteps + 1) ∧
    ((out.tVals.length : ℤ) ≤ o.maxSteps + 2) := by
  obtain ⟨no, mo, Ai, s, acc, h1, h2, h3, -, hb, ⟨hcn, hst⟩, hinv, hv, -⟩ :=
    irk_accs (Rel := fun _ _ => True) (J := fun s => CountInvI s ∧ (s.step : ℤ) ≤ o.maxSteps + 1) h
      (fun _ _ _ => ⟨countInvI_init _ _ _ _, by simp only [irkInit]; omega⟩)
      (fun no mo Ai s s' _ _ _ hj hb => ⟨countInvI_next hj.1 hb, by
        have hc := bodyCaseI nd la fn t1 o no oo sc mo (dWeights Ai fun i => sc.bw i) (dWeights Ai fun i => sc.bw2 i) s
        rw [hb] at hc
        cases hc with
        | newton _ _ _ _ _ _ => exact hj.2
        | rejected _ _ _ _ _ _ _ _ _ _ => exact hj.2
        | accepted _ hm _ _ _ _ _ _ _ _ _ _ => simp only [acceptI]; push_cast; omega⟩)
      (fun _ _ _ _ _ _ _ _ _ _ _ _ _ _ _ _ _ _ _ _ _ => trivial)
  have hlen : (out.tVals.length : ℤ) ≤ s.step + 1 := by
    rw [hv.cols.t, List.length_map, storedI]
    have := hinv.len
    split_ifs
    · have := (everyNth_sublist oo.interval.toNat acc).length_le
      omega
    · rw [List.length_take]
      omega
  have hok := hcn.ok
  have hcase := bodyCaseI nd la fn t1 o no oo sc mo (dWeights Ai fun i => sc.bw i) (dWeights Ai fun i => sc.bw2 i) s
  rw [hb] at hcase
  cases hcase with
  | finished hf =>
    refine ⟨by simp only; omega, fun h => ?_, by omega⟩
    have := hinv.status
    simp only at h
    omega
  | limit hl hm => refine ⟨?_, fun _ => ?_, by omega⟩ <;> simp only [IrkOutput.bump] <;> omega
  | general hl hm r hr hs had =>
    obtain ⟨-, L, K, -, hcn'⟩ := solve_count hr
    refine ⟨?_, fun h => ?_, by omega⟩
    · simp only [hcn', IrkOutput.bump]; omega
    · simp at h
  | stop r hr => exact absurd rfl (hr out)

/-! ### C42 -/

/-- **C42, what the code does instead.**  Every recorded stage vector is zero, in any arithmetic and for every run. -/
theorem C42_stages_zero_partial (h : irkGuts nd la fn t0 t1 y0 o dt sc oo fuel = some (.ret out)) :
    ∀ k ∈ out.stages, k = fun _ => lit 0 := by
  obtain ⟨no, Ai, -, -, acc, -, -, -, ⟨rec, -, -, -, -, -, hst⟩, -⟩ := C38_records h
  intro k hk
  rw [hst, List.mem_map] at hk
  obtain ⟨-, -, rfl⟩ := hk
  rfl

/-! ### C43 -/

/-- With adaptive stepping off a pass of the loop never takes a step: it ends with an exception, or with GENERAL_ERROR,
or with the step limit. -/
theorem C43_fixed_never_steps (had : o.adaptive = false)
    (h : irkGuts nd la fn t0 t1 y0 o dt sc oo fuel = some (.ret out)) :
    out.tVals = [t0] ∧ out.count.newtonSuccess = 0 ∧ (out.status = 0 → ltb t0 t1 = false) := by
  obtain ⟨no, mo, Ai, s, h1, h2, h3, h4, h5, h6, h7⟩ := irkGuts_ret h
  have hs : s = irkInit (sc.ns * n) t0 y0 (clipDt t0 t1 dt) no.maxit := by
    refine h6.inv (Inv := fun s => s = irkInit (sc.ns * n) t0 y0 (clipDt t0 t1 dt) no.maxit) rfl ?_
    intro a b _ hb
    have hc := bodyCaseI nd la fn t1 o no oo sc mo (dWeights Ai fun i => sc.bw i) (dWeights Ai fun i => sc.bw2 i) a
    rw [hb] at hc
    cases hc with
    | newton _ _ _ _ _ h => rw [had] at h; cases h
    | rejected _ _ _ _ _ h _ _ _ _ => rw [had] at h; cases h
    | accepted _ _ _ _ _ h _ _ _ _ _ _ => rw [had] at h; cases h
  have hc := bodyCaseI nd la fn t1 o no oo sc mo (dWeights Ai fun i => sc.bw i) (dWeights Ai fun i => sc.bw2 i) s
  rw [h7] at hc
  cases hc with
  | finished hf => rw [hs] at hf ⊢; exact ⟨rfl, rfl, fun _ => hf⟩
  | limit hl hm => rw [hs]; exact ⟨rfl, rfl, fun h => by simp at h⟩
  | general hl hm r hr hst hh =>
    obtain ⟨-, L, K, -, hcn'⟩ := solve_count hr
    refine ⟨?_, ?_, fun h => by simp at h⟩
    · rw [hs]; rfl
    · simp only [hcn', hs]; rfl
  | stop r hr => exact absurd rfl (hr out)

/-- `GAUSS_LEGENDRE_147` (243) and `LOBATTO_IIIA_127` (222): the minimum of two uninitialised `int`s is taken. -/
theorem C43_uninitialised {no : NewtonOpts F} (hm : m = 222 ∨ m = 243) (hno : o.newtonOpts = some no)
    (hdt : nd = true ∨ ltb (lit 0) (clipDt t0 t1 dt) = true) :
    irkOdeint nd la fn t0 t1 y0 o oo m dt fuel = some .ub := by
  have hv : irkVerify (irkCoeffs m : SolverCoeffs F) = true := (C08_irk m).mpr (by rcases hm with rfl | rfl <;> decide)
  have hmo : minOrder (irkCoeffs m : SolverCoeffs F) = none := by rcases hm with rfl | rfl <;> rfl
  have hb : (irkCoeffs m : SolverCoeffs F).b2.length = 7 := by rcases hm with rfl | rfl <;> rfl
  unfold irkOdeint
  simp only [hv, Bool.not_true, Bool.and_false, Bool.false_eq_true, if_false, hb]
  unfold irkGuts
  simp only [hmo]
  have : ((if (o.adaptive && 7 == 0) = true then { o with adaptive := false } else o) : IrkOpts F) = o := by
    cases o.adaptive <;> simp
  simp only [this]
  rw [hno]
  rcases hdt with h | h <;> simp [h]

/-- `IMPLICIT_EULER` has no embedded weights: the product of `inv(A).t()` with the empty `b2` throws (whatever
`arma::inv` does, provided it does not throw already). -/
theorem C43_implicit_euler {no : NewtonOpts F} (hno : o.newtonOpts = some no)
    (hdt : nd = true ∨ ltb (lit 0) (clipDt t0 t1 dt) = true) :
    irkOdeint nd la fn t0 t1 y0 o oo 200 dt fuel = some .throws := by
  have hv : irkVerify (irkCoeffs 200 : SolverCoeffs F) = true := (C08_irk 200).mpr (by decide)
  unfold irkOdeint
  simp only [hv, Bool.not_true, Bool.and_false, Bool.false_eq_true, if_false]
  unfold irkGuts
  have hno' : (if (o.adaptive && (irkCoeffs 200 : SolverCoeffs F).b2.length == 0) = true then
      { o with adaptive := false } else o : IrkOpts F).newtonOpts = some no := by
    split_ifs <;> exact hno
  have hmo : minOrder (irkCoeffs 200 : SolverCoeffs F) = some 0 := by
    show some ((min (1 : ℤ) 0) % 2 ^ 64).toNat = some 0
    rfl
  simp only [hno', hmo]
  have h0 : ¬ ((!nd && !ltb (lit 0) (clipDt t0 t1 dt)) = true) := by rcases hdt with h | h <;> simp [h]
  rw [if_neg h0, if_neg (by simp [irkCoeffs, implicitEuler, SolverCoeffs.nRows, SolverCoeffs.nCols, SolverCoeffs.ns])]
  cases la.inv (irkCoeffs 200 : SolverCoeffs F).mat with
  | none => rfl
  | some Ai =>
    simp only
    rw [if_pos]
    simp [irkCoeffs, implicitEuler, SolverCoeffs.ns]

end generic

section real
variable {n : ℕ} {nd : Bool} {la : LinAlg ℝ} {fn : OdeFun ℝ n} {t0 t1 : ℝ} {y0 : Vec ℝ n} {o : IrkOpts ℝ}
  {no : NewtonOpts ℝ} {oo : OutOpts} {m : ℤ} {dt : ℝ} {fuel : ℕ}

/-- `LOBATTO_IIIA_43` and `GAUSS_LEGENDRE_42` have a zero row in `A`: `arma::inv(A)` throws before the first step, for
every problem and all options. -/
theorem C43_singular (hla : la.Exact) (hm : m = 220 ∨ m = 240) (hno : o.newtonOpts = some no)
    (hdt : nd = true ∨ (0 < dt ∧ t0 < t1)) :
    irkOdeint nd la fn t0 t1 y0 o oo m dt fuel = some .throws := by
  have hv : irkVerify (irkCoeffs m : SolverCoeffs ℝ) = true := (C08_irk m).mpr (by rcases hm with rfl | rfl <;> decide)
  have hb : (irkCoeffs m : SolverCoeffs ℝ).b2.length = 3 := by rcases hm with rfl | rfl <;> rfl
  have hmo : minOrder (irkCoeffs m : SolverCoeffs ℝ) = some 2 := by rcases hm with rfl | rfl <;> rfl
  have hdet : ¬ IsUnit (Matrix.of (irkCoeffs m : SolverCoeffs ℝ).mat).det := by
    rw [isUnit_iff_ne_zero, not_not]
    rcases hm with rfl | rfl
    · exact Matrix.det_eq_zero_of_row_eq_zero (⟨0, by decide⟩ : Fin 3) (fun j => by
        show (irkCoeffs 220 : SolverCoeffs ℝ).a 0 j = 0
        have : ∀ j : Fin 3, (irkCoeffs 220 : SolverCoeffs ℝ).a 0 j = 0 := by
          intro j
          fin_cases j <;> simp [irkCoeffs, lobattoIIIA43, SolverCoeffs.a]
        exact this j)
    · exact Matrix.det_eq_zero_of_row_eq_zero (⟨2, by decide⟩ : Fin 3) (fun j => by
        show (irkCoeffs 240 : SolverCoeffs ℝ).a 2 j = 0
        have : ∀ j : Fin 3, (irkCoeffs 240 : SolverCoeffs ℝ).a 2 j = 0 := by
          intro j
          fin_cases j <;> simp [irkCoeffs, gaussLegendre42, SolverCoeffs.a]
        exact this j)
  unfold irkOdeint
  have : ((if (o.adaptive && (irkCoeffs m : SolverCoeffs ℝ).b2.length == 0) = true then
      { o with adaptive := false } else o) : IrkOpts ℝ) = o := by
    rw [hb]; cases o.adaptive <;> simp
  simp only [hv, Bool.not_true, Bool.and_false, Bool.false_eq_true, if_false, this]
  unfold irkGuts
  simp only [hno, hmo]
  have h0 : ¬ ((!nd && !ltb (lit 0) (clipDt t0 t1 dt)) = true) := by
    rcases hdt with h | h
    · simp [h]
    · have : 0 < clipDt t0 t1 dt := by rw [clipDt_real]; exact lt_min h.1 (by linarith [h.2])
      simp [this]
  rw [if_neg h0, if_neg (by
    rcases hm with rfl | rfl <;>
    simp [irkCoeffs, lobattoIIIA43, gaussLegendre42, SolverCoeffs.nRows, SolverCoeffs.nCols, SolverCoeffs.ns]),
    hla.inv_none _ hdet]

/-- **C43, the documented claim**, with all inputs valid (regular matrices, exact linear algebra, assertions on): no
run of a method that verifies ends in an exception, an assertion or undefined behaviour. -/
def C43_claim : Prop :=
  ∀ (n : ℕ) (fn : OdeFun ℝ n) (t0 t1 : ℝ) (y0 : Vec ℝ n) (o : IrkOpts ℝ) (no : NewtonOpts ℝ) (m : ℤ) (dt : ℝ)
    (fuel : ℕ), irkVerify (irkCoeffs m : SolverCoeffs ℝ) = true → 0 < n → t0 < t1 → 0 < dt →
    o.newtonOpts = some no → no.refreshJac ≠ 0 →
    (∀ t y h, 0 < h → RegularAt fn (irkCoeffs m : SolverCoeffs ℝ) t y h) →
    irkOdeint false laReal fn t0 t1 y0 o OutOpts.dflt m dt fuel = none ∨
      ∃ out, irkOdeint false laReal fn t0 t1 y0 o OutOpts.dflt m dt fuel = some (.ret out)

theorem C43_refuted : ¬ C43_claim := by
  intro h
  have key := h 1 (constFun 0) 0 1 0 { IrkOpts.dflt with newtonOpts := some NewtonOpts.dflt } NewtonOpts.dflt 240 1 1
    ((C08_irk 240).mpr (by decide)) (by norm_num) (by norm_num) (by norm_num) rfl (by simp [NewtonOpts.dflt])
    (fun t y h _ => constFun_regular 0 t y h)
  rw [C43_singular (no := NewtonOpts.dflt) laReal_exact (Or.inr rfl) rfl (Or.inr ⟨by norm_num, by norm_num⟩)] at key
  rcases key with h | ⟨out, h⟩
  · cases h
  · cases h

/-- **C43, what holds.**  The Radau IIA methods and the Lobatto IIIC methods, with adaptive stepping: no run ends in an
exception, a failed assertion or undefined behaviour, as long as the matrices are regular.  Excluded: fixed step
(`C43_fixed_never_steps`), `IMPLICIT_EULER`, `LOBATTO_IIIA_43`, `GAUSS_LEGENDRE_42`, `LOBATTO_IIIA_127`,
`GAUSS_LEGENDRE_147`. -/
theorem C43_adaptive_partial (hm : m ∈ ([210, 211, 212, 213, 230, 231, 232] : List ℤ)) (hno : o.newtonOpts = some no)
    (had : o.adaptive = true) (hn : 0 < n) (hr : no.refreshJac ≠ 0) (hi : oo.interval.toNat ≠ 0)
    (hw : oo.writeToFile = true → oo.streamSet = true) (ht : t0 < t1) (hdt : 0 < dt)
    (hreg : ∀ t y h, 0 < h → RegularAt fn (irkCoeffs m : SolverCoeffs ℝ) t y h) (fuel : ℕ) :
    irkOdeint false laReal fn t0 t1 y0 o oo m dt fuel = none ∨
      ∃ out, irkOdeint false laReal fn t0 t1 y0 o oo m dt fuel = some (.ret out) := by
  have hv : irkVerify (irkCoeffs m : SolverCoeffs ℝ) = true :=
    (C08_irk m).mpr (by
      have : ∀ m ∈ ([210, 211, 212, 213, 230, 231, 232] : List ℤ),
        m ∈ ([200, 210, 211, 212, 213, 220, 222, 230, 231, 232, 240, 243] : List ℤ) := by decide
      exact this m hm)
  have hU := usable_shipped (m := m) hm
  have hb : 0 < (irkCoeffs m : SolverCoeffs ℝ).b2.length := by
    have hI : m ∈ irkImplemented := by
      have : ∀ m ∈ irkUsable, m ∈ irkImplemented := by decide
      exact this m hm
    rw [hU.b2]
    exact ((img_shipped hI).shape (baseOK_shipped m hI)).2.2.2.1
  unfold irkOdeint
  have : ((if (o.adaptive && (irkCoeffs m : SolverCoeffs ℝ).b2.length == 0) = true then
      { o with adaptive := false } else o) : IrkOpts ℝ) = o := by
    rw [if_neg]; simp; intro _ h; rw [h] at hb; simp at hb
  simp only [hv, Bool.not_true, Bool.and_false, Bool.false_eq_true, if_false, this]
  exact irkGuts_fine hU hno had hn hr hi hw ht hdt hreg fuel

/-! ### a concrete run: `y' = 1`, `y(0) = 0` with `RADAU_IIA_32` -/

/-- options of the run -/
noncomputable def demoOpts (ms : ℤ) : IrkOpts ℝ :=
  { adaptive := true, relTol := 0, absTol := 1, maxDt := 0, maxSteps := ms, newtonOpts := some NewtonOpts.dflt }

/-- one accepted step from 0 to 1, for every value of `max_steps` -/
theorem demo_run (ms : ℤ) : ∃ out, irkGuts false laReal (constFun (n := 1) fun _ => 1) 0 1 (fun _ => 0) (demoOpts ms) 1
    (irkCoeffs 210 : SolverCoeffs ℝ) OutOpts.dflt 2 = some (.ret out) ∧ out.status = 0 ∧ out.tVals = [0, 1] ∧
    out.yVals = [fun _ => 0, fun _ => 1] ∧ out.stages = [fun _ => 0, fun _ => 0] ∧ out.count.attempt = 1 := by
  have hU : Usable (irkCoeffs 210 : SolverCoeffs ℝ) := usable_shipped (by decide)
  have e1 : ∑ j : Fin (irkCoeffs 210 : SolverCoeffs ℝ).ns, (irkCoeffs 210 : SolverCoeffs ℝ).bw j = 1 := by
    show ∑ j : Fin 2, (irkCoeffs 210 : SolverCoeffs ℝ).bw j = 1
    rw [Fin.sum_univ_two]
    simp [irkCoeffs, radauIIA32, SolverCoeffs.bw, q]
    norm_num
  have e2 : ∑ j : Fin (irkCoeffs 210 : SolverCoeffs ℝ).ns, (irkCoeffs 210 : SolverCoeffs ℝ).bw2 j = 1 := by
    show ∑ j : Fin 2, (irkCoeffs 210 : SolverCoeffs ℝ).bw2 j = 1
    rw [Fin.sum_univ_two]
    simp [irkCoeffs, radauIIA32, SolverCoeffs.bw2, q]
    norm_num
  have e3 : (irkCoeffs 210 : SolverCoeffs ℝ).gamma = 1 / 3 := by simp [irkCoeffs, radauIIA32, q]
  obtain ⟨out, h1, h2, h3, h4, h5, h6⟩ := const_run (t0 := 0) (t1 := 1) (y0 := fun _ => 0) (o := demoOpts ms)
    (no := NewtonOpts.dflt) (dt := 1) (oo := OutOpts.dflt) (n := 1) (fun _ => 1) hU rfl rfl (by norm_num)
    (by simp [NewtonOpts.dflt]) (by decide) (by decide) (by simp [NewtonOpts.dflt])
    (by simp [NewtonOpts.dflt]) (le_refl _) (by simp [demoOpts]) (by norm_num) (by norm_num)
    (by intro k; rw [e1, e2, e3]; simp [demoOpts]; norm_num [abs_le])
  have hst : OutOpts.dflt.storeInVectors = true := by decide
  rw [hst] at h3 h4 h5
  refine ⟨out, h1, h2, h3, ?_, h5, h6⟩
  rw [h4, e1]
  simp

/-- **C17, the claim for the implicit integrator** -/
def C17_irk_claim : Prop :=
  ∀ (n : ℕ) (fn : OdeFun ℝ n) (t0 t1 : ℝ) (y0 : Vec ℝ n) (o : IrkOpts ℝ) (oo : OutOpts) (sc : SolverCoeffs ℝ) (dt : ℝ)
    (fuel : ℕ) (out : IrkOutput ℝ (sc.ns * n) n), 0 ≤ o.maxSteps →
    irkGuts false laReal fn t0 t1 y0 o dt sc oo fuel = some (.ret out) →
    ((out.tVals.length - 1 : ℕ) : ℤ) ≤ o.maxSteps

/-- **C17 is false of the implicit integrator**: with `max_steps = 0` one step is taken and SUCCESS is reported. -/
theorem C17_irk_refuted : ¬ C17_irk_claim := by
  intro h
  obtain ⟨out, h1, -, h3, -⟩ := demo_run 0
  have := h _ _ _ _ _ _ _ _ _ _ _ (le_refl _) h1
  rw [h3] at this
  norm_num [demoOpts] at this

/-- **C42, the documented claim**: the recorded vector of a step contains its stages, in whichever of the two usual
forms: as derivatives `k_i` (then `y' = y + h Σ b_i k_i`) or as increments `Y_i` (then `y' = y + Σ d_i Y_i`,
`d = inv(A)ᵀ b`). -/
def C42_claim : Prop :=
  ∀ (n : ℕ) (fn : OdeFun ℝ n) (t0 t1 : ℝ) (y0 : Vec ℝ n) (o : IrkOpts ℝ) (sc : SolverCoeffs ℝ) (dt : ℝ)
    (fuel : ℕ) (out : IrkOutput ℝ (sc.ns * n) n),
    irkGuts false laReal fn t0 t1 y0 o dt sc OutOpts.dflt fuel = some (.ret out) →
    ∀ i t t' y y' S, out.tVals[i]? = some t → out.tVals[i + 1]? = some t' → out.yVals[i]? = some y →
      out.yVals[i + 1]? = some y' → out.stages[i + 1]? = some S →
      (∀ k, y' k = y k + (t' - t) * ∑ j : Fin sc.ns, sc.bw j * S (finProdFinEquiv (j, k))) ∨
      ∀ k, y' k = y k + ∑ j : Fin sc.ns, S (finProdFinEquiv (j, k)) * ∑ l : Fin sc.ns, (Matrix.of sc.mat)⁻¹ l j * sc.bw l

/-- **C42 is false**: the recorded stages are zero although `y` changes from 0 to 1. -/
theorem C42_refuted : ¬ C42_claim := by
  intro h
  obtain ⟨out, h1, -, h3, h4, h5, -⟩ := demo_run (-1)
  have := h _ _ _ _ _ _ _ _ _ _ h1 0 0 1 (fun _ => 0) (fun _ => 1) (fun _ => 0) (by rw [h3]; rfl) (by rw [h3]; rfl)
    (by rw [h4]; rfl) (by rw [h4]; rfl) (by rw [h5]; rfl)
  rcases this with h | h <;>
  · have := h 0
    simp at this

/-- non-vacuity of the theorems about returned runs (`C36`–`C44`, `C17_irk_max_steps_partial`,
`C42_stages_zero_partial`): a run that returns and has an accepted step -/
example : ∃ out, irkGuts false laReal (constFun (n := 1) fun _ => 1) 0 1 (fun _ => 0) (demoOpts 7) 1
    (irkCoeffs 210 : SolverCoeffs ℝ) OutOpts.dflt 2 = some (.ret out) ∧ out.status = 0 ∧ out.tVals = [0, 1] := by
  obtain ⟨out, h1, h2, h3, -⟩ := demo_run 7
  exact ⟨out, h1, h2, h3⟩

/-- the hypotheses of `C43_adaptive_partial` are met by every usable method with a constant right-hand side -/
example : irkOdeint false laReal (constFun (n := 2) fun _ => 1) 0 1 (fun _ => 0) (demoOpts 7) OutOpts.dflt 213 1 5 = none ∨
    ∃ out, irkOdeint false laReal (constFun (n := 2) fun _ => 1) 0 1 (fun _ => 0) (demoOpts 7) OutOpts.dflt 213 1 5 =
      some (.ret out) :=
  C43_adaptive_partial (no := NewtonOpts.dflt) (by decide) rfl rfl (by norm_num) (by simp [NewtonOpts.dflt]) (by decide)
    (by decide) (by norm_num) (by norm_num) (fun t y h _ => constFun_regular _ t y h) 5

end real
end Verif
