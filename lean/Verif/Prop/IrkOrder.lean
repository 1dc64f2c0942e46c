import Verif.Prop.IrkMethods

/-!
# Properties C48 (merging outputs), C49 (orders of the implicit methods) and C63 (termination) for irk
-/

set_option linter.unusedSectionVars false
set_option linter.unusedSimpArgs false

namespace Verif
open Spec

/-! ### C48 -/

section merge
variable {F : Type} [Add F] [Sub F] [Mul F] [Div F] [Neg F] [Scalar F] {m n : ℕ}

theorem lor_eq_zero (a b : ℤ) : Int.lor a b = 0 ↔ a = 0 ∧ b = 0 := by
  cases a with
  | ofNat a =>
    cases b with
    | ofNat b => 
      show ((a ||| b : ℕ) : ℤ) = 0 ↔ _
      simp
    | negSucc b => 
      show Int.negSucc _ = 0 ↔ _
      simp
  | negSucc a =>
    cases b with
    | ofNat b => 
      show Int.negSucc _ = 0 ↔ _
      simp
    | negSucc b => 
      show Int.negSucc _ = 0 ↔ _
      simp

theorem lor_assoc (a b c : ℤ) : Int.lor (Int.lor a b) c = Int.lor a (Int.lor b c) := by
  have hl : ∀ (a b k : ℕ), (Nat.ldiff a b).testBit k = (a.testBit k && !b.testBit k) := Nat.testBit_ldiff
  rcases a with a | a <;> rcases b with b | b <;> rcases c with c | c <;> simp only [Int.lor]
  · rw [Nat.or_assoc]
  · congr 1
    apply Nat.eq_of_testBit_eq; intro k
    simp only [hl, Nat.testBit_or, Nat.testBit_and]
    cases a.testBit k <;> cases b.testBit k <;> cases c.testBit k <;> rfl
  · congr 1
    apply Nat.eq_of_testBit_eq; intro k
    simp only [hl, Nat.testBit_or, Nat.testBit_and]
    cases a.testBit k <;> cases b.testBit k <;> cases c.testBit k <;> rfl
  · congr 1
    apply Nat.eq_of_testBit_eq; intro k
    simp only [hl, Nat.testBit_or, Nat.testBit_and]
    cases a.testBit k <;> cases b.testBit k <;> cases c.testBit k <;> rfl
  · congr 1
    apply Nat.eq_of_testBit_eq; intro k
    simp only [hl, Nat.testBit_or, Nat.testBit_and]
    cases a.testBit k <;> cases b.testBit k <;> cases c.testBit k <;> rfl
  · congr 1
    apply Nat.eq_of_testBit_eq; intro k
    simp only [hl, Nat.testBit_or, Nat.testBit_and]
    cases a.testBit k <;> cases b.testBit k <;> cases c.testBit k <;> rfl
  · congr 1
    apply Nat.eq_of_testBit_eq; intro k
    simp only [hl, Nat.testBit_or, Nat.testBit_and]
    cases a.testBit k <;> cases b.testBit k <;> cases c.testBit k <;> rfl
  · congr 1
    apply Nat.eq_of_testBit_eq; intro k
    simp only [hl, Nat.testBit_or, Nat.testBit_and]
    cases a.testBit k <;> cases b.testBit k <;> cases c.testBit k <;> rfl

/-- the nine counters, in the order of irk.hpp 142-154 -/
def IrkCounters.toList (c : IrkCounters) : List ℕ :=
  [c.attempt, c.rejectNewton, c.rejectErr, c.newtonSuccess, c.newtonIncrDiverge, c.newtonIterErrorTooLarge,
   c.newtonMaxitExceed, c.funEvals, c.jacEvals]

/-- **C48, the documented claim on counters**: every counter of the result is the sum. -/
def C48_claim : Prop :=
  ∀ (m n : ℕ) (a b : IrkOutput ℝ m n), (mergeIrk a b).count.toList = List.zipWith (· + ·) a.count.toList b.count.toList

/-- an output with given counters -/
def countOnly (F : Type) (m n : ℕ) (c : IrkCounters) : IrkOutput F m n :=
  ⟨0, [], [], [], [], [], none, none, c, {}, []⟩

/-- **C48 is false**: `fun_evals` (and `jac_evals`) of the second output are dropped. -/
theorem C48_refuted : ¬ C48_claim := by
  intro h
  have := h 1 1 (countOnly ℝ 1 1 {}) (countOnly ℝ 1 1 { funEvals := 1 })
  simp [mergeIrk, IrkCounters.toList, countOnly] at this

/-- **C48, what holds.**  The five record vectors are concatenated in order; bit `i` of the status is set iff it is set
in one of the two, so the status is SUCCESS iff both are; elapsed times are added; `accept_frac` is the mean weighted
with the numbers of samples; seven counters are added.  Missing from the claim: `fun_evals` and `jac_evals`, which keep
the values of the first output. -/
theorem C48_merge_partial (a b : IrkOutput F m n) :
    (mergeIrk a b).tVals = a.tVals ++ b.tVals ∧ (mergeIrk a b).yVals = a.yVals ++ b.yVals ∧
    (mergeIrk a b).stages = a.stages ++ b.stages ∧ (mergeIrk a b).errEst = a.errEst ++ b.errEst ∧
    (mergeIrk a b).err = a.err ++ b.err ∧
    (∀ i, (mergeIrk a b).status.testBit i = (a.status.testBit i || b.status.testBit i)) ∧
    ((mergeIrk a b).status = 0 ↔ a.status = 0 ∧ b.status = 0) ∧
    (∀ x y, a.elapsed = some x → b.elapsed = some y → (mergeIrk a b).elapsed = some (x + y)) ∧
    (∀ x y, a.acceptFrac = some x → b.acceptFrac = some y → (mergeIrk a b).acceptFrac =
      some ((lit (a.tVals.length : ℚ) * x + lit (b.tVals.length : ℚ) * y) /
        (lit (a.tVals.length : ℚ) + lit (b.tVals.length : ℚ)))) ∧
    (mergeIrk a b).count.toList.take 7 = List.zipWith (· + ·) (a.count.toList.take 7) (b.count.toList.take 7) ∧
    (mergeIrk a b).count.toList.drop 7 = a.count.toList.drop 7 := by
  refine ⟨rfl, rfl, rfl, rfl, rfl, fun i => Int.testBit_lor _ _ _, lor_eq_zero _ _, ?_, ?_, rfl, rfl⟩
  · intro x y hx hy; simp [mergeIrk, hx, hy]
  · intro x y hx hy; simp [mergeIrk, hx, hy]

/-- **C48 (associativity)** on records, status and counters. -/
theorem C48_assoc (a b c : IrkOutput F m n) :
    let l := mergeIrk (mergeIrk a b) c
    let r := mergeIrk a (mergeIrk b c)
    l.tVals = r.tVals ∧ l.yVals = r.yVals ∧ l.stages = r.stages ∧ l.errEst = r.errEst ∧ l.err = r.err ∧
      l.status = r.status ∧ l.count = r.count := by
  refine ⟨?_, ?_, ?_, ?_, ?_, ?_, ?_⟩
  · simp [mergeIrk]
  · simp [mergeIrk]
  · simp [mergeIrk]
  · simp [mergeIrk]
  · simp [mergeIrk]
  · exact lor_assoc _ _ _
  · simp [mergeIrk, add_assoc]

/-- **C48 (accept_frac, exact arithmetic)**: merging outputs whose acceptance fraction is accepted/attempts does not
give accepted/attempts; the weights are sample counts.  Here 1/1 with 2 samples and 1/4 with 2 samples: the result is
5/8, while 2 of 5 attempts were accepted. -/
theorem C48_accept_frac_weights :
    ∃ a b : IrkOutput ℝ 1 1, a.acceptFrac = some (1 / 1) ∧ a.count.attempt = 1 ∧ b.acceptFrac = some (1 / 4) ∧
      b.count.attempt = 4 ∧ a.tVals.length = 2 ∧ b.tVals.length = 2 ∧ (mergeIrk a b).acceptFrac = some (5 / 8) ∧
      (mergeIrk a b).count.attempt = 5 := by
  refine ⟨{ countOnly ℝ 1 1 { attempt := 1 } with tVals := [0, 1], acceptFrac := some (1 / 1) },
    { countOnly ℝ 1 1 { attempt := 4 } with tVals := [1, 2], acceptFrac := some (1 / 4) }, rfl, rfl, rfl, rfl, rfl, rfl,
    ?_, rfl⟩
  simp [mergeIrk]
  norm_num

example : (mergeIrk { countOnly ℝ 1 1 { attempt := 2 } with status := 4, tVals := [0, 1] }
    { countOnly ℝ 1 1 { attempt := 3 } with status := 128, tVals := [1, 2] }).status = 132 := by
  decide

end merge

/-! ### C49 -/

/-- order check of the closed-form methods -/
def orderOKI {d : ℕ} (sq : SolverCoeffs (QS d)) : Bool :=
  match sq.order with
  | some p => decide (0 < p) && checkOrder sq.A sq.b p.toNat
  | none => false

theorem orderOKI_shipped : ∀ m ∈ closedForm, orderOKI (irkCoeffs m : SolverCoeffs (QS (rootOf m))) = true := by
  decide +kernel

theorem closedForm_implemented {m : ℤ} (hm : m ∈ closedForm) : m ∈ irkImplemented := by
  have : ∀ m ∈ closedForm, m ∈ irkImplemented := by decide
  exact this m hm

/-- **C49 (consistency).**  The rows of `A` sum to `c` for the eight implicit methods with closed-form coefficients. -/
theorem C49_row_sums {m : ℤ} (hm : m ∈ ([200, 210, 211, 220, 230, 231, 232, 240] : List ℤ))
    (i : Fin (irkCoeffs m : SolverCoeffs ℝ).ns) :
    ∑ j : Fin (irkCoeffs m : SolverCoeffs ℝ).ns, (irkCoeffs m : SolverCoeffs ℝ).a i j =
      (irkCoeffs m : SolverCoeffs ℝ).cn i :=
  (img_shipped (closedForm_implemented hm)).rowSums (rowSums_shipped m hm) i

/-- **C49 (order).**  These methods satisfy Butcher's conditions for all rooted trees up to their declared order
(1, 3, 5, 4, 4, 6, 8, 4). -/
theorem C49_order_conditions {m : ℤ} (hm : m ∈ ([200, 210, 211, 220, 230, 231, 232, 240] : List ℤ)) :
    ∃ p : ℕ, 0 < p ∧ (irkCoeffs m : SolverCoeffs ℝ).order = some (p : ℤ) ∧
      HasOrder (fun i j : Fin (irkCoeffs m : SolverCoeffs ℝ).ns => (irkCoeffs m : SolverCoeffs ℝ).a i j)
        (fun i => (irkCoeffs m : SolverCoeffs ℝ).bw i) p := by
  have hI := closedForm_implemented hm
  have img := img_shipped hI
  have h := orderOKI_shipped m hm
  unfold orderOKI at h
  cases ho : (irkCoeffs m : SolverCoeffs (QS (rootOf m))).order with
  | none => rw [ho] at h; cases h
  | some p =>
    rw [ho] at h
    simp only [Bool.and_eq_true, decide_eq_true_eq] at h
    refine ⟨p.toNat, by omega, ?_, img.hasOrder (baseOK_shipped m hI) h.2⟩
    rw [img.order, ho, Int.toNat_of_nonneg h.1.le]


/-- the tableau with an additional explicit stage `f(t, y)` in front -/
def Spec.extA {K : Type} [Zero K] {s : ℕ} (A : Fin s → Fin s → K) : Fin (s + 1) → Fin (s + 1) → K :=
  Fin.cons (fun _ => 0) fun i => Fin.cons 0 (A i)

/-- the weights `γ, b2` of the embedded formula `dt (γ f(t,y) + Σ b2_i k_i)` (irk.hpp 692-702) -/
def Spec.extB {K : Type} {s : ℕ} (γ : K) (b2 : Fin s → K) : Fin (s + 1) → K := Fin.cons γ b2

/-- the same on lists -/
def extL {R : Type} [Zero R] (s : ℕ) (A : List (List R)) : List (List R) :=
  List.replicate (s + 1) 0 :: A.map (0 :: ·)

theorem extL_square {R : Type} [CommRing R] [DecidableEq R] {s : ℕ} {A : List (List R)} (h : Square s A) :
    Square (s + 1) (extL s A) := by
  refine ⟨by simp [extL, h.1], fun r hr => ?_⟩
  simp only [extL, List.mem_cons, List.mem_map] at hr
  rcases hr with rfl | ⟨r, hr, rfl⟩
  · simp
  · simp [h.2 r hr]

theorem extL_entries {R K : Type} [CommRing R] [DecidableEq R] [Field K] (φ : R →+* K) {s : ℕ} {A : List (List R)}
    (h : Square s A) :
    (fun i j : Fin (s + 1) => φ (((extL s A).getD i []).getD j 0)) =
      extA (fun i j : Fin s => φ ((A.getD i []).getD j 0)) := by
  funext i j
  refine Fin.cases ?_ (fun i => ?_) i
  · have : (j : ℕ) < s + 1 := j.2
    simp [extL, extA, this]
  · have : (i : ℕ) < A.length := by rw [h.1]; exact i.2
    refine Fin.cases ?_ (fun j => ?_) j
    · simp [extL, extA, this]
    · simp [extL, extA, this]

theorem extB_entries {R K : Type} [CommRing R] [Field K] (φ : R →+* K) {s : ℕ} (g : R) (b : List R) :
    (fun i : Fin (s + 1) => φ ((g :: b).getD i 0)) = extB (φ g) (fun i : Fin s => φ (b.getD i 0)) := by
  funext i
  refine Fin.cases ?_ (fun i => ?_) i
  · simp [extB]
  · simp [extB]

section
variable {d : ℕ} {sc : SolverCoeffs ℝ} {sq : SolverCoeffs (QS d)}

theorem Img.embedded (h : Img sc sq) (hb : baseOK sq = true) (h2 : sq.b2.length = sq.ns) {p : ℕ}
    (hc : checkOrder (extL sq.ns sq.A) (sq.gamma :: sq.b2) p = true) :
    HasOrder (extA fun i j : Fin sc.ns => sc.a i j) (extB sc.gamma fun i => sc.bw2 i) p := by
  have hs := (h.shape hb).2.2.2.2
  have := hasOrder_of_check_map (K := ℝ) QS.ev (extL_square hs) (by simp [h2]) hc
  rw [extL_entries QS.ev hs, extB_entries QS.ev] at this
  simp only [h.a, h.bw2, h.gamma]
  have e := h.ns
  generalize sc.ns = s at *
  subst e
  exact this

/-- a tree violating the embedded conditions -/
theorem Img.not_embedded (h : Img sc sq) (hb : baseOK sq = true) (h2 : sq.b2.length = sq.ns) {p : ℕ} (t : RTree)
    (ht : t.order ≤ p)
    (hc : QS.ev ((List.zipWith (· * ·) (sq.gamma :: sq.b2) (weightL (extL sq.ns sq.A) t)).foldl (· + ·) 0 *
      (t.density : QS d) - 1) ≠ 0) :
    ¬ HasOrder (extA fun i j : Fin sc.ns => sc.a i j) (extB sc.gamma fun i => sc.bw2 i) p := by
  intro hO
  have hs := (h.shape hb).2.2.2.2
  simp only [h.a, h.bw2, h.gamma] at hO
  have e := h.ns
  generalize sc.ns = s at *
  subst e
  have e1 := extL_entries (K := ℝ) QS.ev hs
  have e2 := extB_entries (K := ℝ) (s := sq.ns) QS.ev sq.gamma sq.b2
  simp only [ent] at hO
  rw [← e1, ← e2] at hO
  have := hO t ht
  rw [eq_div_iff (by exact_mod_cast (density_pos t).ne')] at this
  apply hc
  rw [dot_eq (s := sq.ns + 1) (by simp [h2]) (weightL_spec (extL_square hs) t).1]
  simp only [map_sub, map_mul, map_sum, map_natCast, map_one]
  rw [sub_eq_zero, ← this]
  congr 1
  refine Finset.sum_congr rfl fun i _ => ?_
  rw [weight_map, (weightL_spec (extL_square hs) t).2 i]

end

/-- embedded check at the declared second order -/
def embOKI {d : ℕ} (sq : SolverCoeffs (QS d)) : Bool :=
  sq.b2.length == sq.ns &&
  match sq.order2 with
  | some p => decide (0 < p) && checkOrder (extL sq.ns sq.A) (sq.gamma :: sq.b2) p.toNat
  | none => false

theorem embOKI_shipped : ∀ m ∈ ([211, 220] : List ℤ), embOKI (irkCoeffs m : SolverCoeffs (QS (rootOf m))) = true := by
  decide +kernel

/-- **C49 (embedded formula), what holds.**  The embedded formulas of RADAU_IIA_53 and LOBATTO_IIIA_43 satisfy the
conditions for all trees up to the declared second order (3 and 2). -/
theorem C49_embedded_partial {m : ℤ} (hm : m ∈ ([211, 220] : List ℤ)) :
    ∃ p : ℕ, 0 < p ∧ (irkCoeffs m : SolverCoeffs ℝ).order2 = some (p : ℤ) ∧
      HasOrder (extA fun i j : Fin (irkCoeffs m : SolverCoeffs ℝ).ns => (irkCoeffs m : SolverCoeffs ℝ).a i j)
        (extB (irkCoeffs m : SolverCoeffs ℝ).gamma fun i => (irkCoeffs m : SolverCoeffs ℝ).bw2 i) p := by
  have hI : m ∈ irkImplemented := by
    have : ∀ m ∈ ([211, 220] : List ℤ), m ∈ irkImplemented := by decide
    exact this m hm
  have img := img_shipped hI
  have h := embOKI_shipped m hm
  unfold embOKI at h
  rw [Bool.and_eq_true, beq_iff_eq] at h
  cases ho : (irkCoeffs m : SolverCoeffs (QS (rootOf m))).order2 with
  | none => rw [ho] at h; cases h.2
  | some p =>
    rw [ho] at h
    simp only [Bool.and_eq_true, decide_eq_true_eq] at h
    refine ⟨p.toNat, by omega, ?_, img.embedded (baseOK_shipped m hI) h.1 h.2.2⟩
    rw [img.order2, ho, Int.toNat_of_nonneg h.2.1.le]

/-- the first tree on which the embedded formula fails, for the others -/
def badTree (m : ℤ) : RTree :=
  if m = 210 ∨ m = 232 then .node [] else .node [.node []]

/-- the defect of the embedded formula on a tree, as an element of `ℚ(√d)` -/
def embDefect {d : ℕ} (sq : SolverCoeffs (QS d)) (t : RTree) : QS d :=
  (List.zipWith (· * ·) (sq.gamma :: sq.b2) (weightL (extL sq.ns sq.A) t)).foldl (· + ·) 0 * (t.density : QS d) - 1

theorem ev_ne_zero {d : ℕ} {x : QS d} (h : x.re * x.re - d * (x.im * x.im) ≠ 0) : QS.ev x ≠ 0 := by
  intro e
  apply h
  have e' : (x.re : ℝ) + x.im * Real.sqrt d = 0 := e
  have hs : Real.sqrt d * Real.sqrt d = d := Real.mul_self_sqrt (by positivity)
  have : (x.re : ℝ) * x.re - d * (x.im * x.im) = 0 := by
    rw [← hs]
    linear_combination (x.re - x.im * Real.sqrt d) * e'
  exact_mod_cast this

theorem embDefect_shipped : ∀ m ∈ ([210, 230, 231, 232, 240] : List ℤ),
    (embDefect (irkCoeffs m : SolverCoeffs (QS (rootOf m))) (badTree m)).re *
      (embDefect (irkCoeffs m : SolverCoeffs (QS (rootOf m))) (badTree m)).re -
    (rootOf m : ℚ) * ((embDefect (irkCoeffs m : SolverCoeffs (QS (rootOf m))) (badTree m)).im *
      (embDefect (irkCoeffs m : SolverCoeffs (QS (rootOf m))) (badTree m)).im) ≠ 0 ∧
    (irkCoeffs m : SolverCoeffs (QS (rootOf m))).b2.length = (irkCoeffs m : SolverCoeffs (QS (rootOf m))).ns ∧
    ((irkCoeffs m : SolverCoeffs (QS (rootOf m))).order2.any fun p => decide (2 ≤ p)) = true := by
  decide +kernel

/-- **C49, negative part.**  The embedded formulas of RADAU_IIA_32, LOBATTO_IIIC_43, IIIC_64, IIIC_85 and
GAUSS_LEGENDRE_42 do not have the declared second order (nor order 2; the first and fourth not even order 1). -/
theorem C49_embedded_fails {m : ℤ} (hm : m ∈ ([210, 230, 231, 232, 240] : List ℤ)) :
    ∃ p : ℕ, 2 ≤ p ∧ (irkCoeffs m : SolverCoeffs ℝ).order2 = some (p : ℤ) ∧
      ∀ r, (badTree m).order ≤ r →
      ¬ HasOrder (extA fun i j : Fin (irkCoeffs m : SolverCoeffs ℝ).ns => (irkCoeffs m : SolverCoeffs ℝ).a i j)
        (extB (irkCoeffs m : SolverCoeffs ℝ).gamma fun i => (irkCoeffs m : SolverCoeffs ℝ).bw2 i) r := by
  have hI : m ∈ irkImplemented := by
    have : ∀ m ∈ ([210, 230, 231, 232, 240] : List ℤ), m ∈ irkImplemented := by decide
    exact this m hm
  have img := img_shipped hI
  obtain ⟨h1, h2, h3⟩ := embDefect_shipped m hm
  cases ho : (irkCoeffs m : SolverCoeffs (QS (rootOf m))).order2 with
  | none => rw [ho] at h3; cases h3
  | some p =>
    rw [ho] at h3
    simp only [Option.any_some, decide_eq_true_eq] at h3
    refine ⟨p.toNat, by omega, ?_, fun r hr => img.not_embedded (baseOK_shipped m hI) h2 (badTree m) hr (ev_ne_zero h1)⟩
    rw [img.order2, ho, Int.toNat_of_nonneg (by omega)]

/-- **C49, the documented claim on the embedded formulas**. -/
def C49_claim : Prop :=
  ∀ m ∈ ([210, 211, 220, 230, 231, 232, 240] : List ℤ), ∀ p : ℕ, (irkCoeffs m : SolverCoeffs ℝ).order2 = some (p : ℤ) →
    HasOrder (extA fun i j : Fin (irkCoeffs m : SolverCoeffs ℝ).ns => (irkCoeffs m : SolverCoeffs ℝ).a i j)
      (extB (irkCoeffs m : SolverCoeffs ℝ).gamma fun i => (irkCoeffs m : SolverCoeffs ℝ).bw2 i) p

/-- **C49 is false** on the embedded formulas. -/
theorem C49_refuted : ¬ C49_claim := by
  intro h
  obtain ⟨p, hp, ho, hn⟩ := C49_embedded_fails (m := 210) (by decide)
  refine hn p ?_ (h 210 (by decide) p ho)
  have : (badTree 210).order = 1 := by decide
  omega

/-- RADAU_IIA_53 is checked against a tree with five nodes; the declared order is sharp for IMPLICIT_EULER -/
example : RTree.node [.node [.node []], .node [.node []]] ∈ treesUpTo 5 := mem_treesUpTo (by decide)
example : checkOrder (irkCoeffs 200 : SolverCoeffs (QS 3)).A (irkCoeffs 200 : SolverCoeffs (QS 3)).b 2 = false := by
  decide +kernel
example : checkOrder (irkCoeffs 211 : SolverCoeffs (QS 6)).A (irkCoeffs 211 : SolverCoeffs (QS 6)).b 6 = false := by
  decide +kernel

end Verif
