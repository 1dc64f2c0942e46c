import Verif.Prop.Programs

/-!
# More about the small programs: C117, C118 and C120

Statements added because changes of the model survived without them.
-/

namespace Verif
open Timer (Tok)

/-- `j` increments of an iterator -/
def CIter.steps : ℕ → CIter → Outcome CIter
  | 0, i => .ret i
  | j + 1, i => CIter.next i >>= CIter.steps j

theorem CIter.steps_some (j : ℕ) (k : ℤ) : CIter.steps j ⟨some k⟩ = .ret ⟨some (k - j)⟩ := by
  induction j generalizing k with
  | zero => simp [CIter.steps]
  | succ j ih =>
    have : CIter.steps (j + 1) ⟨some k⟩ = CIter.steps j ⟨some (k - 1)⟩ := rfl
    rw [this, ih]
    congr 3
    push_cast
    ring

/-- **C117 (initialised iterators would not help).**  An iterator that had the index `k` would visit the places `k, k-1, ..., 0` of the storage and
then leave it: incrementing never wraps round, so values that lie behind the newest one in the storage would not be reached. -/
theorem C117_increment {T : Type} {st : List T} {k : ℕ} (hk : k < st.length) :
    (∀ j ≤ k, ∃ i, CIter.steps j ⟨some (k : ℤ)⟩ = .ret i ∧ CIter.deref st i = .ret (st[k - j]'(by omega))) ∧
      ∃ i, CIter.steps (k + 1) ⟨some (k : ℤ)⟩ = .ret i ∧ CIter.deref st i = .ub := by
  refine ⟨fun j hj => ⟨_, CIter.steps_some j k, ?_⟩, _, CIter.steps_some (k + 1) k, ?_⟩
  · have e : ((k : ℤ) - (j : ℤ)).toNat = k - j := by omega
    simp only [CIter.deref]
    rw [if_pos (by omega), e, CBuf.readAt, List.getElem?_eq_getElem (by omega)]
  · simp only [CIter.deref]
    rw [if_neg (by push_cast; omega)]

/-- a storage of four places -/
example : (∃ i, CIter.steps 2 ⟨some 2⟩ = .ret i ∧ CIter.deref [10, 20, 30, 40] i = .ret 10) ∧
    ∃ i, CIter.steps 3 ⟨some 2⟩ = .ret i ∧ CIter.deref [10, 20, 30, 40] i = .ub :=
  ⟨(C117_increment (st := [10, 20, 30, 40]) (k := 2) (by decide)).1 2 le_rfl, (C117_increment (st := [10, 20, 30, 40]) (k := 2) (by decide)).2⟩

section coeffs
variable {F : Type} [Add F] [Sub F] [Mul F] [Div F] [Neg F] [Scalar F]

/-- the numbers in a text -/
def numbers (l : List (Tok F)) : List F := l.filterMap fun | .num x => some x | .str _ => none

omit [Add F] [Sub F] [Mul F] [Div F] [Neg F] [Scalar F] in
theorem numbers_append (a b : List (Tok F)) : numbers (a ++ b) = numbers a ++ numbers b := List.filterMap_append

omit [Add F] [Sub F] [Mul F] [Div F] [Neg F] [Scalar F] in
theorem numbers_flatMap {α : Type} (l : List α) (g : α → List (Tok F)) : numbers (l.flatMap g) = l.flatMap fun x => numbers (g x) := by
  induction l with
  | nil => rfl
  | cons x xs ih => rw [List.flatMap_cons, List.flatMap_cons, numbers_append, ih]

omit [Add F] [Sub F] [Mul F] [Div F] [Neg F] in
/-- **C118 (what the stability program prints).**  For a tableau whose rows are as long as `b` and which has as many rows as `c` has entries the
numbers of the report are, in this order, every `c_i` followed by the row `A_i`, then `b`, then `b2`. -/
theorem C118_printed (name : String) (sc : SolverCoeffs F) (h1 : sc.A.length = sc.c.length) (h2 : ∀ r ∈ sc.A, r.length = sc.b.length) :
    ∃ toks, printCoeffs name sc = .ret toks ∧
      numbers toks = (sc.c.zip sc.A).flatMap (fun p => p.1 :: p.2) ++ sc.b ++ sc.b2 := by
  have hnot : ¬ (sc.c ≠ [] ∧ sc.b ≠ [] ∧ (sc.A.length < sc.c.length ∨ (sc.A.headD []).length < sc.b.length)) := by
    rintro ⟨hc, -, h | h⟩
    · omega
    · cases hA : sc.A with
      | nil => rw [hA] at h1; exact hc (List.length_eq_zero_iff.1 h1.symm)
      | cons r rs =>
        have := h2 r (by rw [hA]; exact List.mem_cons_self)
        rw [hA] at h
        simp only [List.headD_cons] at h
        omega
  refine ⟨_, if_neg hnot, ?_⟩
  have hrow : ∀ l : List F, numbers (l.flatMap fun x => [Tok.str " ", Tok.num x]) = l := by
    intro l
    rw [numbers_flatMap]
    induction l with
    | nil => rfl
    | cons x xs ih => rw [List.flatMap_cons, ih]; rfl
  have hb2 : numbers (if sc.b2.length = 0 then [] else [Tok.str " | "] ++ sc.b2.flatMap (fun x => [Tok.str " ", Tok.num x]) ++ [Tok.str "\n"]) = sc.b2 := by
    split_ifs with h
    · rw [List.length_eq_zero_iff.1 h]; rfl
    · rw [numbers_append, numbers_append, hrow]
      simp [numbers]
  have hA : numbers ((List.range sc.c.length).flatMap (fun i => [Tok.num (sc.c.getD i (lit 0)), Tok.str " | "] ++
      (List.range sc.b.length).flatMap (fun j => [Tok.str " ", Tok.num (sc.a i j)]) ++ [Tok.str "\n"])) =
      (sc.c.zip sc.A).flatMap (fun p => p.1 :: p.2) := by
    rw [numbers_flatMap]
    have e : sc.c.zip sc.A = (List.range sc.c.length).map fun i => (sc.c.getD i (lit 0), sc.A.getD i []) := by
      apply List.ext_getElem
      · simp [h1]
      · intro i hi hi'
        have hc : i < sc.c.length := by simpa using hi'
        have ha : i < sc.A.length := by omega
        simp [hc, ha]
    rw [e, List.flatMap_map]
    refine List.flatMap_congr fun i hi => ?_
    have hc : i < sc.c.length := List.mem_range.1 hi
    have ha : i < sc.A.length := by omega
    have hr : (sc.A.getD i []).length = sc.b.length := by
      rw [List.getD_eq_getElem _ _ ha]
      exact h2 _ (List.getElem_mem _)
    have hrow' : numbers ((List.range sc.b.length).flatMap fun j => [Tok.str " ", Tok.num (sc.a i j)]) = sc.A.getD i [] := by
      rw [numbers_flatMap]
      have : ((List.range sc.b.length).flatMap fun j => numbers [Tok.str " ", Tok.num (sc.a i j)]) = (List.range sc.b.length).map (sc.a i) := by
        rw [List.map_eq_flatMap]; rfl
      rw [this]
      apply List.ext_getElem
      · rw [List.length_map, List.length_range, hr]
      · intro j hj hj'
        simp only [List.getElem_map, List.getElem_range]
        unfold SolverCoeffs.a
        rw [List.getD_eq_getElem _ _ hj']
    rw [numbers_append, numbers_append, hrow']
    simp [numbers]
  rw [numbers_append, numbers_append, numbers_append, numbers_append, numbers_append, hA, hrow, hb2]
  simp [numbers]

end coeffs

/-- two stages with embedded weights: the ten numbers of RADAU_IIA_32 -/
example : ∃ toks, printCoeffs "RADAU_IIA_32" (irkCoeffs 210 : SolverCoeffs ℝ) = .ret toks ∧ (numbers toks).length = 10 := by
  obtain ⟨toks, h, e⟩ := C118_printed "RADAU_IIA_32" (irkCoeffs 210 : SolverCoeffs ℝ) rfl (by
    intro r hr
    fin_cases hr <;> rfl)
  exact ⟨toks, h, by rw [e]; rfl⟩

/-! ### C120 -/

theorem horner_foldl (x : ℝ) (r : List ℝ) : r.foldl (fun v a => v * x + a) 0 = ∑ j ∈ Finset.range r.length, r.getD j 0 * x ^ (r.length - 1 - j) := by
  induction r using List.reverseRecOn with
  | nil => simp
  | append_singleton r a ih =>
    rw [List.foldl_append, ih, List.length_append, List.length_singleton, Finset.sum_range_succ, List.foldl_cons, List.foldl_nil, Finset.sum_mul]
    congr 1
    · refine Finset.sum_congr rfl fun j hj => ?_
      have hj' : j < r.length := Finset.mem_range.1 hj
      rw [List.getD_append _ _ _ _ hj', show r.length + 1 - 1 - j = (r.length - 1 - j) + 1 by omega, pow_succ]
      ring
    · simp

/-- **C120 (any coefficients).**  `erk::project_b` for any matrix `b_interp`: with assertions it aborts exactly for a matrix without entries; a matrix
with a wrong number of columns throws; otherwise the weights are the rows as polynomials without constant term, the highest power first. -/
theorem C120_user (nd : Bool) (theta : ℝ) (sc : SolverCoeffs ℝ) (hr : ∀ r ∈ sc.bInterp, r.length = (sc.bInterp.headD []).length) :
    (erkProjectB nd theta sc = .assertFail ↔ nd = false ∧ sc.bInterp.flatten = []) ∧
      ((nd = true ∨ sc.bInterp.flatten ≠ []) → ((sc.bInterp.headD []).length ≠ sc.b.length → erkProjectB nd theta sc = .throws) ∧
        ((sc.bInterp.headD []).length = sc.b.length → erkProjectB nd theta sc =
          .ret (sc.bInterp.map fun r => theta * r.foldl (fun v x => v * theta + x) 0))) := by
  have hflat : sc.bInterp.flatten = [] ↔ (sc.bInterp.length == 0 || (sc.bInterp.headD []).length == 0) = true := by
    rw [List.flatten_eq_nil_iff]
    cases hb : sc.bInterp with
    | nil => simp
    | cons r rs =>
      rw [hb] at hr
      simp only [List.headD_cons] at hr
      constructor
      · intro h
        simp [h r List.mem_cons_self]
      · intro h l hl
        have : r.length = 0 := by simpa using h
        rw [← List.length_eq_zero_iff, hr l hl, this]
  have hpoly : ∀ r : List ℝ, r.length = sc.ns →
      (sumRange sc.ns fun j => r.getD j (lit 0) * tpow theta (sc.ns - 1 - j)) = theta * r.foldl (fun v x => v * theta + x) 0 := by
    intro r hlen
    rw [sumRange_real, horner_foldl, hlen, Finset.mul_sum]
    refine Finset.sum_congr rfl fun j _ => ?_
    rw [tpow_real, lit_real]
    norm_num
    ring
  unfold erkProjectB
  have hns : sc.ns = sc.b.length := rfl
  rw [hns] at hpoly ⊢
  constructor
  · rw [hflat]
    cases nd <;> cases hb : (sc.bInterp.length == 0 || (sc.bInterp.headD []).length == 0) <;> simp <;> split_ifs <;> simp
  · intro hor
    have hcond : ¬ ((!nd && (sc.bInterp.length == 0 || (sc.bInterp.headD []).length == 0)) = true) := by
      rw [Ne, hflat] at hor
      rcases hor with rfl | h
      · simp
      · cases nd
        · simpa using h
        · simp
    rw [if_neg hcond]
    refine ⟨fun h => if_pos h, fun h => ?_⟩
    rw [if_neg (by simpa using h)]
    congr 1
    refine List.map_congr_left fun r hmem => ?_
    exact hpoly r ((hr r hmem).trans h)

/-- a matrix with two rows -/
example : erkProjectB false (1 / 2 : ℝ) { explicitEuler with bInterp := [[3]] } = .ret [3 / 2] := by
  rw [((C120_user false (1 / 2) { explicitEuler with bInterp := [[3]] } (by simp)).2 (.inr (by simp))).2 (by simp [explicitEuler])]
  norm_num

/-- **C120 (`print_output`, any vectors).**  Printing is undefined exactly if there are fewer values than times; otherwise there is one line for each time and
surplus values are ignored. -/
theorem C120_print_exact {F : Type} {n : ℕ} (tVals : List F) (yVals : List (Vec F n)) :
    (printOutput tVals yVals = .ub ↔ yVals.length < tVals.length) ∧
      (tVals.length ≤ yVals.length → ∃ lines, printOutput tVals yVals = .ret lines ∧ lines.length = tVals.length ∧
        ∀ (i : ℕ) (t : F) (y : Vec F n), tVals[i]? = some t → yVals[i]? = some y → lines[i]? = some (t, List.ofFn y)) := by
  unfold printOutput
  constructor
  · constructor
    · intro h
      by_contra hc
      rw [if_neg hc] at h
      cases h
    · intro h; exact if_pos h
  · intro h
    refine ⟨_, if_neg (by omega), by simp; omega, fun i t y ht hy => ?_⟩
    have e : (tVals.zip yVals)[i]? = some (t, y) := List.getElem?_zip_eq_some.2 ⟨ht, hy⟩
    rw [List.getElem?_map, e]
    simp [List.ofFn_eq_map]

/-- one value more than times -/
example : ∃ lines, printOutput [1, 2] [![10, 20], ![30, 40], (![50, 60] : Vec ℤ 2)] = .ret lines ∧ lines[1]? = some (2, [30, 40]) := by
  obtain ⟨lines, h1, -, h2⟩ := (C120_print_exact [1, 2] [![10, 20], ![30, 40], (![50, 60] : Vec ℤ 2)]).2 (by decide)
  exact ⟨lines, h1, h2 1 2 ![30, 40] rfl rfl⟩

end Verif
