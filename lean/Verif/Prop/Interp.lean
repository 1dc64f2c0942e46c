import Verif.InterpLemmas
import Verif.IrkTableau

/-!
# Properties C45, C46, C47, C64: coefficient lists, collocation interpolation, binomials
-/

namespace Verif

/-! ### C45 -/

/-- **C45.**  Under every interpretation of the symbols in a commutative semiring, `expand` is multiplication. -/
theorem C45_product {R : Type} [CommSemiring R] (v : ℤ → R) (c1 c2 : CoeffList) :
    ((expand c1 c2).map fun t => (t.map v).prod).sum =
      (c1.map fun t => (t.map v).prod).sum * (c2.map fun t => (t.map v).prod).sum :=
  clVal_expand v c1 c2

/-- **C45.**  Number of terms. -/
theorem C45_size (c1 c2 : CoeffList) : (expand c1 c2).length = c1.length * c2.length := by
  rw [expand_eq]
  induction c1 with
  | nil => simp
  | cons a c1 ih => simp [ih, Nat.add_mul, Nat.add_comm]

/-- **C45.**  Row-major order: term `i*|c2| + j` is the concatenation of term `i` of `c1` and term `j` of `c2`. -/
theorem C45_order (c1 c2 : CoeffList) (i j : ℕ) (hi : i < c1.length) (hj : j < c2.length) :
    (expand c1 c2)[i * c2.length + j]? = some (c1[i] ++ c2[j]) := by
  rw [expand_eq]
  induction c1 generalizing i with
  | nil => simp at hi
  | cons a c1 ih =>
    rw [List.flatMap_cons]
    cases i with
    | zero =>
      rw [List.getElem?_append_left (by simpa using hj)]
      simp [hj]
    | succ i =>
      rw [List.getElem?_append_right (by rw [List.length_map, Nat.succ_mul]; omega)]
      have : (i + 1) * c2.length + j - (c2.map fun b => a ++ b).length = i * c2.length + j := by
        rw [List.length_map, Nat.succ_mul]; omega
      rw [this, ih i (by simpa using hi)]
      simp

/-- **C45.**  Associativity. -/
theorem C45_assoc (c1 c2 c3 : CoeffList) : expand (expand c1 c2) c3 = expand c1 (expand c2 c3) := by
  simp only [expand_eq, List.flatMap_assoc, List.map_flatMap, List.flatMap_map, List.map_map]
  congr 1
  funext a
  congr 1
  funext b
  apply List.map_congr_left
  intro x _
  simp

/-- **C45.**  Unit. -/
theorem C45_unit (c : CoeffList) : expand [[]] c = c ∧ expand c [[]] = c := by
  simp only [expand_eq]
  constructor
  · simp
  · induction c with
    | nil => rfl
    | cons a c ih => rw [List.flatMap_cons, ih]; simp

/-- the examples of the source comment (irk.cpp 30-36; the second comment lists the terms in another order) -/
example : expand [[1], [2]] [[3], [4]] = [[1, 3], [1, 4], [2, 3], [2, 4]] := by decide

example : expand [[1, 3], [1, 4], [2, 3], [2, 4]] [[5], [6]] =
    [[1, 3, 5], [1, 3, 6], [1, 4, 5], [1, 4, 6], [2, 3, 5], [2, 3, 6], [2, 4, 5], [2, 4, 6]] := by decide

/-! ### C46 -/

/-- **C46.**  `collocation_interpolate_coeffs` never fails an assertion, for any scalar type and any nodes. -/
theorem C46_total {F : Type} [Add F] [Sub F] [Mul F] [Div F] [Neg F] [Lit F] (nd : Bool) (c : List F) :
    ∃ B, collocInterp nd c = .ret B ∧ B.length = c.length ∧ ∀ r ∈ B, r.length = c.length :=
  ⟨collocMat c, collocInterp_ret nd c⟩

/-- **C46.**  For two or more distinct nodes the weights `project_b(theta)` are the integrals of the Lagrange basis
polynomials from `0` to `theta`. -/
theorem C46_lagrange (nd : Bool) (c : List ℝ) (h2 : 2 ≤ c.length) (_hc : c.Nodup) (sc : SolverCoeffs ℝ)
    (hsc : collocInterp nd c = .ret sc.bInterp) (hns : sc.ns = c.length) (theta : ℝ) :
    ∃ l, projectB nd theta sc = .ret l ∧ l.length = c.length ∧
      ∀ i < c.length, l.getD i 0 =
        ∫ x in (0 : ℝ)..theta, (Lagrange.basis (Finset.range c.length) (fun j => c.getD j 0) i).eval x := by
  obtain ⟨B, e, hl, hr, hB⟩ := collocRows_spec nd c h2 c.length (le_refl _)
  have hBi : sc.bInterp = B := by
    rw [show collocInterp nd c = collocRows nd c c.length from rfl, e] at hsc
    simpa using hsc.symm
  have hne : B ≠ [] := by intro h; rw [h] at hl; simp at hl; omega
  have hhead : (B.headD []).length = c.length := by
    obtain ⟨r, B', rfl⟩ := List.exists_cons_of_ne_nil hne
    exact hr r List.mem_cons_self
  refine ⟨B.map fun row => sumRange c.length fun j => row.getD j 0 * theta ^ (c.length - j), ?_, by simp [hl], ?_⟩
  · unfold projectB
    rw [hBi, hhead, hns]
    have h0 : c.length ≠ 0 := by omega
    simp only [hl, Bool.or_self, Bool.and_false, ne_eq, not_true_eq_false,
      if_false, Bool.false_eq_true, beq_eq_false_iff_ne.mpr h0]
    congr 1
    apply List.map_congr_left
    intro row _
    simp only [sumRange_real]
    refine Finset.sum_congr rfl fun j hj => ?_
    rw [tpow_real]
    have := Finset.mem_range.mp hj
    have : c.length - 1 - j + 1 = c.length - j := by omega
    rw [this]; simp
  · intro i hi
    rw [← hB i hi theta, List.getD_eq_getElem _ _ (by simpa [hl] using hi), List.getElem_map, sumRange_real,
      List.getD_eq_getElem _ _ (by omega)]

/-- For a single node the code gives `0` instead of `theta`: the empty product is coded as the empty sum.  No shipped
method calls it with one node. -/
theorem C46_one_node (nd : Bool) (c0 : ℝ) : collocInterp nd [c0] = .ret [[0]] := by
  unfold collocInterp
  simp [collocRows, collocRow, polyCoeffs, Outcome.bind, List.range_succ]

/-- the hypotheses are met, e.g. by the nodes of RADAU_IIA_32 -/
example : 2 ≤ [(1 / 3 : ℝ), 1].length ∧ [(1 / 3 : ℝ), 1].Nodup ∧
    collocInterp false [(1 / 3 : ℝ), 1] = .ret (collocMat [1 / 3, 1]) := by
  refine ⟨by simp, by norm_num, (collocInterp_ret false _).1⟩

/-! ### C47 -/

/-- Weights that integrate the monomials exactly are the integrals of the Lagrange basis. -/
theorem weights_unique (c : List ℝ) (hc : c.Nodup) (theta : ℝ) (w : ℕ → ℝ)
    (hw : ∀ k < c.length, ∑ j ∈ Finset.range c.length, w j * c.getD j 0 ^ k = theta ^ (k + 1) / (k + 1))
    {i : ℕ} (hi : i < c.length) :
    w i = ∫ x in (0 : ℝ)..theta, (Lagrange.basis (Finset.range c.length) (fun j => c.getD j 0) i).eval x := by
  have hinj : Set.InjOn (fun j => c.getD j 0) (Finset.range c.length : Set ℕ) := by
    intro a ha b hb hab
    simp only [Finset.coe_range, Set.mem_Iio] at ha hb
    simp only [List.getD_eq_getElem _ _ ha, List.getD_eq_getElem _ _ hb] at hab
    exact (List.Nodup.getElem_inj_iff hc).mp hab
  have hmem : i ∈ Finset.range c.length := Finset.mem_range.mpr hi
  set p := Lagrange.basis (Finset.range c.length) (fun j => c.getD j 0) i with hp
  have hdeg : p.natDegree < c.length := by
    have h := Lagrange.degree_basis hinj hmem
    rw [← hp] at h
    have := Polynomial.natDegree_eq_of_degree_eq_some h
    rw [this, Finset.card_range]; omega
  have hev : ∀ x : ℝ, p.eval x = ∑ k ∈ Finset.range c.length, p.coeff k * x ^ k :=
    fun x => Polynomial.eval_eq_sum_range' hdeg x
  have hint : ∫ x in (0 : ℝ)..theta, p.eval x =
      ∑ k ∈ Finset.range c.length, p.coeff k * (theta ^ (k + 1) / (k + 1)) := by
    simp only [hev]
    rw [intervalIntegral.integral_finsetSum]
    · refine Finset.sum_congr rfl fun k _ => ?_
      rw [intervalIntegral.integral_const_mul, integral_pow, zero_pow (by omega)]
      simp
    · intro k _
      exact Continuous.intervalIntegrable (by fun_prop) _ _
  rw [hint]
  have : ∑ k ∈ Finset.range c.length, p.coeff k * (theta ^ (k + 1) / (k + 1)) =
      ∑ j ∈ Finset.range c.length, w j * p.eval (c.getD j 0) := by
    simp only [hev, Finset.mul_sum]
    rw [Finset.sum_comm]
    refine Finset.sum_congr rfl fun k hk => ?_
    rw [← hw k (Finset.mem_range.mp hk), Finset.mul_sum]
    refine Finset.sum_congr rfl fun j _ => ?_
    ring
  rw [this, Finset.sum_eq_single i]
  · rw [hp, Lagrange.eval_basis_self hinj hmem, mul_one]
  · intro j hj hji
    rw [hp, Lagrange.eval_basis_of_ne (v := fun j => c.getD j 0) hji.symm hj, mul_zero]
  · intro h; exact absurd hmem h

/-- Weights `w` of the length of `c` that integrate the monomials up to `theta` are `project_b(theta)`. -/
theorem project_eq (nd : Bool) (sc : SolverCoeffs ℝ) (h2 : 2 ≤ sc.c.length) (hc : sc.c.Nodup)
    (hb : sc.bInterp = collocMat sc.c) (hns : sc.ns = sc.c.length) (theta : ℝ) (w : List ℝ)
    (hwl : w.length = sc.c.length)
    (hw : ∀ k < sc.c.length, ∑ j ∈ Finset.range sc.c.length, w.getD j 0 * sc.c.getD j 0 ^ k =
      theta ^ (k + 1) / (k + 1)) : projectB nd theta sc = .ret w := by
  obtain ⟨l, e, hl, hv⟩ := C46_lagrange nd sc.c h2 hc sc (by rw [hb]; exact (collocInterp_ret nd _).1) hns theta
  rw [e]
  congr 1
  apply List.ext_getElem (by omega)
  intro i h1 h2
  have := hv i (by omega)
  rw [← weights_unique sc.c hc theta (fun j => w.getD j 0) hw (by omega)] at this
  rwa [List.getD_eq_getElem _ _ h1, List.getD_eq_getElem _ _ h2] at this

/-- **C47 (RADAU_IIA_32).** -/
theorem C47_radau32 (nd : Bool) :
    projectB nd 1 (irkCoeffs 210 : SolverCoeffs ℝ) = .ret (irkCoeffs 210 : SolverCoeffs ℝ).b ∧
    projectB nd 0 (irkCoeffs 210 : SolverCoeffs ℝ) = .ret [0, 0] ∧
    ∀ i < 2, projectB nd ((irkCoeffs 210 : SolverCoeffs ℝ).c.getD i 0) (irkCoeffs 210 : SolverCoeffs ℝ) =
      .ret ((irkCoeffs 210 : SolverCoeffs ℝ).A.getD i []) := by
  have hsc : (irkCoeffs 210 : SolverCoeffs ℝ) = radauIIA32 := by simp [irkCoeffs]
  rw [hsc]
  have hc : (radauIIA32 : SolverCoeffs ℝ).c = [1 / 3, 1] := by simp [radauIIA32, q]
  have hnd : (radauIIA32 : SolverCoeffs ℝ).c.Nodup := by rw [hc]; norm_num
  have hB : (radauIIA32 : SolverCoeffs ℝ).bInterp = collocMat (radauIIA32 : SolverCoeffs ℝ).c := rfl
  have key := project_eq nd (radauIIA32 : SolverCoeffs ℝ) (by simp [hc]) hnd hB (by rfl)
  refine ⟨?_, ?_, ?_⟩
  · refine key _ _ (by rfl) ?_
    rw [hc]
    intro k hk
    have : k < 2 := by simpa using hk
    interval_cases k <;> norm_num [Finset.sum_range_succ, radauIIA32, q]
  · refine key _ _ (by rfl) ?_
    intro k hk
    have : k < 2 := by simpa [hc] using hk
    simp [hc, Finset.sum_range_succ]
  · intro i hi
    have : i = 0 ∨ i = 1 := by omega
    rcases this with rfl | rfl
    · refine key _ _ (by rfl) ?_
      rw [hc]
      intro k hk
      have : k < 2 := by simpa using hk
      interval_cases k <;> norm_num [Finset.sum_range_succ, radauIIA32, q, nq]
    · refine key _ _ (by rfl) ?_
      rw [hc]
      intro k hk
      have : k < 2 := by simpa using hk
      interval_cases k <;> norm_num [Finset.sum_range_succ, radauIIA32, q]

/-- **C47 (RADAU_IIA_53).** -/
theorem C47_radau53 (nd : Bool) :
    projectB nd 1 (irkCoeffs 211 : SolverCoeffs ℝ) = .ret (irkCoeffs 211 : SolverCoeffs ℝ).b ∧
    projectB nd 0 (irkCoeffs 211 : SolverCoeffs ℝ) = .ret [0, 0, 0] ∧
    ∀ i < 3, projectB nd ((irkCoeffs 211 : SolverCoeffs ℝ).c.getD i 0) (irkCoeffs 211 : SolverCoeffs ℝ) =
      .ret ((irkCoeffs 211 : SolverCoeffs ℝ).A.getD i []) := by
  have hsc : (irkCoeffs 211 : SolverCoeffs ℝ) = radauIIA53 := by simp [irkCoeffs]
  rw [hsc]
  set r := Real.sqrt 6 with hr
  have hr2 : r ^ 2 = 6 := Real.sq_sqrt (by norm_num)
  have hr3 : r ^ 3 = 6 * r := by rw [pow_succ, hr2]
  have hr4 : r ^ 4 = 36 := by rw [show r ^ 4 = (r ^ 2) ^ 2 by ring, hr2]; norm_num
  have hr0 : 0 < r := by rw [hr]; positivity
  have hr1 : r < 3 := by nlinarith
  have hc : (radauIIA53 : SolverCoeffs ℝ).c = [(4 - r) / 10, (4 + r) / 10, 1] := by simp [radauIIA53, hr]
  have hnd : (radauIIA53 : SolverCoeffs ℝ).c.Nodup := by
    rw [hc]
    simp only [List.nodup_cons, List.mem_cons, List.not_mem_nil, or_false, not_or, List.nodup_nil, and_true,
      not_false_eq_true]
    refine ⟨⟨?_, ?_⟩, ?_⟩ <;> intro h <;> linarith
  have hB : (radauIIA53 : SolverCoeffs ℝ).bInterp = collocMat (radauIIA53 : SolverCoeffs ℝ).c := rfl
  have hA : (radauIIA53 : SolverCoeffs ℝ).A =
      [[(88 - 7 * r) / 360, (296 - 169 * r) / 1800, (-2 + 3 * r) / 225],
       [(296 + 169 * r) / 1800, (88 + 7 * r) / 360, (-2 - 3 * r) / 225],
       [(16 - r) / 36, (16 + r) / 36, 1 / 9]] := by simp [radauIIA53, hr, q]
  have hb : (radauIIA53 : SolverCoeffs ℝ).b = [(16 - r) / 36, (16 + r) / 36, 1 / 9] := by simp [radauIIA53, hr, q]
  have key := project_eq nd (radauIIA53 : SolverCoeffs ℝ) (by simp [hc]) hnd hB (by rfl)
  refine ⟨?_, ?_, ?_⟩
  · refine key _ _ (by rfl) ?_
    rw [hc, hb]
    intro k hk
    have : k < 3 := by simpa using hk
    interval_cases k <;> simp [Finset.sum_range_succ] <;> ring_nf <;> simp only [hr2, hr3] <;> ring
  · refine key _ _ (by rfl) ?_
    intro k hk
    have : k < 3 := by simpa [hc] using hk
    simp [hc, Finset.sum_range_succ]
  · intro i hi
    have : i = 0 ∨ i = 1 ∨ i = 2 := by omega
    rcases this with rfl | rfl | rfl
    all_goals
      rw [hA]
      refine key _ _ (by rfl) ?_
      rw [hc]
      intro k hk
      have : k < 3 := by simpa using hk
      interval_cases k <;> simp [Finset.sum_range_succ] <;> ring_nf <;> simp only [hr2, hr3] <;> ring

/-- non-trivial values: the dense-output weights of RADAU_IIA_32 at `theta = 1/2` -/
example : projectB false (1 / 2) (irkCoeffs 210 : SolverCoeffs ℝ) = .ret [9 / 16, -1 / 16] := by
  have hsc : (irkCoeffs 210 : SolverCoeffs ℝ) = radauIIA32 := by simp [irkCoeffs]
  rw [hsc]
  have hc : (radauIIA32 : SolverCoeffs ℝ).c = [1 / 3, 1] := by simp [radauIIA32, q]
  apply project_eq false (radauIIA32 : SolverCoeffs ℝ) (by simp [hc]) (by rw [hc]; norm_num) rfl (by rfl) _ _ (by rfl)
  rw [hc]
  intro k hk
  have : k < 2 := by simpa using hk
  interval_cases k <;> norm_num [Finset.sum_range_succ]

/-! ### C64 -/

theorem factLoop_fact (k : ℕ) (hk : k ≤ 12) : factLoop k = .ret (k.factorial : ℤ) := by
  interval_cases k <;> rfl

theorem factLoop_overflow (k : ℕ) (hk : 13 ≤ k) : factLoop k = .ub := by
  induction k, hk using Nat.le_induction with
  | base => rfl
  | succ k _ ih => simp [factLoop, ih, Outcome.bind]

/-- **C64, the claim** -/
def C64_claim : Prop := ∀ n b : ℕ, n ≤ 12 → b ≤ 12 → binomCoeff n b = .ret (n.choose b : ℤ)

/-- **C64 is false** in one corner: `binom_coeff(0,1)` is `1`, because `factorial(-1)` is `1`. -/
theorem C64_refuted : ¬ C64_claim := by
  intro h
  have h1 := h 0 1 (by omega) (by omega)
  have h2 : binomCoeff ((0 : ℕ) : ℤ) ((1 : ℕ) : ℤ) = .ret 1 := by decide +kernel
  rw [h2] at h1
  simp at h1

/-- **C64, everything else**: no overflow and the right value for all arguments in range but `(0,1)`; in particular
whenever `b <= n`.  Missing: the pair `(0,1)`. -/
theorem C64_value_partial (n b : ℕ) (hn : n ≤ 12) (hb : b ≤ 12) (h01 : ¬ (n = 0 ∧ b = 1)) :
    binomCoeff n b = .ret (n.choose b : ℤ) := by
  have h : ∀ n ∈ List.range 13, ∀ b ∈ List.range 13, ¬ (n = 0 ∧ b = 1) →
      binomCoeff (n : ℤ) (b : ℤ) = .ret (n.choose b : ℤ) := by
    decide +kernel
  exact h n (List.mem_range.mpr (by omega)) b (List.mem_range.mpr (by omega)) h01

/-- **C64.**  `n >= 13` overflows, whatever `b`. -/
theorem C64_overflow (n b : ℤ) (hn : 13 ≤ n) : binomCoeff n b = .ub := by
  unfold binomCoeff factorialC
  rw [if_neg (by omega), factLoop_overflow n.toNat (by omega)]
  rfl

/-- the loop computes the factorial, up to overflow -/
theorem C64_factorial (n : ℕ) : factorialC n = if n ≤ 12 then .ret (n.factorial : ℤ) else .ub := by
  unfold factorialC
  split_ifs with h1 h2 h2
  · have : n = 0 ∨ n = 1 := by omega
    rcases this with rfl | rfl <;> rfl
  · omega
  · exact factLoop_fact n h2
  · exact factLoop_overflow n (by omega)

example : binomCoeff 12 6 = .ret 924 := by decide +kernel

end Verif
