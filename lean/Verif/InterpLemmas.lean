import Verif.Interp
import Mathlib.LinearAlgebra.Lagrange
import Mathlib.Data.List.GetD
import Mathlib.Analysis.SpecialFunctions.Integrals.Basic

/-!
# Helper lemmas about coefficient lists and collocation interpolation
-/

namespace Verif

theorem foldl_snoc_map {α β : Type} (g : α → β) (l : List α) (acc : List β) :
    l.foldl (fun c b => c ++ [g b]) acc = acc ++ l.map g := by
  induction l generalizing acc with
  | nil => simp
  | cons x l ih => simp [ih]

theorem foldl_append_flatMap {α β : Type} (g : α → List β) (l : List α) (acc : List β) :
    l.foldl (fun c a => c ++ g a) acc = acc ++ l.flatMap g := by
  induction l generalizing acc with
  | nil => simp
  | cons x l ih => simp [ih]

theorem expand_eq (c1 c2 : CoeffList) : expand c1 c2 = c1.flatMap fun a => c2.map fun b => a ++ b := by
  unfold expand
  simp only [foldl_snoc_map, foldl_append_flatMap, List.nil_append]

/-- the value of a coefficient list under an interpretation of its symbols: a sum of products -/
def clVal {R : Type} [CommSemiring R] (v : ℤ → R) (c : CoeffList) : R := (c.map fun t => (t.map v).prod).sum

theorem clVal_expand {R : Type} [CommSemiring R] (v : ℤ → R) (c1 c2 : CoeffList) :
    clVal v (expand c1 c2) = clVal v c1 * clVal v c2 := by
  rw [expand_eq]
  unfold clVal
  induction c1 with
  | nil => simp
  | cons a c1 ih =>
    simp only [List.flatMap_cons, List.map_append, List.sum_append, ih, List.map_cons, List.sum_cons, add_mul,
      List.map_map]
    congr 1
    rw [← List.sum_map_mul_left]
    congr 1
    apply List.map_congr_left
    intro b _
    simp

theorem mem_expand {c1 c2 : CoeffList} {t : List ℤ} :
    t ∈ expand c1 c2 ↔ ∃ a ∈ c1, ∃ b ∈ c2, a ++ b = t := by
  rw [expand_eq]; simp

/-- the partial folds of `polyCoeffs` -/
def polyFold (i : ℕ) (m : ℕ) : CoeffList :=
  (List.range m).foldl (fun ci j => if i = j then ci
    else if ci.length = 0 then [[-1], [(j : ℤ)]] else expand ci [[-1], [(j : ℤ)]]) []

theorem polyFold_succ (i m : ℕ) : polyFold i (m + 1) = if i = m then polyFold i m
    else if (polyFold i m).length = 0 then [[-1], [(m : ℤ)]] else expand (polyFold i m) [[-1], [(m : ℤ)]] := by
  unfold polyFold
  rw [List.range_succ, List.foldl_append]; rfl

/-- the indices other than `i` -/
def others (i m : ℕ) : Finset ℕ := (Finset.range m).erase i

theorem others_succ_self (i : ℕ) : others i (i + 1) = others i i := by
  unfold others
  ext x; simp; omega

theorem others_succ {i m : ℕ} (h : i ≠ m) : others i (m + 1) = insert m (others i m) := by
  unfold others
  ext x; simp; omega

theorem not_mem_others (i m : ℕ) : m ∉ others i m := by simp [others]

theorem polyFold_spec {R : Type} [CommSemiring R] (v : ℤ → R) (i m : ℕ) :
    ((others i m).card = 0 → polyFold i m = []) ∧
    ((others i m).card ≠ 0 → polyFold i m ≠ [] ∧
      clVal v (polyFold i m) = ∏ j ∈ others i m, (v (-1) + v j)) ∧
    (∀ t ∈ polyFold i m, t.length = (others i m).card ∧ ∀ j ∈ t, j = -1 ∨ ∃ k < m, j = (k : ℤ)) := by
  induction m with
  | zero => simp [polyFold, others]
  | succ m ih =>
    obtain ⟨h1, h2, h3⟩ := ih
    rw [polyFold_succ]
    by_cases e : i = m
    · subst e
      rw [if_pos rfl, others_succ_self]
      refine ⟨h1, h2, fun t ht => ⟨(h3 t ht).1, fun j hj => ?_⟩⟩
      rcases (h3 t ht).2 j hj with h | ⟨k, hk, h⟩
      · exact Or.inl h
      · exact Or.inr ⟨k, by omega, h⟩
    · rw [if_neg e, others_succ e, Finset.card_insert_of_notMem (not_mem_others i m)]
      by_cases hc : (others i m).card = 0
      · rw [h1 hc]
        have he : others i m = ∅ := Finset.card_eq_zero.mp hc
        refine ⟨by omega, fun _ => ⟨by simp, ?_⟩, ?_⟩
        · simp [clVal, he]
        · intro t ht
          simp only [List.length_nil, if_true, List.mem_cons, List.not_mem_nil, or_false] at ht
          rcases ht with rfl | rfl
          · simp [hc]
          · refine ⟨by simp [hc], fun j hj => Or.inr ⟨m, by omega, by simpa using hj⟩⟩
      · obtain ⟨hne, hv⟩ := h2 hc
        have hl : (polyFold i m).length ≠ 0 := by simpa using hne
        rw [if_neg hl]
        refine ⟨by omega, fun _ => ⟨?_, ?_⟩, ?_⟩
        · rw [expand_eq]
          intro hh
          obtain ⟨a, l, hal⟩ := List.exists_cons_of_ne_nil hne
          rw [hal] at hh
          simp at hh
        · rw [clVal_expand, hv, Finset.prod_insert (not_mem_others i m), mul_comm]
          simp [clVal]
        · intro t ht
          obtain ⟨a, ha, b, hb, rfl⟩ := mem_expand.mp ht
          simp only [List.mem_cons, List.not_mem_nil, or_false] at hb
          refine ⟨?_, ?_⟩
          · rcases hb with rfl | rfl <;> simp [(h3 a ha).1]
          · intro j hj
            rcases List.mem_append.mp hj with hj | hj
            · rcases (h3 a ha).2 j hj with h | ⟨k, hk, h⟩
              · exact Or.inl h
              · exact Or.inr ⟨k, by omega, h⟩
            · rcases hb with rfl | rfl
              · exact Or.inl (by simpa using hj)
              · exact Or.inr ⟨m, by omega, by simpa using hj⟩

theorem card_others {i m : ℕ} (h : i < m) : (others i m).card = m - 1 := by
  unfold others
  rw [Finset.card_erase_of_mem (by simpa using h)]; simp

theorem termOrder_eq (cf : List ℤ) : termOrder cf = cf.countP (· = -1) := by
  unfold termOrder
  have : ∀ (l : List ℤ) (o : ℕ), l.foldl (fun o j => if j = -1 then o + 1 else o) o = o + l.countP (· = -1) := by
    intro l
    induction l with
    | nil => simp
    | cons j l ih =>
      intro o
      by_cases h : j = -1
      · simp [h, ih]; omega
      · simp [h, ih]
  simpa using this cf 0

theorem termOrder_le (cf : List ℤ) : termOrder cf ≤ cf.length := by
  rw [termOrder_eq]; exact List.countP_le_length

/-- the interpretation of the symbols: `-1` is `x`, `j` is `-c_j` -/
noncomputable def symb (c : List ℝ) (x : ℝ) (j : ℤ) : ℝ := if j = -1 then x else - c.getD j.toNat 0

/-- the constant factor of a term -/
noncomputable def termConst (c : List ℝ) (cf : List ℤ) : ℝ :=
  (cf.map fun j => if j = -1 then (1 : ℝ) else - c.getD j.toNat 0).prod

theorem prod_symb (c : List ℝ) (x : ℝ) (cf : List ℤ) :
    (cf.map (symb c x)).prod = x ^ termOrder cf * termConst c cf := by
  rw [termOrder_eq]
  unfold termConst
  induction cf with
  | nil => simp
  | cons j l ih =>
    simp only [List.map_cons, List.prod_cons, ih, symb]
    by_cases h : j = -1
    · simp [h, pow_succ]; ring
    · simp [h]; ring

theorem termCoeff_real (c : List ℝ) (d : ℝ) (cf : List ℤ) :
    termCoeff c d cf = 1 / d / (1 + termOrder cf) * termConst c cf := by
  unfold termCoeff termConst
  have : ∀ (l : List ℤ) (a : ℝ), l.foldl (fun co j => if j ≠ -1 then co * (- c.getD j.toNat (lit 0)) else co) a =
      a * (l.map fun j => if j = -1 then (1 : ℝ) else - c.getD j.toNat 0).prod := by
    intro l
    induction l with
    | nil => simp
    | cons j l ih =>
      intro a
      by_cases h : j = -1
      · rw [List.foldl_cons, if_neg (by simp [h]), ih]; simp [h]
      · rw [List.foldl_cons, if_pos h, ih, List.map_cons, List.prod_cons, if_neg h, lit_real, Rat.cast_zero]; ring
  rw [this]; simp

theorem lagrDenom_real (c : List ℝ) (i : ℕ) :
    lagrDenom c i = ∏ j ∈ others i c.length, (c.getD i 0 - c.getD j 0) := by
  unfold lagrDenom
  generalize c.length = m
  induction m with
  | zero => simp [others]
  | succ m ih =>
    rw [List.range_succ, List.foldl_append, ih]
    simp only [List.foldl_cons, List.foldl_nil]
    by_cases e : m = i
    · subst e
      rw [if_pos rfl, others_succ_self]
    · rw [if_neg e, others_succ (Ne.symm e), Finset.prod_insert (not_mem_others i m), mul_comm]
      simp

theorem tpow_real (x : ℝ) (i : ℕ) : tpow x i = x ^ (i + 1) := by
  induction i with
  | zero => simp [tpow]
  | succ i ih => rw [tpow, ih, pow_succ x (i + 1)]

section generic
variable {F : Type} [Add F] [Sub F] [Mul F] [Div F] [Neg F] [Lit F]

omit [Sub F] in
theorem collocFold_ret (nd nd' : Bool) (c : List F) (d : F) (l : List (List ℤ))
    (hl : ∀ t ∈ l, termOrder t < c.length) (row : ℕ → F) :
    ∃ row', l.foldl (collocStep nd c d) (.ret row) = .ret row' ∧
      l.foldl (collocStep nd' c d) (.ret row) = .ret row' := by
  induction l generalizing row with
  | nil => exact ⟨row, rfl, rfl⟩
  | cons t l ih =>
    have ht := hl t List.mem_cons_self
    obtain ⟨row', e, e'⟩ := ih (fun t' h => hl t' (List.mem_cons_of_mem _ h))
      (Function.update row ((c.length : ℤ) - termOrder t - 1).toNat
        (row ((c.length : ℤ) - termOrder t - 1).toNat + termCoeff c d t))
    refine ⟨row', ?_, ?_⟩
    · rw [List.foldl_cons, ← e]
      simp only [collocStep, Outcome.bind]
      rw [if_pos ⟨by omega, by omega⟩]
    · rw [List.foldl_cons, ← e']
      simp only [collocStep, Outcome.bind]
      rw [if_pos ⟨by omega, by omega⟩]

theorem collocRows_ret (nd nd' : Bool) (c : List F) (m : ℕ) (hm : m ≤ c.length) :
    ∃ B, collocRows nd c m = .ret B ∧ collocRows nd' c m = .ret B ∧ B.length = m ∧
      ∀ r ∈ B, r.length = c.length := by
  induction m with
  | zero => exact ⟨[], rfl, rfl, rfl, by simp⟩
  | succ m ih =>
    obtain ⟨B, e, e', hl, hr⟩ := ih (by omega)
    have hl' : ∀ t ∈ polyCoeffs c.length m, termOrder t < c.length := by
      intro t ht
      have h1 := ((polyFold_spec (fun _ => (0 : ℝ)) m c.length).2.2 t ht).1
      have h2 := termOrder_le t
      have := card_others (show m < c.length by omega)
      omega
    obtain ⟨row, h1, h2⟩ := collocFold_ret nd nd' c (lagrDenom c m) _ hl' (fun _ => lit 0)
    refine ⟨B ++ [(List.range c.length).map row], ?_, ?_, by simp [hl], ?_⟩
    · simp [collocRows, e, collocRow, h1, Outcome.bind]
    · simp [collocRows, e', collocRow, h2, Outcome.bind]
    · intro r h
      rcases List.mem_append.mp h with h | h
      · exact hr r h
      · simp only [List.mem_singleton] at h; simp [h]

/-- `collocation_interpolate_coeffs` always returns a square matrix: its assertions never fail. -/
theorem collocInterp_ret (nd : Bool) (c : List F) :
    collocInterp nd c = .ret (collocMat c) ∧ (collocMat c).length = c.length ∧
      ∀ r ∈ collocMat c, r.length = c.length := by
  obtain ⟨B, e, e', hl, hr⟩ := collocRows_ret nd false c c.length (le_refl _)
  have : collocMat c = B := by unfold collocMat collocInterp; rw [e']
  rw [this]
  exact ⟨e, hl, hr⟩

end generic

/-- the row fold: it never leaves the matrix and accumulates the terms -/
theorem collocFold_spec (nd : Bool) (c : List ℝ) (d : ℝ) (x : ℝ) (l : List (List ℤ))
    (hl : ∀ t ∈ l, termOrder t < c.length) (row : ℕ → ℝ) :
    ∃ row', l.foldl (collocStep nd c d) (.ret row) = .ret row' ∧
      ∑ j ∈ Finset.range c.length, row' j * x ^ (c.length - j) =
      ∑ j ∈ Finset.range c.length, row j * x ^ (c.length - j) +
        (l.map fun t => termCoeff c d t * x ^ (termOrder t + 1)).sum := by
  induction l generalizing row with
  | nil => exact ⟨row, rfl, by simp⟩
  | cons t l ih =>
    have ht := hl t List.mem_cons_self
    set k := c.length - termOrder t - 1 with hk
    have hidx : ((c.length : ℤ) - termOrder t - 1) = (k : ℤ) := by omega
    obtain ⟨row', e, hs⟩ := ih (fun t' h => hl t' (List.mem_cons_of_mem _ h))
      (Function.update row k (row k + termCoeff c d t))
    refine ⟨row', ?_, ?_⟩
    · rw [List.foldl_cons, ← e]
      congr 1
      simp only [collocStep, Outcome.bind, hidx]
      rw [if_pos ⟨by omega, by omega⟩]
      simp
    · rw [hs, List.map_cons, List.sum_cons, ← add_assoc]
      congr 1
      have hm : k ∈ Finset.range c.length := by rw [Finset.mem_range]; omega
      rw [← Finset.add_sum_erase _ _ hm, ← Finset.add_sum_erase _ (fun j => row j * _) hm]
      rw [Function.update_self]
      have : ∑ j ∈ (Finset.range c.length).erase k,
          Function.update row k (row k + termCoeff c d t) j * x ^ (c.length - j) =
          ∑ j ∈ (Finset.range c.length).erase k, row j * x ^ (c.length - j) := by
        refine Finset.sum_congr rfl fun j hj => ?_
        rw [Function.update_of_ne (Finset.ne_of_mem_erase hj)]
      rw [this]
      have hp : c.length - k = termOrder t + 1 := by omega
      rw [hp]; ring

/-- Row `i` of the interpolation matrix, for at least two nodes. -/
theorem collocRow_spec (nd : Bool) (c : List ℝ) (h2 : 2 ≤ c.length) {i : ℕ} (hi : i < c.length) :
    ∃ row, collocRow nd c i = .ret row ∧ ∀ x : ℝ,
      ∑ j ∈ Finset.range c.length, row j * x ^ (c.length - j) =
        ∫ z in (0 : ℝ)..x, (1 / lagrDenom c i) * ∏ j ∈ others i c.length, (z - c.getD j 0) := by
  have hcard := card_others hi
  have hsp := fun v : ℤ → ℝ => polyFold_spec v i c.length
  have hl : ∀ t ∈ polyCoeffs c.length i, termOrder t < c.length := by
    intro t ht
    have := ((hsp (fun _ => 0)).2.2 t ht).1
    have := termOrder_le t
    omega
  have hprod : ∀ z : ℝ, clVal (symb c z) (polyCoeffs c.length i) = ∏ j ∈ others i c.length, (z - c.getD j 0) := by
    intro z
    have := ((hsp (symb c z)).2.1 (by omega)).2
    rw [show polyCoeffs c.length i = polyFold i c.length from rfl, this]
    refine Finset.prod_congr rfl fun j _ => ?_
    simp [symb, show ((j : ℤ) = -1) = False by simp]
    ring
  obtain ⟨row, hrow, -⟩ := collocFold_spec nd c (lagrDenom c i) 0 _ hl (fun _ => lit 0)
  refine ⟨row, hrow, fun x => ?_⟩
  obtain ⟨row', hrow', hs⟩ := collocFold_spec nd c (lagrDenom c i) x _ hl (fun _ => lit 0)
  have : row' = row := by rw [hrow] at hrow'; simpa using hrow'.symm
  rw [this] at hs
  rw [hs]
  simp only [lit_real, Rat.cast_zero, zero_mul, Finset.sum_const_zero, zero_add]
  simp only [← hprod, clVal, prod_symb, termCoeff_real]
  generalize polyCoeffs c.length i = l
  have hint : ∀ (l : List (List ℤ)), ∫ z in (0 : ℝ)..x, (1 / lagrDenom c i) *
      (l.map fun t => z ^ termOrder t * termConst c t).sum =
      (l.map fun t => 1 / lagrDenom c i / (1 + (termOrder t : ℝ)) * termConst c t * x ^ (termOrder t + 1)).sum := by
    intro l
    induction l with
    | nil => simp
    | cons t l ih =>
      simp only [List.map_cons, List.sum_cons, mul_add]
      have hcont : ∀ l : List (List ℤ), Continuous fun z : ℝ => (l.map fun t => z ^ termOrder t * termConst c t).sum := by
        intro l
        induction l with
        | nil => simpa using continuous_const
        | cons t l ih => simp only [List.map_cons, List.sum_cons]; fun_prop
      rw [intervalIntegral.integral_add, ih]
      · congr 1
        rw [intervalIntegral.integral_const_mul, intervalIntegral.integral_mul_const, integral_pow]
        have : (termOrder t : ℝ) + 1 ≠ 0 := by positivity
        rw [zero_pow (by omega)]
        field_simp
        ring
      · exact (Continuous.intervalIntegrable (by fun_prop) _ _)
      · exact (Continuous.intervalIntegrable (continuous_const.mul (hcont l)) _ _)
  exact (hint l).symm

theorem lagrange_eval (c : List ℝ) {i : ℕ} (x : ℝ) :
    (Lagrange.basis (Finset.range c.length) (fun j => c.getD j 0) i).eval x =
      (1 / lagrDenom c i) * ∏ j ∈ others i c.length, (x - c.getD j 0) := by
  unfold Lagrange.basis Lagrange.basisDivisor
  rw [Polynomial.eval_prod, lagrDenom_real, one_div, ← Finset.prod_inv_distrib]
  simp only [Polynomial.eval_mul, Polynomial.eval_C, Polynomial.eval_sub, Polynomial.eval_X]
  rw [Finset.prod_mul_distrib]
  rfl

/-- the whole matrix -/
theorem collocRows_spec (nd : Bool) (c : List ℝ) (h2 : 2 ≤ c.length) (m : ℕ) (hm : m ≤ c.length) :
    ∃ B, collocRows nd c m = .ret B ∧ B.length = m ∧ (∀ r ∈ B, r.length = c.length) ∧
      ∀ i < m, ∀ x : ℝ, ∑ j ∈ Finset.range c.length, (B.getD i []).getD j 0 * x ^ (c.length - j) =
        ∫ z in (0 : ℝ)..x, (Lagrange.basis (Finset.range c.length) (fun j => c.getD j 0) i).eval z := by
  induction m with
  | zero => exact ⟨[], rfl, rfl, by simp, by omega⟩
  | succ m ih =>
    obtain ⟨B, e, hl, hr, hB⟩ := ih (by omega)
    obtain ⟨row, hrow, hx⟩ := collocRow_spec nd c h2 (show m < c.length by omega)
    refine ⟨B ++ [(List.range c.length).map row], ?_, by simp [hl], ?_, ?_⟩
    · simp [collocRows, e, hrow, Outcome.bind]
    · intro r h
      rcases List.mem_append.mp h with h | h
      · exact hr r h
      · simp only [List.mem_singleton] at h; simp [h]
    · intro i hi x
      by_cases him : i < m
      · rw [List.getD_append _ _ _ _ (by omega)]; exact hB i him x
      · have : i = m := by omega
        subst this
        simp only [lagrange_eval]
        rw [← hx x]
        refine Finset.sum_congr rfl fun j hj => ?_
        rw [List.getD_append_right _ _ _ _ (by omega)]
        have hj' := Finset.mem_range.mp hj
        simp [hl, List.getD_eq_getElem?_getD, hj']

end Verif
