import Verif.Order
import Mathlib.Analysis.Calculus.TaylorIntegral
import Mathlib.Analysis.Calculus.MeanValue
import Mathlib.Analysis.Asymptotics.Lemmas
import Mathlib.Analysis.Normed.Module.FiniteDimension

/-!
# Butcher's theorem: from the order conditions on trees to the local error

Elementary differentials over trees with ordered children (with a factor `1/m!` at every node with `m` children), expansion of the
stages of a Runge-Kutta step and of the exact solution, uniformly along an arbitrary filter.
-/

namespace Verif
open Spec Asymptotics Filter Set

/-! ### finite sets of trees -/

theorem finite_trees (q : ℕ) : {t : RTree | t.order ≤ q}.Finite :=
  (List.finite_toSet (treesUpTo q)).subset fun _ h => mem_treesUpTo h

/-- the trees with at most `q` nodes -/
noncomputable def trees (q : ℕ) : Finset RTree := (finite_trees q).toFinset

theorem mem_trees {q : ℕ} {t : RTree} : t ∈ trees q ↔ t.order ≤ q := by simp [trees]

theorem trees_zero : trees 0 = ∅ := by
  ext t
  have := order_pos t
  simp [mem_trees]; omega

theorem orderList_ofFn : ∀ {m : ℕ} (r : Fin m → RTree), RTree.orderList (List.ofFn r) = ∑ k, (r k).order
  | 0, r => by simp [RTree.orderList]
  | m + 1, r => by
    rw [List.ofFn_succ, RTree.orderList, orderList_ofFn, Fin.sum_univ_succ]

theorem order_node_ofFn {m : ℕ} (r : Fin m → RTree) : (RTree.node (List.ofFn r)).order = ∑ k, (r k).order + 1 := by
  rw [RTree.order, orderList_ofFn]

/-- product over the children of the root -/
def childProd (φ : RTree → ℝ) : RTree → ℝ
  | .node ts => (ts.map φ).prod

theorem childProd_ofFn (φ : RTree → ℝ) {m : ℕ} (r : Fin m → RTree) :
    childProd φ (.node (List.ofFn r)) = ∏ k, φ (r k) := by
  rw [childProd, List.map_ofFn, List.prod_ofFn]
  rfl

theorem exists_ofFn (t : RTree) : ∃ (m : ℕ) (r : Fin m → RTree), t = .node (List.ofFn r) := by
  obtain ⟨ts⟩ := t
  exact ⟨ts.length, ts.get, by rw [List.ofFn_get]⟩

theorem child_order {m : ℕ} (r : Fin m → RTree) (k : Fin m) : (r k).order < (RTree.node (List.ofFn r)).order := by
  rw [order_node_ofFn]
  exact Nat.lt_succ_of_le (Finset.single_le_sum (f := fun k => (r k).order) (fun _ _ => Nat.zero_le _) (Finset.mem_univ k))

theorem arity_lt {m : ℕ} (r : Fin m → RTree) : m < (RTree.node (List.ofFn r)).order := by
  rw [order_node_ofFn]
  have : ∑ _k : Fin m, 1 ≤ ∑ k, (r k).order := Finset.sum_le_sum fun k _ => order_pos (r k)
  simp at this
  omega

theorem tree_ofFn_induction {P : RTree → Prop}
    (h : ∀ (m : ℕ) (r : Fin m → RTree), (∀ k, P (r k)) → P (.node (List.ofFn r))) (t : RTree) : P t := by
  have : ∀ n (t : RTree), t.order = n → P t := by
    intro n
    induction n using Nat.strong_induction_on with
    | _ n ih =>
      intro t ht
      obtain ⟨m, r, rfl⟩ := exists_ofFn t
      exact h m r fun k => ih _ (by rw [← ht]; exact child_order r k) (r k) rfl
  exact this _ t rfl

theorem weightList_prod {s : ℕ} (A : Fin s → Fin s → ℝ) (i : Fin s) : ∀ ts : List RTree,
    RTree.weightList A ts i = (ts.map fun t => ∑ j, A i j * t.weight A j).prod
  | [] => by simp [RTree.weightList]
  | t :: ts => by simp only [RTree.weightList]; rw [weightList_prod A i ts]; simp

theorem weight_childProd {s : ℕ} (A : Fin s → Fin s → ℝ) (i : Fin s) (t : RTree) :
    t.weight A i = childProd (fun u => ∑ j, A i j * u.weight A j) t := by
  obtain ⟨ts⟩ := t
  rw [RTree.weight, weightList_prod, childProd]

theorem densityList_prod : ∀ ts : List RTree, ((RTree.densityList ts : ℕ) : ℝ)⁻¹ = (ts.map fun t => ((t.density : ℕ) : ℝ)⁻¹).prod
  | [] => by simp [RTree.densityList]
  | t :: ts => by
    rw [RTree.densityList, List.map_cons, List.prod_cons, ← densityList_prod ts]
    push_cast
    rw [mul_inv]

theorem density_childProd (t : RTree) :
    childProd (fun u => ((u.density : ℕ) : ℝ)⁻¹) t = t.order * ((t.density : ℕ) : ℝ)⁻¹ := by
  obtain ⟨ts⟩ := t
  rw [childProd, ← densityList_prod, RTree.density, RTree.order]
  push_cast
  rw [mul_inv, ← mul_assoc, mul_inv_cancel₀ (by positivity), one_mul]

/-! ### elementary differentials -/

section eld
variable {E : Type} [NormedAddCommGroup E] [NormedSpace ℝ E]

mutual
/-- elementary differential with the factor `1/m!` at every node -/
noncomputable def eld (f : E → E) (y : E) : RTree → E
  | .node ts => ((eldList f y ts).length.factorial : ℝ)⁻¹ •
      iteratedFDeriv ℝ (eldList f y ts).length f y (eldList f y ts).get
/-- the same for a forest -/
noncomputable def eldList (f : E → E) (y : E) : List RTree → List E
  | [] => []
  | t :: ts => eld f y t :: eldList f y ts
end

theorem eldList_map (f : E → E) (y : E) : ∀ ts : List RTree, eldList f y ts = ts.map (eld f y)
  | [] => by simp [eldList]
  | t :: ts => by rw [eldList, eldList_map f y ts, List.map_cons]

theorem eld_ofFn (f : E → E) (y : E) {m : ℕ} (r : Fin m → RTree) :
    eld f y (.node (List.ofFn r)) = (m.factorial : ℝ)⁻¹ • iteratedFDeriv ℝ m f y (fun k => eld f y (r k)) := by
  have aux : ∀ {v : Fin m → E} (k : ℕ) (w : Fin k → E) (hk : k = m), (∀ i, w i = v (Fin.cast hk i)) →
      (k.factorial : ℝ)⁻¹ • iteratedFDeriv ℝ k f y w = (m.factorial : ℝ)⁻¹ • iteratedFDeriv ℝ m f y v := by
    intro v k w hk hw
    subst hk
    rw [show w = v from funext hw]
  have key : ∀ (l : List E) (v : Fin m → E), l = List.ofFn v →
      (l.length.factorial : ℝ)⁻¹ • iteratedFDeriv ℝ l.length f y l.get =
        (m.factorial : ℝ)⁻¹ • iteratedFDeriv ℝ m f y v := by
    intro l v hl
    have hlen : l.length = m := by rw [hl, List.length_ofFn]
    have hget : ∀ i : Fin l.length, l.get i = v (Fin.cast hlen i) := by
      intro i
      have : l.get i = l[i.1] := rfl
      rw [this]
      simp only [hl, List.getElem_ofFn]
      rfl
    exact aux l.length l.get hlen hget
  rw [eld]
  exact key _ _ (by rw [eldList_map, List.map_ofFn]; rfl)

variable [FiniteDimensional ℝ E] {X : Type} {l : Filter X} {f : E → E} {y V : X → E} {h : X → ℝ}

theorem bounded_deriv {n : ℕ} (hf : ContDiff ℝ n f) {m : ℕ} (hm : m ≤ n) (R : ℝ) :
    ∃ M, 0 ≤ M ∧ ∀ z, ‖z‖ ≤ R → ‖iteratedFDeriv ℝ m f z‖ ≤ M := by
  have := FiniteDimensional.proper_real E
  have hc : Continuous (iteratedFDeriv ℝ m f) := hf.continuous_iteratedFDeriv (by exact_mod_cast hm)
  obtain ⟨M, hM⟩ := (isCompact_closedBall (0 : E) R).exists_bound_of_continuousOn hc.continuousOn
  exact ⟨max M 0, le_max_right _ _, fun z hz => (hM z (by simpa using hz)).trans (le_max_left _ _)⟩

theorem bound_of_isBigO_one {F : Type} [NormedAddCommGroup F] {g : X → F} (hg : g =O[l] fun _ => (1 : ℝ)) :
    ∃ R, 0 ≤ R ∧ ∀ᶠ x in l, ‖g x‖ ≤ R := by
  obtain ⟨R, hR, h⟩ := hg.exists_nonneg
  refine ⟨R, hR, ?_⟩
  have := h.bound
  simpa using this

theorem isBigO_one_of_bound {F : Type} [NormedAddCommGroup F] {g : X → F} {R : ℝ} (hg : ∀ᶠ x in l, ‖g x‖ ≤ R) :
    g =O[l] fun _ => (1 : ℝ) := IsBigO.of_bound R (by simpa using hg)

theorem isBigO_fun_sum {ι : Type} {F : Type} [NormedAddCommGroup F] {S : Finset ι} {a : ι → X → F} {g : X → ℝ}
    (H : ∀ i ∈ S, a i =O[l] g) : (fun x => ∑ i ∈ S, a i x) =O[l] g :=
  (IsBigO.sum H).congr_left fun x => Finset.sum_apply x S a

/-- derivatives along bounded points are bounded -/
theorem deriv_isBigO {n : ℕ} (hf : ContDiff ℝ n f) (hy : y =O[l] fun _ => (1 : ℝ)) {m : ℕ} (hm : m ≤ n) :
    (fun x => iteratedFDeriv ℝ m f (y x)) =O[l] fun _ => (1 : ℝ) := by
  obtain ⟨R, -, hR⟩ := bound_of_isBigO_one hy
  obtain ⟨M, -, hM⟩ := bounded_deriv hf hm R
  exact isBigO_one_of_bound (hR.mono fun x hx => hM _ hx)

omit [FiniteDimensional ℝ E] in
theorem multilinear_isBigO {m : ℕ} {D : X → ContinuousMultilinearMap ℝ (fun _ : Fin m => E) E} (hD : D =O[l] fun _ => (1 : ℝ))
    {v : X → Fin m → E} (hv : ∀ k, (fun x => v x k) =O[l] fun _ => (1 : ℝ)) : (fun x => D x (v x)) =O[l] fun _ => (1 : ℝ) := by
  obtain ⟨M, hM, hD⟩ := bound_of_isBigO_one hD
  have hv' : ∀ k, ∃ R, 0 ≤ R ∧ ∀ᶠ x in l, ‖v x k‖ ≤ R := fun k => bound_of_isBigO_one (hv k)
  choose R hR hv' using hv'
  refine isBigO_one_of_bound (R := M * ∏ k, R k) ?_
  filter_upwards [hD, eventually_all.mpr hv'] with x h1 h2
  refine ((D x).le_opNorm _).trans ?_
  apply mul_le_mul h1 (Finset.prod_le_prod (fun _ _ => norm_nonneg _) fun k _ => h2 k)
    (Finset.prod_nonneg fun _ _ => norm_nonneg _) hM

/-- elementary differentials along bounded points are bounded -/
theorem eld_isBigO {n : ℕ} (hf : ContDiff ℝ n f) (hy : y =O[l] fun _ => (1 : ℝ)) (t : RTree) (ht : t.order ≤ n + 1) :
    (fun x => eld f (y x) t) =O[l] fun _ => (1 : ℝ) := by
  induction t using tree_ofFn_induction with
  | h m r ih =>
    simp only [eld_ofFn]
    apply IsBigO.const_smul_left
    apply multilinear_isBigO
    · exact deriv_isBigO hf hy (by have := arity_lt r; omega)
    · exact fun k => ih k (by have := child_order r k; omega)

/-- the Taylor polynomial of `f` at `y` -/
noncomputable def taylorPoly (f : E → E) (q : ℕ) (y v : E) : E :=
  ∑ m ∈ Finset.range (q + 1), (m.factorial : ℝ)⁻¹ • iteratedFDeriv ℝ m f y (fun _ => v)

theorem taylor_isBigO {q : ℕ} (hf : ContDiff ℝ (q + 1 : ℕ) f) (hh : ∀ᶠ x in l, 0 ≤ h x ∧ h x ≤ 1)
    (hy : y =O[l] fun _ => (1 : ℝ)) (hV : V =O[l] fun _ => (1 : ℝ)) :
    (fun x => f (y x + h x • V x) - taylorPoly f q (y x) (h x • V x)) =O[l] fun x => h x ^ (q + 1) := by
  obtain ⟨R, hR, hy⟩ := bound_of_isBigO_one hy
  obtain ⟨B, hB, hV⟩ := bound_of_isBigO_one hV
  obtain ⟨M, hM, hMb⟩ := bounded_deriv hf (le_refl _) (R + B)
  refine IsBigO.of_bound (M * B ^ (q + 1)) ?_
  have := FiniteDimensional.complete ℝ E
  filter_upwards [hh, hy, hV] with x ⟨h0, h1⟩ h2 h3
  have hT := map_add_eq_sum_add_integral_iteratedFDeriv (f := f) (x := y x) (y := h x • V x) (n := q)
    (fun t _ => by exact_mod_cast hf.contDiffAt)
  rw [taylorPoly, hT, add_sub_cancel_left, norm_smul, Real.norm_of_nonneg (pow_nonneg h0 _)]
  have hnv : ‖h x • V x‖ ≤ h x * B := by
    rw [norm_smul, Real.norm_of_nonneg h0]
    exact mul_le_mul_of_nonneg_left h3 h0
  have hint : ‖∫ t in (0 : ℝ)..1, (1 - t) ^ q • iteratedFDeriv ℝ (q + 1) f (y x + t • (h x • V x)) (fun _ => h x • V x)‖
      ≤ M * (h x * B) ^ (q + 1) * |1 - 0| := by
    apply intervalIntegral.norm_integral_le_of_norm_le_const
    intro t ht
    rw [uIoc_of_le zero_le_one] at ht
    obtain ⟨t0, t1⟩ := ht
    rw [norm_smul, Real.norm_of_nonneg (pow_nonneg (by linarith) _)]
    have ha : (1 - t) ^ q ≤ 1 := pow_le_one₀ (by linarith) (by linarith)
    have hz : ‖y x + t • (h x • V x)‖ ≤ R + B := by
      refine (norm_add_le _ _).trans (add_le_add h2 ?_)
      rw [norm_smul, Real.norm_of_nonneg t0.le]
      calc t * ‖h x • V x‖ ≤ 1 * (h x * B) := mul_le_mul t1 hnv (norm_nonneg _) zero_le_one
        _ ≤ 1 * (1 * B) := by
          apply mul_le_mul_of_nonneg_left _ zero_le_one
          exact mul_le_mul_of_nonneg_right h1 hB
        _ = B := by ring
    have hD : ‖iteratedFDeriv ℝ (q + 1) f (y x + t • (h x • V x)) (fun _ => h x • V x)‖ ≤ M * (h x * B) ^ (q + 1) := by
      refine (ContinuousMultilinearMap.le_opNorm _ _).trans ?_
      rw [Finset.prod_const, Finset.card_univ, Fintype.card_fin]
      exact mul_le_mul (hMb _ hz) (pow_le_pow_left₀ (norm_nonneg _) hnv _) (by positivity) hM
    calc (1 - t) ^ q * _ ≤ 1 * (M * (h x * B) ^ (q + 1)) := mul_le_mul ha hD (norm_nonneg _) zero_le_one
      _ = _ := one_mul _
  have hfac : ‖((q.factorial : ℝ))⁻¹‖ ≤ 1 := by
    rw [norm_inv, Real.norm_natCast]
    apply inv_le_one_of_one_le₀
    exact_mod_cast Nat.factorial_pos q
  calc ‖((q.factorial : ℝ))⁻¹‖ * _ ≤ 1 * (M * (h x * B) ^ (q + 1) * |1 - 0|) :=
        mul_le_mul hfac hint (norm_nonneg _) zero_le_one
    _ = M * B ^ (q + 1) * h x ^ (q + 1) := by rw [mul_pow]; norm_num; ring

omit [FiniteDimensional ℝ E] in
/-- a multilinear term changes little if its argument does -/
theorem multilinear_diff {q m : ℕ} {D : X → ContinuousMultilinearMap ℝ (fun _ : Fin m => E) E} (hD : D =O[l] fun _ => (1 : ℝ))
    (hh : ∀ᶠ x in l, 0 ≤ h x ∧ h x ≤ 1) {W : X → E} (hV : V =O[l] fun _ => (1 : ℝ)) (hW : W =O[l] fun _ => (1 : ℝ))
    (hVW : (fun x => V x - W x) =O[l] fun x => h x ^ q) :
    (fun x => D x (fun _ => h x • V x) - D x (fun _ => h x • W x)) =O[l] fun x => h x ^ (q + 1) := by
  obtain ⟨M, hM, hD⟩ := bound_of_isBigO_one hD
  obtain ⟨B, hB, hV⟩ := bound_of_isBigO_one hV
  obtain ⟨B', hB', hW⟩ := bound_of_isBigO_one hW
  obtain ⟨C, hC, hVW⟩ := hVW.exists_nonneg
  refine IsBigO.of_bound (M * m * max B B' ^ (m - 1) * C) ?_
  filter_upwards [hh, hD, hV, hW, hVW.bound] with x ⟨h0, h1⟩ h2 h3 h4 h5
  rw [Real.norm_of_nonneg (pow_nonneg h0 _)] at h5 ⊢
  have hnorm : ∀ u : E, ‖(fun _ : Fin m => h x • u)‖ ≤ h x * ‖u‖ := by
    intro u
    rw [pi_norm_le_iff_of_nonneg (mul_nonneg h0 (norm_nonneg _))]
    intro k
    rw [norm_smul, Real.norm_of_nonneg h0]
  refine ((D x).norm_image_sub_le _ _).trans ?_
  rw [Fintype.card_fin]
  have hmax : max ‖(fun _ : Fin m => h x • V x)‖ ‖(fun _ : Fin m => h x • W x)‖ ≤ max B B' := by
    apply max_le_max
    · refine (hnorm _).trans ((mul_le_mul h1 h3 (norm_nonneg _) zero_le_one).trans ?_); rw [one_mul]
    · refine (hnorm _).trans ((mul_le_mul h1 h4 (norm_nonneg _) zero_le_one).trans ?_); rw [one_mul]
  have hdiff : ‖(fun _ : Fin m => h x • V x) - (fun _ : Fin m => h x • W x)‖ ≤ h x * (C * h x ^ q) := by
    have e : (fun _ : Fin m => h x • V x) - (fun _ : Fin m => h x • W x) = fun _ : Fin m => h x • (V x - W x) := by
      funext k; rw [Pi.sub_apply, smul_sub]
    rw [e]
    exact (hnorm _).trans (mul_le_mul_of_nonneg_left h5 h0)
  have hBB : 0 ≤ max B B' := le_max_of_le_left hB
  calc ‖D x‖ * m * max ‖(fun _ : Fin m => h x • V x)‖ ‖(fun _ : Fin m => h x • W x)‖ ^ (m - 1) *
        ‖(fun _ : Fin m => h x • V x) - (fun _ : Fin m => h x • W x)‖
      ≤ M * m * max B B' ^ (m - 1) * (h x * (C * h x ^ q)) := by
        apply mul_le_mul _ hdiff (norm_nonneg _) (by positivity)
        apply mul_le_mul (mul_le_mul_of_nonneg_right h2 (Nat.cast_nonneg _)) _ (by positivity) (by positivity)
        exact pow_le_pow_left₀ (le_max_of_le_left (norm_nonneg _)) hmax _
    _ = M * m * max B B' ^ (m - 1) * C * h x ^ (q + 1) := by ring

/-! ### truncated series -/

/-- truncated B-series divided by the step: `Σ h^(|τ|-1) φ(τ) F(τ)(y)` over the trees with at most `q` nodes -/
noncomputable def ser (f : E → E) (φ : RTree → ℝ) (q : ℕ) (y : E) (h : ℝ) : E :=
  ∑ t ∈ trees q, (h ^ (t.order - 1) * φ t) • eld f y t

omit [FiniteDimensional ℝ E] in
theorem ser_congr {φ ψ : RTree → ℝ} {q : ℕ} (h : ∀ t : RTree, t.order ≤ q → φ t = ψ t) (y : E) (s : ℝ) :
    ser f φ q y s = ser f ψ q y s :=
  Finset.sum_congr rfl fun t ht => by rw [h t (mem_trees.mp ht)]

omit [FiniteDimensional ℝ E] in
theorem ser_lin {s : ℕ} (a : Fin s → ℝ) (φ : Fin s → RTree → ℝ) (q : ℕ) (y : E) (h : ℝ) :
    ser f (fun t => ∑ j, a j * φ j t) q y h = ∑ j, a j • ser f (φ j) q y h := by
  simp only [ser, Finset.smul_sum, smul_smul]
  rw [Finset.sum_comm]
  apply Finset.sum_congr rfl
  intro t _
  rw [← Finset.sum_smul, Finset.mul_sum]
  congr 1
  exact Finset.sum_congr rfl fun j _ => by ring

theorem ser_isBigO {n : ℕ} (hf : ContDiff ℝ n f) (hy : y =O[l] fun _ => (1 : ℝ)) (hh : ∀ᶠ x in l, 0 ≤ h x ∧ h x ≤ 1)
    (φ : RTree → ℝ) {q : ℕ} (hq : q ≤ n + 1) : (fun x => ser f φ q (y x) (h x)) =O[l] fun _ => (1 : ℝ) := by
  unfold ser
  apply isBigO_fun_sum
  intro t ht
  have h1 : (fun x => h x ^ (t.order - 1) * φ t) =O[l] fun _ => (1 : ℝ) := by
    refine isBigO_one_of_bound (R := |φ t|) (hh.mono fun x ⟨h0, h1⟩ => ?_)
    rw [Real.norm_eq_abs, abs_mul, abs_of_nonneg (pow_nonneg h0 _)]
    exact mul_le_of_le_one_left (abs_nonneg _) (pow_le_one₀ h0 h1)
  simpa using h1.smul (eld_isBigO hf hy t ((mem_trees.mp ht).trans hq))

omit [FiniteDimensional ℝ E] in
/-- the multilinear expansion of one Taylor term -/
theorem taylor_term (f : E → E) (φ : RTree → ℝ) (q m : ℕ) (y : E) (h : ℝ) :
    (m.factorial : ℝ)⁻¹ • iteratedFDeriv ℝ m f y (fun _ => h • ser f φ q y h) =
      ∑ r ∈ Fintype.piFinset (fun _ : Fin m => trees q),
        (h ^ ((RTree.node (List.ofFn r)).order - 1) * childProd φ (.node (List.ofFn r))) • eld f y (.node (List.ofFn r)) := by
  have e : h • ser f φ q y h = ∑ t ∈ trees q, (h ^ t.order * φ t) • eld f y t := by
    rw [ser, Finset.smul_sum]
    apply Finset.sum_congr rfl
    intro t _
    rw [smul_smul, ← mul_assoc, ← pow_succ', Nat.sub_add_cancel (order_pos t)]
  rw [e, ContinuousMultilinearMap.map_sum_finset, Finset.smul_sum]
  apply Finset.sum_congr rfl
  intro r _
  rw [ContinuousMultilinearMap.map_smul_univ, eld_ofFn, smul_comm, childProd_ofFn, order_node_ofFn, Nat.add_sub_cancel,
    Finset.prod_mul_distrib, Finset.prod_pow_eq_pow_sum]

/-- the terms with more nodes than the truncation are of the order of the truncation -/
theorem taylor_ser {q : ℕ} (hf : ContDiff ℝ (q + 1 : ℕ) f) (hh : ∀ᶠ x in l, 0 ≤ h x ∧ h x ≤ 1) (hy : y =O[l] fun _ => (1 : ℝ))
    (φ : RTree → ℝ) :
    (fun x => taylorPoly f q (y x) (h x • ser f φ q (y x) (h x)) - ser f (childProd φ) (q + 1) (y x) (h x))
      =O[l] fun x => h x ^ (q + 1) := by
  classical
  let S : Finset (Σ m, Fin m → RTree) := (Finset.range (q + 1)).sigma fun m => Fintype.piFinset fun _ : Fin m => trees q
  let nd : (Σ m, Fin m → RTree) → RTree := fun p => .node (List.ofFn p.2)
  let G : X → RTree → E := fun x t => (h x ^ (t.order - 1) * childProd φ t) • eld f (y x) t
  have e1 : ∀ x, taylorPoly f q (y x) (h x • ser f φ q (y x) (h x)) = ∑ p ∈ S, G x (nd p) := by
    intro x
    rw [taylorPoly, Finset.sum_sigma]
    exact Finset.sum_congr rfl fun m _ => taylor_term f φ q m (y x) (h x)
  have e2 : ∀ x, ∑ p ∈ S with (nd p).order ≤ q + 1, G x (nd p) = ser f (childProd φ) (q + 1) (y x) (h x) := by
    intro x
    refine Finset.sum_nbij nd ?_ ?_ ?_ fun _ _ => rfl
    · intro p hp
      exact mem_trees.mpr (Finset.mem_filter.mp hp).2
    · intro p _ p' _ hpp
      have : List.ofFn p.2 = List.ofFn p'.2 := RTree.node.inj hpp
      exact List.equivSigmaTuple.symm.injective this
    · intro t ht
      have ht := mem_trees.mp (Finset.mem_coe.mp ht)
      obtain ⟨m, r, rfl⟩ := exists_ofFn t
      refine ⟨⟨m, r⟩, ?_, rfl⟩
      rw [Finset.mem_coe, Finset.mem_filter, Finset.mem_sigma, Finset.mem_range, Fintype.mem_piFinset]
      have ha : m < q + 1 := by have := arity_lt r; omega
      have hk : ∀ k, r k ∈ trees q := fun k => mem_trees.mpr (by have := child_order r k; omega)
      exact ⟨⟨ha, hk⟩, ht⟩
  have e3 : ∀ x, taylorPoly f q (y x) (h x • ser f φ q (y x) (h x)) - ser f (childProd φ) (q + 1) (y x) (h x) =
      ∑ p ∈ S with ¬ (nd p).order ≤ q + 1, G x (nd p) := by
    intro x
    rw [e1, ← e2, ← Finset.sum_filter_add_sum_filter_not S (fun p => (nd p).order ≤ q + 1), add_sub_cancel_left]
  simp only [e3]
  apply isBigO_fun_sum
  intro p hp
  obtain ⟨hS, ho⟩ := Finset.mem_filter.mp hp
  obtain ⟨m, r⟩ := p
  rw [Finset.mem_sigma, Finset.mem_range, Fintype.mem_piFinset] at hS
  obtain ⟨hm, hr⟩ := hS
  simp only at hm hr
  have he : (fun x => eld f (y x) (nd ⟨m, r⟩)) =O[l] fun _ => (1 : ℝ) := by
    simp only [nd, eld_ofFn]
    apply IsBigO.const_smul_left
    apply multilinear_isBigO
    · exact deriv_isBigO hf hy (by omega)
    · exact fun k => eld_isBigO hf hy (r k) (by have := mem_trees.mp (hr k); omega)
  have hc : (fun x => h x ^ ((nd ⟨m, r⟩).order - 1) * childProd φ (nd ⟨m, r⟩)) =O[l] fun x => h x ^ (q + 1) := by
    refine IsBigO.of_bound |childProd φ (nd ⟨m, r⟩)| (hh.mono fun x ⟨h0, h1⟩ => ?_)
    rw [Real.norm_eq_abs, Real.norm_eq_abs, abs_mul, abs_of_nonneg (pow_nonneg h0 _), abs_of_nonneg (pow_nonneg h0 _), mul_comm]
    exact mul_le_mul_of_nonneg_left (pow_le_pow_of_le_one h0 h1 (by omega)) (abs_nonneg _)
  simpa using hc.smul he

/-- composing with `f` raises the order of an expansion by one -/
theorem ser_expand {q : ℕ} (hf : ContDiff ℝ (q + 1 : ℕ) f) (hh : ∀ᶠ x in l, 0 ≤ h x ∧ h x ≤ 1) (hy : y =O[l] fun _ => (1 : ℝ))
    (hV : V =O[l] fun _ => (1 : ℝ)) {φ : RTree → ℝ}
    (hs : (fun x => V x - ser f φ q (y x) (h x)) =O[l] fun x => h x ^ q) :
    (fun x => f (y x + h x • V x) - ser f (childProd φ) (q + 1) (y x) (h x)) =O[l] fun x => h x ^ (q + 1) := by
  have h1 := taylor_isBigO hf hh hy hV
  have h2 : (fun x => taylorPoly f q (y x) (h x • V x) - taylorPoly f q (y x) (h x • ser f φ q (y x) (h x)))
      =O[l] fun x => h x ^ (q + 1) := by
    simp only [taylorPoly, ← Finset.sum_sub_distrib, ← smul_sub]
    apply isBigO_fun_sum
    intro m hm
    apply IsBigO.const_smul_left
    exact multilinear_diff (deriv_isBigO hf hy (by simp at hm; omega)) hh hV (ser_isBigO hf hy hh φ (by omega)) hs
  have h3 := taylor_ser hf hh hy φ
  have := (h1.add h2).add h3
  refine this.congr_left fun x => ?_
  abel

/-- **expansion of the stages** -/
theorem stages_expand {n s : ℕ} (hf : ContDiff ℝ n f) (hh : ∀ᶠ x in l, 0 ≤ h x ∧ h x ≤ 1) (hy : y =O[l] fun _ => (1 : ℝ))
    (A : Fin s → Fin s → ℝ) {K : X → Fin s → E} (hK : ∀ i, (fun x => K x i) =O[l] fun _ => (1 : ℝ))
    (hst : ∀ᶠ x in l, ∀ i, K x i = f (y x + h x • ∑ j, A i j • K x j)) : ∀ q ≤ n, ∀ i,
    (fun x => K x i - ser f (fun t => t.weight A i) q (y x) (h x)) =O[l] fun x => h x ^ q := by
  intro q
  induction q with
  | zero =>
    intro _ i
    simpa [ser, trees_zero] using hK i
  | succ q ih =>
    intro hq i
    have hV : (fun x => ∑ j, A i j • K x j) =O[l] fun _ => (1 : ℝ) :=
      isBigO_fun_sum fun j _ => (hK j).const_smul_left (A i j)
    have hs : (fun x => (∑ j, A i j • K x j) - ser f (fun t => ∑ j, A i j * t.weight A j) q (y x) (h x)) =O[l] fun x => h x ^ q := by
      simp only [ser_lin, ← Finset.sum_sub_distrib, ← smul_sub]
      exact isBigO_fun_sum fun j _ => (ih (by omega) j).const_smul_left (A i j)
    have := ser_expand (hf.of_le (by exact_mod_cast hq)) hh hy hV hs
    refine this.congr' ?_ EventuallyEq.rfl
    filter_upwards [hst] with x hx
    rw [← hx i]
    congr 1
    exact ser_congr (fun t _ => (weight_childProd A i t).symm) _ _

end eld
end Verif
