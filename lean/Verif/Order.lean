import Verif.Spec.Trees
import Mathlib.Algebra.BigOperators.Field
import Mathlib.Algebra.Algebra.Rat
import Mathlib.Data.List.GetD

/-!
# Deciding order conditions: enumeration of the rooted trees
-/

set_option linter.unusedSectionVars false

namespace Verif
open Spec

/-- all forests with `n` nodes (fuel ≥ n) -/
def forests : ℕ → ℕ → List (List RTree)
  | _, 0 => [[]]
  | 0, _ + 1 => []
  | f + 1, n + 1 => (List.range (n + 1)).flatMap fun k =>
      (forests f k).flatMap fun cs => (forests f (n - k)).map fun rest => .node cs :: rest

theorem order_pos (t : RTree) : 0 < t.order := by
  cases t; simp [RTree.order]

theorem mem_forests : ∀ (f : ℕ) (ts : List RTree), RTree.orderList ts ≤ f →
    ts ∈ forests f (RTree.orderList ts) := by
  intro f
  induction f with
  | zero =>
    intro ts h
    cases ts with
    | nil => simp [forests, RTree.orderList]
    | cons t ts =>
      have := order_pos t
      simp [RTree.orderList] at h; omega
  | succ f ih =>
    intro ts h
    cases ts with
    | nil => simp [forests, RTree.orderList]
    | cons t ts =>
      obtain ⟨cs⟩ := t
      have e : RTree.orderList (.node cs :: ts) = (RTree.orderList cs + RTree.orderList ts) + 1 := by
        simp [RTree.orderList, RTree.order]; omega
      rw [e] at h ⊢
      rw [forests]
      simp only [List.mem_flatMap, List.mem_range, List.mem_map]
      refine ⟨RTree.orderList cs, by omega, cs, ih cs (by omega), ts, ?_, rfl⟩
      have : RTree.orderList cs + RTree.orderList ts - RTree.orderList cs = RTree.orderList ts := by
        omega
      rw [this]
      exact ih ts (by omega)

/-- all trees with at most `p` nodes -/
def treesUpTo (p : ℕ) : List RTree :=
  (List.range p).flatMap fun k => (forests k k).map .node

theorem mem_treesUpTo {p : ℕ} {t : RTree} (h : t.order ≤ p) : t ∈ treesUpTo p := by
  obtain ⟨cs⟩ := t
  simp only [RTree.order] at h
  simp only [treesUpTo, List.mem_flatMap, List.mem_range, List.mem_map]
  exact ⟨RTree.orderList cs, by omega, cs, mem_forests _ cs (le_refl _), rfl⟩

section cast
variable {K L : Type} [CommRing K] [CommRing L] (φ : K →+* L) {s : ℕ} (A : Fin s → Fin s → K)

mutual
theorem weight_map : ∀ (t : RTree) (i : Fin s),
    t.weight (fun i j => φ (A i j)) i = φ (t.weight A i)
  | .node ts, i => by simp only [RTree.weight]; exact weightList_map ts i
theorem weightList_map : ∀ (ts : List RTree) (i : Fin s),
    RTree.weightList (fun i j => φ (A i j)) ts i = φ (RTree.weightList A ts i)
  | [], i => by simp [RTree.weightList]
  | t :: ts, i => by
    simp only [RTree.weightList, map_mul, map_sum]
    rw [weightList_map ts i]
    congr 1
    exact Finset.sum_congr rfl fun j _ => by rw [weight_map t j]
end

theorem hasOrder_map {K L : Type} [Field K] [Field L] (φ : K →+* L) {s : ℕ} (A : Fin s → Fin s → K) {b : Fin s → K} {p : ℕ} (h : HasOrder A b p) :
    HasOrder (fun i j => φ (A i j)) (fun i => φ (b i)) p := by
  intro t ht
  have := congrArg φ (h t ht)
  simp only [map_sum, map_mul, map_div₀, map_one, map_natCast] at this
  rw [← this]
  exact Finset.sum_congr rfl fun i _ => by rw [weight_map]

end cast

/-- Horner-free evaluation of `Σ_{i<s} g i` on natural indices, for fast kernel evaluation -/
def natSum (s : ℕ) (g : ℕ → ℚ) : ℚ := (List.range s).foldl (fun acc i => acc + g i) 0

theorem natSum_eq (s : ℕ) (g : ℕ → ℚ) : natSum s g = ∑ i : Fin s, g i := by
  rw [Fin.sum_univ_eq_sum_range g]
  unfold natSum
  induction s with
  | zero => simp
  | succ s ih => rw [List.range_succ, List.foldl_append, ih, Finset.sum_range_succ]; rfl

section lists
variable {R : Type} [CommRing R] [DecidableEq R]

mutual
/-- computable weights with lists: the list of all `Φ_i` -/
def weightL (A : List (List R)) : RTree → List R
  | .node ts => weightListL A ts
/-- the same for forests -/
def weightListL (A : List (List R)) : List RTree → List R
  | [] => A.map fun _ => 1
  | t :: ts =>
    let w := weightL A t
    List.zipWith (· * ·) (A.map fun row => (List.zipWith (· * ·) row w).foldl (· + ·) 0)
      (weightListL A ts)
end

/-- check the conditions up to order `p` -/
def checkOrder (A : List (List R)) (b : List R) (p : ℕ) : Bool :=
  (treesUpTo p).all fun t =>
    (List.zipWith (· * ·) b (weightL A t)).foldl (· + ·) 0 * (t.density : R) == 1

/-- the square shape -/
def Square (s : ℕ) (A : List (List R)) : Prop := A.length = s ∧ ∀ r ∈ A, r.length = s

theorem dot_eq {s : ℕ} {u v : List R} (hu : u.length = s) (hv : v.length = s) :
    (List.zipWith (· * ·) u v).foldl (· + ·) 0 = ∑ i : Fin s, u.getD i 0 * v.getD i 0 := by
  have h1 : (List.zipWith (· * ·) u v).foldl (· + ·) 0 = (List.zipWith (· * ·) u v).sum := by
    rw [List.sum_eq_foldl]
  rw [h1]
  have h2 : List.zipWith (· * ·) u v = List.ofFn fun i : Fin s => u.getD i 0 * v.getD i 0 := by
    apply List.ext_getElem
    · simp [hu, hv]
    · intro i h1 h2
      simp at h1 h2
      simp [h1.1, h1.2]
  rw [h2, List.sum_ofFn]

mutual
theorem weightL_spec {s : ℕ} {A : List (List R)} (hA : Square s A) : ∀ t : RTree,
    (weightL A t).length = s ∧
      ∀ i : Fin s, (weightL A t).getD i 0 = t.weight (fun i j : Fin s => (A.getD i []).getD j 0) i
  | .node ts => by simp only [weightL, RTree.weight]; exact weightListL_spec hA ts
theorem weightListL_spec {s : ℕ} {A : List (List R)} (hA : Square s A) : ∀ ts : List RTree,
    (weightListL A ts).length = s ∧ ∀ i : Fin s, (weightListL A ts).getD i 0 =
      RTree.weightList (fun i j : Fin s => (A.getD i []).getD j 0) ts i
  | [] => by
    simp only [weightListL, RTree.weightList]
    refine ⟨by simp [hA.1], fun i => ?_⟩
    have : (i : ℕ) < A.length := by rw [hA.1]; exact i.2
    simp [this]
  | t :: ts => by
    obtain ⟨h1, h2⟩ := weightL_spec hA t
    obtain ⟨h3, h4⟩ := weightListL_spec hA ts
    simp only [weightListL, RTree.weightList]
    refine ⟨by simp [hA.1, h3], fun i => ?_⟩
    have hi : (i : ℕ) < A.length := by rw [hA.1]; exact i.2
    have hi3 : (i : ℕ) < (weightListL A ts).length := by rw [h3]; exact i.2
    rw [← h4 i]
    have hrow : (A.getD i []).length = s := by
      rw [List.getD_eq_getElem _ _ hi]; exact hA.2 _ (List.getElem_mem hi)
    rw [List.getD_eq_getElem _ _ (by simp [hi, hi3]), List.getElem_zipWith, List.getElem_map,
      dot_eq (hA.2 _ (List.getElem_mem hi)) h1, List.getD_eq_getElem _ _ hi3]
    congr 1
    apply Finset.sum_congr rfl
    intro j _
    rw [h2 j, List.getD_eq_getElem _ _ hi]
end

theorem density_pos : ∀ t : RTree, 0 < t.density := by
  suffices h : ∀ (k : ℕ), (∀ t : RTree, t.order ≤ k → 0 < t.density) ∧
      ∀ ts : List RTree, RTree.orderList ts ≤ k → 0 < RTree.densityList ts from
    fun t => (h t.order).1 t (le_refl _)
  intro k
  induction k with
  | zero =>
    refine ⟨fun t h => absurd (order_pos t) (by omega), fun ts h => ?_⟩
    cases ts with
    | nil => simp [RTree.densityList]
    | cons t ts => have := order_pos t; simp [RTree.orderList] at h; omega
  | succ k ih =>
    have h1 : ∀ t : RTree, t.order ≤ k + 1 → 0 < t.density := by
      rintro ⟨ts⟩ h
      simp only [RTree.order] at h
      simp only [RTree.density]
      exact Nat.mul_pos (by omega) (ih.2 ts (by omega))
    refine ⟨h1, fun ts => ?_⟩
    induction ts with
    | nil => intro; simp [RTree.densityList]
    | cons t ts ih2 =>
      intro h
      simp only [RTree.orderList] at h
      simp only [RTree.densityList]
      exact Nat.mul_pos (h1 t (by omega)) (ih2 (by omega))

/-- the check transfers along a ring homomorphism into a field of characteristic zero -/
theorem hasOrder_of_check_map {K : Type} [Field K] [CharZero K] (φ : R →+* K) {s : ℕ} {A : List (List R)} {b : List R}
    {p : ℕ} (hA : Square s A) (hb : b.length = s) (h : checkOrder A b p = true) :
    HasOrder (fun i j : Fin s => φ ((A.getD i []).getD j 0)) (fun i => φ (b.getD i 0)) p := by
  intro t ht
  have := List.all_eq_true.mp h t (mem_treesUpTo ht)
  rw [dot_eq hb (weightL_spec hA t).1] at this
  have h' := congrArg φ (eq_of_beq this)
  simp only [map_mul, map_sum, map_natCast, map_one] at h'
  rw [eq_div_iff (by exact_mod_cast (density_pos t).ne'), ← h']
  congr 1
  exact Finset.sum_congr rfl fun i _ => by rw [weight_map, (weightL_spec hA t).2 i]

theorem hasOrder_of_check {s : ℕ} {A : List (List ℚ)} {b : List ℚ} {p : ℕ} (hA : Square s A)
    (hb : b.length = s) (h : checkOrder A b p = true) :
    HasOrder (fun i j : Fin s => (A.getD i []).getD j 0) (fun i => b.getD i 0) p :=
  hasOrder_of_check_map (RingHom.id ℚ) hA hb h

end lists

/-- a tree that violates the conditions -/
theorem not_hasOrder {s : ℕ} {A : List (List ℚ)} {b : List ℚ} {p : ℕ} (hA : Square s A)
    (hb : b.length = s) (t : RTree) (ht : t.order ≤ p)
    (h : (List.zipWith (· * ·) b (weightL A t)).foldl (· + ·) 0 * (t.density : ℚ) ≠ 1) :
    ¬ HasOrder (fun i j : Fin s => (A.getD i []).getD j 0) (fun i => b.getD i 0) p := by
  intro hO
  apply h
  rw [dot_eq hb (weightL_spec hA t).1]
  have := hO t ht
  rw [eq_div_iff (by exact_mod_cast (density_pos t).ne')] at this
  rw [← this]
  congr 1
  exact Finset.sum_congr rfl fun i _ => by rw [(weightL_spec hA t).2 i]

end Verif
