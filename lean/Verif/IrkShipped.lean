import Verif.QuadField
import Verif.Order
import Verif.IrkTotal

/-!
# Facts about the shipped implicit tableaux, evaluated in `ℚ(√d)` and transferred to the reals
-/

set_option linter.unusedSectionVars false
set_option linter.unusedSimpArgs false

namespace Verif
open Spec

/-- the root occurring in the tableau of method `m` -/
def rootOf (m : ℤ) : ℕ := if m = 211 then 6 else if m = 231 then 5 else if m = 232 then 21 else 3

/-- `sc` is the image of the evaluated tableau `sq` (interpolation matrix excepted) -/
structure Img {d : ℕ} (sc : SolverCoeffs ℝ) (sq : SolverCoeffs (QS d)) : Prop where
  A : sc.A = sq.A.map (List.map QS.ev)
  b : sc.b = sq.b.map QS.ev
  c : sc.c = sq.c.map QS.ev
  b2 : sc.b2 = sq.b2.map QS.ev
  gamma : sc.gamma = QS.ev sq.gamma
  order : sc.order = sq.order
  order2 : sc.order2 = sq.order2

theorem ev_q {d : ℕ} (a b : ℚ) : QS.ev (q a b : QS d) = q a b := by
  rw [q, QS.ev_div_lit, QS.ev_lit]; rfl
theorem ev_nq {d : ℕ} (a b : ℚ) : QS.ev (nq a b : QS d) = nq a b := by
  rw [nq, QS.ev_div_lit, map_neg, QS.ev_lit]; rfl
theorem ev_s6 : QS.ev (ssqrt (lit 6) : QS 6) = ssqrt (lit 6) := QS.ev_sqrt (d := 6)
theorem ev_s5 : QS.ev (ssqrt (lit 5) : QS 5) = ssqrt (lit 5) := QS.ev_sqrt (d := 5)
theorem ev_s21 : QS.ev (ssqrt (lit 21) : QS 21) = ssqrt (lit 21) := QS.ev_sqrt (d := 21)
theorem ev_s3 : QS.ev (ssqrt (lit 3) : QS 3) = ssqrt (lit 3) := QS.ev_sqrt (d := 3)

theorem img_200 : Img (implicitEuler : SolverCoeffs ℝ) (implicitEuler : SolverCoeffs (QS 3)) := by
  constructor <;> simp only [implicitEuler, List.map, map_neg, map_add, map_sub, map_mul, QS.ev_lit, QS.ev_div_lit, ev_q, ev_nq]
theorem img_210 : Img (radauIIA32 : SolverCoeffs ℝ) (radauIIA32 : SolverCoeffs (QS 3)) := by
  constructor <;> simp only [radauIIA32, List.map, map_neg, map_add, map_sub, map_mul, QS.ev_lit, QS.ev_div_lit, ev_q, ev_nq]
theorem img_211 : Img (radauIIA53 : SolverCoeffs ℝ) (radauIIA53 : SolverCoeffs (QS 6)) := by
  constructor <;> simp only [radauIIA53, List.map, map_neg, map_add, map_sub, map_mul, QS.ev_lit, QS.ev_div_lit, ev_q, ev_nq, ev_s6]
theorem img_212 : Img (radauIIA95 : SolverCoeffs ℝ) (radauIIA95 : SolverCoeffs (QS 3)) := by
  constructor <;> simp only [radauIIA95, List.map, map_neg, map_add, map_sub, map_mul, QS.ev_lit, QS.ev_div_lit, ev_q, ev_nq]
theorem img_213 : Img (radauIIA137 : SolverCoeffs ℝ) (radauIIA137 : SolverCoeffs (QS 3)) := by
  constructor <;> simp only [radauIIA137, List.map, map_neg, map_add, map_sub, map_mul, QS.ev_lit, QS.ev_div_lit, ev_q, ev_nq]
theorem img_220 : Img (lobattoIIIA43 : SolverCoeffs ℝ) (lobattoIIIA43 : SolverCoeffs (QS 3)) := by
  constructor <;> simp only [lobattoIIIA43, List.map, map_neg, map_add, map_sub, map_mul, QS.ev_lit, QS.ev_div_lit, ev_q, ev_nq]
theorem img_222 : Img (lobattoIIIA127 : SolverCoeffs ℝ) (lobattoIIIA127 : SolverCoeffs (QS 3)) := by
  constructor <;> simp only [lobattoIIIA127, List.map, map_neg, map_add, map_sub, map_mul, QS.ev_lit, QS.ev_div_lit, ev_q, ev_nq]
theorem img_230 : Img (lobattoIIIC43 : SolverCoeffs ℝ) (lobattoIIIC43 : SolverCoeffs (QS 3)) := by
  constructor <;> simp only [lobattoIIIC43, List.map, map_neg, map_add, map_sub, map_mul, QS.ev_lit, QS.ev_div_lit, ev_q, ev_nq]
theorem img_231 : Img (lobattoIIIC64 : SolverCoeffs ℝ) (lobattoIIIC64 : SolverCoeffs (QS 5)) := by
  constructor <;> simp only [lobattoIIIC64, List.map, map_neg, map_add, map_sub, map_mul, QS.ev_lit, QS.ev_div_lit, ev_q, ev_nq, ev_s5]
theorem img_232 : Img (lobattoIIIC85 : SolverCoeffs ℝ) (lobattoIIIC85 : SolverCoeffs (QS 21)) := by
  constructor <;> simp only [lobattoIIIC85, List.map, map_neg, map_add, map_sub, map_mul, QS.ev_lit, QS.ev_div_lit, ev_q, ev_nq, ev_s21]
theorem img_240 : Img (gaussLegendre42 : SolverCoeffs ℝ) (gaussLegendre42 : SolverCoeffs (QS 3)) := by
  constructor <;> simp only [gaussLegendre42, List.map, map_neg, map_add, map_sub, map_mul, QS.ev_lit, QS.ev_div_lit, ev_q, ev_nq, ev_s3]
theorem img_243 : Img (gaussLegendre147 : SolverCoeffs ℝ) (gaussLegendre147 : SolverCoeffs (QS 3)) := by
  constructor <;> simp only [gaussLegendre147, List.map, map_neg, map_add, map_sub, map_mul, QS.ev_lit, QS.ev_div_lit, ev_q, ev_nq]

/-- every implemented implicit tableau is an image -/
theorem img_shipped {m : ℤ} (hm : m ∈ irkImplemented) :
    Img (irkCoeffs m : SolverCoeffs ℝ) (irkCoeffs m : SolverCoeffs (QS (rootOf m))) := by
  simp only [irkImplemented, List.mem_cons, List.not_mem_nil, or_false] at hm
  rcases hm with rfl | rfl | rfl | rfl | rfl | rfl | rfl | rfl | rfl | rfl | rfl | rfl
  · exact img_200
  · exact img_210
  · exact img_211
  · exact img_212
  · exact img_213
  · exact img_220
  · exact img_222
  · exact img_230
  · exact img_231
  · exact img_232
  · exact img_240
  · exact img_243

section lists
variable {R : Type} [CommRing R]

/-- entry of a matrix given by rows -/
def ent (A : List (List R)) (i j : ℕ) : R := (A.getD i []).getD j 0

/-- `Σ_{i<s} g i` -/
def sumR (s : ℕ) (g : ℕ → R) : R := ((List.range s).map g).sum

theorem sumR_eq (s : ℕ) (g : ℕ → R) : sumR s g = ∑ i : Fin s, g i := by
  rw [Fin.sum_univ_eq_sum_range g, sumR]
  induction s with
  | zero => simp
  | succ s ih => rw [List.range_succ, List.map_append, List.sum_append, ih, Finset.sum_range_succ]; simp

/-- one column of Gauss–Jordan elimination, pivot on the diagonal -/
def gjStep [Div R] (M : List (List R)) (k : ℕ) : List (List R) :=
  let p := ent M k k
  let pr := (M.getD k []).map (· / p)
  (List.range M.length).map fun i =>
    if i = k then pr
    else
      let f := ent M i k
      List.zipWith (fun x y => x - f * y) (M.getD i []) pr

/-- a candidate for the inverse, checked afterwards -/
def gjInv [Div R] (s : ℕ) (A : List (List R)) : List (List R) :=
  let M := (List.range s).map fun i => A.getD i [] ++ (List.range s).map fun j => if i = j then 1 else 0
  ((List.range s).foldl gjStep M).map (List.drop s)

/-- `A * B = 1` -/
def isInv [DecidableEq R] (s : ℕ) (A B : List (List R)) : Bool :=
  (List.range s).all fun i => (List.range s).all fun k =>
    sumR s (fun j => ent A i j * ent B j k) == if i = k then 1 else 0

end lists

/-- shape, order, row sums -/
def baseOK {d : ℕ} (sq : SolverCoeffs (QS d)) : Bool :=
  sq.A.length == sq.ns && sq.A.all (·.length == sq.ns) && sq.c.length == sq.ns && !sq.b.isEmpty

def rowSumsOK {d : ℕ} (sq : SolverCoeffs (QS d)) : Bool :=
  (List.range sq.ns).all fun i => sumR sq.ns (fun j => ent sq.A i j) == sq.c.getD i 0

theorem baseOK_shipped : ∀ m ∈ irkImplemented, baseOK (irkCoeffs m : SolverCoeffs (QS (rootOf m))) = true := by
  decide +kernel

/-- the methods with closed-form coefficients -/
def closedForm : List ℤ := [200, 210, 211, 220, 230, 231, 232, 240]

theorem rowSums_shipped : ∀ m ∈ closedForm, rowSumsOK (irkCoeffs m : SolverCoeffs (QS (rootOf m))) = true := by
  decide +kernel

/-- the methods with an invertible matrix and embedded weights -/
def irkUsable : List ℤ := [210, 211, 212, 213, 230, 231, 232]

theorem isInv_shipped : ∀ m ∈ irkUsable,
    isInv (irkCoeffs m : SolverCoeffs (QS (rootOf m))).ns (irkCoeffs m : SolverCoeffs (QS (rootOf m))).A
      (gjInv (irkCoeffs m : SolverCoeffs (QS (rootOf m))).ns (irkCoeffs m : SolverCoeffs (QS (rootOf m))).A) = true := by
  decide +kernel

section facts
variable {d : ℕ} {sc : SolverCoeffs ℝ} {sq : SolverCoeffs (QS d)}

theorem Img.ns (h : Img sc sq) : sc.ns = sq.ns := by
  rw [SolverCoeffs.ns, h.b, List.length_map]; rfl

theorem Img.sum (h : Img sc sq) (g : ℕ → ℝ) : ∑ j : Fin sc.ns, g j = ∑ j : Fin sq.ns, g j := by
  rw [Fin.sum_univ_eq_sum_range g, Fin.sum_univ_eq_sum_range g, h.ns]

theorem Img.a (h : Img sc sq) (i j : ℕ) : sc.a i j = QS.ev (ent sq.A i j) := by
  rw [SolverCoeffs.a, h.A, ent, show ([] : List ℝ) = List.map (QS.ev (d := d)) [] from rfl, List.getD_map,
    show (lit 0 : ℝ) = QS.ev (0 : QS d) by simp, List.getD_map]

theorem Img.bw (h : Img sc sq) (i : ℕ) : sc.bw i = QS.ev (sq.b.getD i 0) := by
  rw [SolverCoeffs.bw, h.b, show (lit 0 : ℝ) = QS.ev (0 : QS d) by simp, List.getD_map]

theorem Img.bw2 (h : Img sc sq) (i : ℕ) : sc.bw2 i = QS.ev (sq.b2.getD i 0) := by
  rw [SolverCoeffs.bw2, h.b2, show (lit 0 : ℝ) = QS.ev (0 : QS d) by simp, List.getD_map]

theorem Img.cn (h : Img sc sq) (i : ℕ) : sc.cn i = QS.ev (sq.c.getD i 0) := by
  rw [SolverCoeffs.cn, h.c, show (lit 0 : ℝ) = QS.ev (0 : QS d) by simp, List.getD_map]

theorem Img.shape (h : Img sc sq) (hb : baseOK sq = true) :
    sc.nRows = sc.ns ∧ sc.nCols = sc.ns ∧ sc.c.length = sc.ns ∧ 0 < sc.ns ∧ Square sq.ns sq.A := by
  simp only [baseOK, Bool.and_eq_true, beq_iff_eq, List.all_eq_true, Bool.not_eq_true', List.isEmpty_eq_false_iff] at hb
  obtain ⟨⟨⟨h1, h2⟩, h3⟩, h4⟩ := hb
  have hp : 0 < sq.ns := List.length_pos_iff.2 h4
  rw [h.ns]
  refine ⟨?_, ?_, ?_, hp, h1, h2⟩
  · rw [SolverCoeffs.nRows, h.A, List.length_map, h1]
  · rw [SolverCoeffs.nCols, h.A]
    cases hA : sq.A with
    | nil => rw [hA] at h1; simp at h1; omega
    | cons r l => simp [h2 r (by rw [hA]; simp)]
  · rw [h.c, List.length_map, h3]

theorem Img.rowSums (h : Img sc sq) (hr : rowSumsOK sq = true) (i : Fin sc.ns) :
    ∑ j : Fin sc.ns, sc.a i j = sc.cn i := by
  simp only [rowSumsOK, List.all_eq_true, List.mem_range, beq_iff_eq, sumR_eq] at hr
  have := congrArg QS.ev (hr i (by rw [← h.ns]; exact i.2))
  rw [map_sum] at this
  simp only [h.a, h.cn, ← this]
  exact h.sum fun j => QS.ev (ent sq.A i j)

theorem Img.hasOrder (h : Img sc sq) (hb : baseOK sq = true) {p : ℕ} (hc : checkOrder sq.A sq.b p = true) :
    HasOrder (fun i j : Fin sc.ns => sc.a i j) (fun i => sc.bw i) p := by
  have := hasOrder_of_check_map (K := ℝ) QS.ev (h.shape hb).2.2.2.2 (rfl : sq.b.length = sq.ns) hc
  simp only [h.a, h.bw]
  have e := h.ns
  generalize sc.ns = s at *
  subst e
  exact this

theorem Img.invertible (h : Img sc sq) {B : List (List (QS d))} (hi : isInv sq.ns sq.A B = true) :
    IsUnit (Matrix.of sc.mat).det := by
  simp only [isInv, List.all_eq_true, List.mem_range, beq_iff_eq, sumR_eq] at hi
  have : Matrix.of sc.mat * Matrix.of (fun i j : Fin sc.ns => QS.ev (ent B i j)) = 1 := by
    ext i k
    rw [Matrix.mul_apply, Matrix.one_apply]
    have := congrArg QS.ev (hi i (by rw [← h.ns]; exact i.2) k (by rw [← h.ns]; exact k.2))
    simp only [map_sum, map_mul] at this
    simp only [Matrix.of_apply, SolverCoeffs.mat, h.a]
    rw [h.sum fun j => QS.ev (ent sq.A i j) * QS.ev (ent B j k), this]
    by_cases e : (i : ℕ) = k
    · simp [Fin.ext_iff, e]
    · simp [Fin.ext_iff, e]
  exact Matrix.isUnit_det_of_right_inverse this

end facts

/-- the usable methods get `irk_guts` into its loop -/
theorem usable_shipped {m : ℤ} (hm : m ∈ irkUsable) : Usable (irkCoeffs m : SolverCoeffs ℝ) := by
  have hI : m ∈ irkImplemented := by
    have : ∀ m ∈ irkUsable, m ∈ irkImplemented := by decide
    exact this m hm
  have img := img_shipped hI
  obtain ⟨s1, s2, s3, -, -⟩ := img.shape (baseOK_shipped m hI)
  have ho : ∀ m ∈ irkUsable, (minOrder (irkCoeffs m : SolverCoeffs (QS (rootOf m)))).isSome = true := by decide +kernel
  have hb : ∀ m ∈ irkUsable, (irkCoeffs m : SolverCoeffs (QS (rootOf m))).b2.length =
    (irkCoeffs m : SolverCoeffs (QS (rootOf m))).ns := by decide +kernel
  refine ⟨?_, s1, s2, s3.ge, ?_, img.invertible (isInv_shipped m hm)⟩
  · have := ho m hm
    rw [Option.isSome_iff_exists] at this
    obtain ⟨mo, h⟩ := this
    refine ⟨mo, ?_⟩
    rw [← h, minOrder, minOrder, img.order, img.order2]
  · rw [img.b2, List.length_map, hb m hm, img.ns]

end Verif
