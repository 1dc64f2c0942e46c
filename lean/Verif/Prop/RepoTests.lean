import Verif.Prop.CyclicBuffer
import Verif.Prop.Interp
import Verif.Prop.IrkOrder
import Verif.Prop.Newton
import Verif.Programs
import Verif.FP
import Verif.TestEq

/-!
# The assertions of the repository's test programs, evaluated on the model

These are checks of the transcription: every `REQUIRE` of test/cyclic_vector.cpp, of test/test_interpolate.cpp, of test/test_test_equations.cpp and of the
test cases poly-expand, collocation and sol_merge of test/irk.cpp holds in the model, in binary64 where the test compares doubles.
-/

namespace Verif.RepoTests
open FP

/-! ### test/cyclic_vector.cpp -/

/-- what the test requires of a buffer: its size and its elements, the newest first -/
def holds (o : Outcome (CBuf ℤ)) (l : List ℤ) : Bool :=
  match o with
  | .ret b => b.size == l.length && b.isEmpty == l.isEmpty &&
      (List.range l.length).all fun i => match CBuf.index false b i with | .ret x => l[i]? == some x | _ => false
  | _ => false

/-- cyclic_vector.cpp 9-46: the sizes and elements at the points where the test looks, and after the four 9s at its end -/
theorem cyclic_vector :
    holds (CBuf.history 0 5 []) [] = true ∧ holds (CBuf.history 0 5 [1, 2, 3]) [3, 2, 1] = true ∧
    holds (CBuf.history 0 5 [1, 2, 3, 4, 5]) [5, 4, 3, 2, 1] = true ∧
    holds (CBuf.history 0 5 [1, 2, 3, 4, 5, 1, 2]) [2, 1, 5, 4, 3] = true ∧
    holds (CBuf.history 0 5 [1, 2, 3, 4, 5, 1, 2, 9, 9, 9, 9]) [9, 9, 9, 9, 2] = true := by decide

/-! ### test/irk.cpp, poly-expand -/

/-- irk.cpp 31-53, 58-96, 102-126 -/
theorem poly_expand :
    expand [[1], [2]] [[3], [4]] = [[1, 3], [1, 4], [2, 3], [2, 4]] ∧
    expand (expand [[1], [2]] [[3], [4]]) [[5], [6]] =
      [[1, 3, 5], [1, 3, 6], [1, 4, 5], [1, 4, 6], [2, 3, 5], [2, 3, 6], [2, 4, 5], [2, 4, 6]] ∧
    expand [[1], [2], [3]] [[4], [5]] = [[1, 4], [1, 5], [2, 4], [2, 5], [3, 4], [3, 5]] := by decide

/-! ### Comparisons of doubles -/

/-- a library function; none of the tests below uses `pow` -/
@[instance_reducible] def noPow : Libm := ⟨fun _ _ => FP.nan⟩

attribute [local instance] noPow

/-- `a == Catch::Approx(b)` (catch_approx.cpp): `|a - b| <= 100 FLT_EPSILON |b|`, evaluated here without rounding -/
def approx (a b : FP) : Bool := a.isFinite && b.isFinite && decide (|a.val - b.val| ≤ 100 / 2 ^ 23 * |b.val|)

/-- `bs(i) == Approx(l(i))` for all i -/
def allApprox (o : Outcome (List FP)) (l : List FP) : Bool :=
  match o with
  | .ret bs => bs.length == l.length && (bs.zip l).all fun p => approx p.1 p.2
  | _ => false

/-! ### test/test_interpolate.cpp -/

/-- test_interpolate.cpp 9-21: RADAU_IIA_32 in binary64 -/
theorem interpolate_32 :
    allApprox (projectB false (lit 1) (irkCoeffs 210)) [lit 3 / lit 4, lit 1 / lit 4] = true ∧
    allApprox (projectB false (lit 1 / lit 3) (irkCoeffs 210)) [lit 5 / lit 12, -lit 1 / lit 12] = true := by
  decide +kernel

/-- test_interpolate.cpp 23-40: RADAU_IIA_53 in binary64 -/
theorem interpolate_53 :
    allApprox (projectB false (lit 1) (irkCoeffs 211)) (irkCoeffs 211).b = true ∧
    (∀ i ∈ [0, 1], allApprox (projectB false ((irkCoeffs 211).c.getD i (lit 0)) (irkCoeffs 211)) ((irkCoeffs 211).A.getD i []) = true) := by
  decide +kernel

/-- the same for the methods the test does not mention, and for the last node -/
theorem interpolate_more : ∀ m ∈ ([210, 211, 212, 213, 232] : List ℤ),
    allApprox (projectB false (lit 1) (irkCoeffs m)) (irkCoeffs m).b = true := by
  decide +kernel

/-! ### test/irk.cpp, collocation -/

/-- irk.cpp 157-173: the row sums of the collocation matrix of RADAU_IIA_32 are the weights, in binary64 -/
theorem collocation_32 : ∃ B, collocInterp false (irkCoeffs 210 : SolverCoeffs FP).c = .ret B ∧
    ∀ i ∈ [0, 1], approx ((irkCoeffs 210 : SolverCoeffs FP).b.getD i (lit 0))
      ((lit 0 + (B.getD i []).getD 0 (lit 0)) + (B.getD i []).getD 1 (lit 0)) = true :=
  ⟨collocMat (irkCoeffs 210 : SolverCoeffs FP).c, (collocInterp_ret false _).1, by decide +kernel⟩

/-- irk.cpp 176-186: the other two sections only compute the matrices -/
theorem collocation_more : ∀ m ∈ ([211, 212] : List ℤ), ∃ B, collocInterp false (irkCoeffs m : SolverCoeffs FP).c = .ret B :=
  fun _ _ => ⟨_, (collocInterp_ret false _).1⟩

/-! ### test/irk.cpp, sol_merge -/

/-- irk.cpp 195-224 -/
theorem sol_merge {F : Type} [Add F] [Sub F] [Mul F] [Div F] [Neg F] [Scalar F] {m n : ℕ} (sol1 sol2 : IrkOutput F m n) (a b c d e f : F)
    (u v w x y z : Vec F n) (h1 : sol1.tVals = [a, b, c]) (h2 : sol2.tVals = [d, e, f]) (h3 : sol1.yVals = [u, v, w])
    (h4 : sol2.yVals = [x, y, z]) :
    (mergeIrk sol1 sol2).tVals = [a, b, c, d, e, f] ∧ (mergeIrk sol1 sol2).yVals = [u, v, w, x, y, z] := by
  obtain ⟨e1, e2, -⟩ := C48_merge_partial sol1 sol2
  rw [e1, e2, h1, h2, h3, h4]
  exact ⟨rfl, rfl⟩

/-- irk.cpp 226-250: the same check on two legs of a run, whatever the runs returned -/
theorem sol_merge_run {F : Type} [Add F] [Sub F] [Mul F] [Div F] [Neg F] [Scalar F] {m n : ℕ} (sol1 sol2 : IrkOutput F m n) (i : ℕ) :
    (mergeIrk sol1 sol2).tVals[i]? = if i < sol1.tVals.length then sol1.tVals[i]? else sol2.tVals[i - sol1.tVals.length]? := by
  rw [(C48_merge_partial sol1 sol2).1, List.getElem?_append]

/-! ### test/test_test_equations.cpp -/

/-- `newton_functor_wrapper` (newton.hpp): an equation at a fixed time -/
def wrap {F : Type} {n : ℕ} (e : OdeFun F n) (t : F) : NFun F n := ⟨e.fn t, e.jac t⟩

/-- every `REQUIRE(verify_jacobi_matrix(y0, nw))` holds in binary64, for every equation, time and state; so the test cannot fail (C34), and it does not
notice the wrong matrix of the three-body problem (C55) -/
theorem test_equations {n : ℕ} (e : OdeFun FP n) (t : FP) (y : Vec FP n) : verifyJacobi (wrap e t) y = true :=
  C34_always_true (by decide +kernel) _ _

end Verif.RepoTests
