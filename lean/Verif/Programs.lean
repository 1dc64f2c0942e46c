import Verif.CyclicBuffer
import Verif.Timer
import Verif.Interp
import Verif.Stability
import Verif.Example

/-!
# Model of the reports and of the small programs around the integrators

Text is a list of strings and numbers (`Timer.Tok`); how a number is turned into characters is not modelled.
-/

namespace Verif
open Timer (Tok)

section model
variable {F : Type} [Add F] [Sub F] [Mul F] [Div F] [Neg F] [Scalar F]

/-- a line of `print_timing_breakdown` (irk.hpp 334-341): the time `t` and `100.0*t/total` -/
def timingLine (total t : F) : F × F := (t, lit 100 * t / total)

/-- `print_timing_breakdown` (irk.hpp 328-360): the unit and the seven lines, the total first.  `timings[5]` of a shorter vector is
undefined. -/
def timingBreakdown (timings : List F) : Outcome (String × List (F × F)) :=
  let total0 := timings.foldl (· + ·) (lit 0)
  let scale : F := if ltb (lit 1000) total0 then lit (1 / 10000) else lit 1
  let unit := if ltb (lit 1000) total0 then " s" else "ms"
  let total := total0 * scale
  if timings.length < 6 then .ub
  else .ret (unit, timingLine total total :: (timings.take 6).map fun t => timingLine total (scale * t))

/-- `erk::project_b` (erk.cpp 281-299): line for line the function of irk.cpp, applied to the coefficients of an explicit method -/
def erkProjectB (nd : Bool) (theta : F) (sc : SolverCoeffs F) : Outcome (List F) :=
  if !nd && (sc.bInterp.length == 0 || (sc.bInterp.headD []).length == 0) then .assertFail
  else if (sc.bInterp.headD []).length ≠ sc.ns then .throws
  else .ret (sc.bInterp.map fun row =>
    sumRange sc.ns fun j => row.getD j (lit 0) * tpow theta (sc.ns - 1 - j))

/-- `print_output` (example_equations.cpp 196-207): one line per time.  `y_vals[n]` is not checked. -/
def printOutput {n : ℕ} (tVals : List F) (yVals : List (Vec F n)) : Outcome (List (F × List F)) :=
  if yVals.length < tVals.length then .ub
  else .ret ((tVals.zip yVals).map fun p => (p.1, (List.finRange n).map p.2))

/-- `operator<<` for `irk::solver_coeffs` (irk.cpp 809-837): rows `c_i | A(i,0) ...`, then `b`, then `b2` if there is one.  Armadillo
checks the indices of `A(i,j)` (line 816).  `name` is the member `sc.name`. -/
def printCoeffs (name : String) (sc : SolverCoeffs F) : Outcome (List (Tok F)) :=
  if sc.c ≠ [] ∧ sc.b ≠ [] ∧ (sc.A.length < sc.c.length ∨ (sc.A.headD []).length < sc.b.length) then .throws
  else
    .ret ([.str name, .str "\n"] ++
      (List.range sc.c.length).flatMap (fun i =>
        [.num (sc.c.getD i (lit 0)), .str " | "] ++
          (List.range sc.b.length).flatMap (fun j => [.str " ", .num (sc.a i j)]) ++ [.str "\n"]) ++
      [.str "rule\n", .str " | "] ++ sc.b.flatMap (fun x => [.str " ", .num x]) ++ [.str "\n"] ++
      (if sc.b2.length = 0 then [] else [.str " | "] ++ sc.b2.flatMap (fun x => [.str " ", .num x]) ++ [.str "\n"]))

end model

/-- `operator<<` for a coefficient list (irk.cpp 58-71) -/
def printList (c : CoeffList) : List (Tok ℤ) :=
  [.str " { "] ++
  ((List.range c.length).flatMap fun i =>
    [.str "{"] ++ (c.getD i []).flatMap (fun x => [.str " ", .num x]) ++ [.str " }"] ++ if i < c.length - 1 then [.str ", "] else []) ++
  [.str " }"]

/-- `to_fixed_w_string` (newton.hpp 155-173).  `s` is the text of the number; `std::setw(wide)` (line 161) fills it up with blanks on the
left.  The result, and whether the message of line 165 is printed. -/
def toFixedW (s : List Char) (wide : ℕ) (c : Char) : List Char × Bool :=
  let s := List.replicate (wide - s.length) ' ' ++ s
  if wide < s.length then (s, true) else (s ++ List.replicate (wide - s.length) c, false)

/-- `cyclic_buffer::iterator` (cyclic_buffer.hpp 131-159): the index, `none` while it has no value.  `it_` has the same fate and is left
out. -/
structure CIter where
  idx : Option ℤ

namespace CIter
variable {T : Type}

/-- the constructor (cyclic_buffer.hpp 133) has an empty body: neither member is initialised -/
def make (_idx : ℤ) : CIter := ⟨none⟩

/-- `operator++` (cyclic_buffer.hpp 136-140) -/
def next (i : CIter) : Outcome CIter :=
  match i.idx with
  | none => .ub
  | some k => .ret ⟨some (k - 1)⟩

/-- `operator!=` (cyclic_buffer.hpp 146-149) -/
def ne (i j : CIter) : Outcome Bool :=
  match i.idx, j.idx with
  | some a, some b => .ret (decide (b ≠ a))
  | _, _ => .ub

/-- `operator*` (cyclic_buffer.hpp 151-155) -/
def deref (st : List T) (i : CIter) : Outcome T :=
  match i.idx with
  | some k => if 0 ≤ k then CBuf.readAt st k.toNat else .ub
  | none => .ub

/-- `begin()` (cyclic_buffer.hpp 161-164) -/
def first (b : CBuf T) : CIter := make b.current

/-- the iterator made by `end()` (cyclic_buffer.hpp 166-173); its effect on the buffer is `CBuf.endEffect` -/
def last (b : CBuf T) : CIter := if b.period ≤ b.current then make b.period else make 0

/-- `for (auto it = b.begin(); it != b.end(); ++it) l.push_back(*it);` (cyclic_buffer.hpp 131-173, as a caller would write it) -/
def walk : ℕ → CBuf T → CIter → List T → Option (Outcome (List T))
  | 0, _, _, _ => none
  | k + 1, b, i, l =>
    match ne i (last b) with
    | .ret false => some (.ret l)
    | .ret true =>
      let b' := b.endEffect
      match deref b'.storage i, next i with
      | .ret x, .ret i' => walk k b' i' (l ++ [x])
      | _, _ => some .ub
    | _ => some .ub

end CIter

/-- `print_internal_state` (cyclic_buffer.hpp 196-211): period, current index, and the storage with a mark behind the current entry -/
def CBuf.printState {T : Type} (b : CBuf T) : ℕ × ℕ × List (T × Bool) :=
  (b.period, b.current, (List.range b.storage.length).zip b.storage |>.map fun p => (p.2, decide (b.current = p.1)))

/-- the status that `run_batch` (example_equations.cpp 449) makes of the four statuses -/
def batchStatus (tb l r v : ℤ) : ℤ := Int.land (Int.land (Int.land tb l) r) v

/-- the options of `run_batch` (example_equations.cpp 435-437) -/
def batchOpts {F : Type} [Lit F] : UserOpts F := { UserOpts.dflt with method := "LOBATTO_IIIC_85", outInterval := 1000 }

/-- `run_batch` (example_equations.cpp 417-450), up to the first call that does not return.  The first problem is the three-body problem with
masses 1, 1, 1000; the values of `status_L`, `status_R` and `status_V` are parameters because the last call passes three initial values to a
two-dimensional problem, which the types of the model exclude. -/
def runBatch {F : Type} [Add F] [Sub F] [Mul F] [Div F] [Neg F] [Scalar F] (nd : Bool) (la : LinAlg F) (y0 : Vec F 12)
    (rest : Outcome (ℤ × ℤ × ℤ)) (fuel : ℕ) : Option (Outcome ℤ) :=
  (intEquation nd la (TestEq.threeBody (lit 1) (lit 1) (lit 1000)) batchOpts y0 fuel).map fun x =>
    x.bind fun tb => rest.bind fun (l, r, v) => .ret (batchStatus tb l r v)

/-- what the stability program has written: the two regions and the table -/
structure StabFiles where
  region : List (ℝ × ℝ × ℝ)
  embedded : List (ℝ × ℝ × ℝ)
  limit : List (ℝ × ℝ × ℝ)

/-- `main` of stability_region/main.cpp (139-174): exit status and files; `args` are the arguments after the program's name.  Whether the
files can be opened is not modelled. -/
noncomputable def stabilityMain (args : List String) : Outcome (ℤ × Option StabFiles) :=
  match args with
  | [] => .ret (-1, none)
  | name :: _ =>
    (if irkNamed name ≠ 0 then printCoeffs name (irkCoeffs (irkNamed name) : SolverCoeffs ℝ) else .ret []) >>= fun _ =>
    stabilityRegion name false >>= fun r =>
    stabilityRegion name true >>= fun e =>
    stabilityLimit name >>= fun l => .ret (0, some ⟨r, e, l⟩)

end Verif
