import Verif.Core

/-!
# Model of my_timer.hpp and of the reports made from its results
-/

namespace Verif
namespace Timer

/-- `timeval`: seconds and microseconds since the epoch, as filled in by `gettimeofday` -/
structure Timeval where
  sec : ℤ
  usec : ℤ
  deriving DecidableEq, Repr

/-- a printed item: text or a number -/
inductive Tok (F : Type) where
  | str : String → Tok F
  | num : F → Tok F

section model
variable {F : Type} [Add F] [Sub F] [Mul F] [Div F] [Neg F] [Scalar F]

/-- `my_timer_linux::get_elapsed` (my_timer.hpp 142-149); `now` is the time `gettimeofday` returns.  The differences are of type
`long` and converted to `double` by the multiplication. -/
def getElapsed (now tic : Timeval) : F :=
  lit ((now.usec - tic.usec : ℤ) : ℚ) * lit (1 / 1000) + lit ((now.sec - tic.sec : ℤ) : ℚ) * lit 1000

/-- `my_timer_linux::toc` (my_timer.hpp 72-90): what is returned and what is printed; `out` says whether a stream is set -/
def toc (out : Bool) (tic now : Timeval) (msg post : String) : F × List (Tok F) :=
  let diffMsec : F := getElapsed now tic
  let diffSec := diffMsec * lit (1 / 1000)
  (diffMsec,
    if out then
      (if msg.isEmpty then [] else [.str msg, .str ": "]) ++
      [.num diffMsec, .str " ms elapsed (", .num diffSec, .str " s)."] ++
      (if post.isEmpty then [] else [.str " ", .str post]) ++ [.str "\n"]
    else [])

/-- the time and the unit printed by `print_performance` (examples/example_equations.cpp 251-261) -/
def perfTime (elapsed : F) : F × String :=
  if ltb (lit 1000) elapsed then (elapsed / lit 1000, "s")
  else if ltb elapsed (lit (1 / 1000)) then (elapsed * lit 1000, "us")
  else (elapsed, "ms")

end model
end Timer
end Verif
