import Verif.Core

/-!
# Model of options.hpp (`output_options`)
-/

namespace Verif

/-- `output_options` (options.hpp 93-133).  `std::size_t output_mode` is a 64-bit word; `streamSet` says whether
the pointer `output_stream` (uninitialised by default, line 107) has been set.  `log_out` is not
modelled. -/
structure OutOpts where
  mode : BitVec 64
  interval : BitVec 64
  streamSet : Bool
  deriving DecidableEq

namespace OutOpts

/-- default member initialisers (options.hpp 103-106): `STORE_IN_VECTORS = 1` -/
def dflt : OutOpts := { mode := 1, interval := 1, streamSet := false }

/-- `store_in_vectors()` (options.hpp 108-111): bit `1 << 0` -/
def storeInVectors (o : OutOpts) : Bool := (o.mode &&& (1#64 <<< (1 - 1))) != 0

/-- `write_to_file()` (options.hpp 112-115): bit `1 << 1` -/
def writeToFile (o : OutOpts) : Bool := (o.mode &&& (1#64 <<< (2 - 1))) != 0

/-- `set_output_stream` (options.hpp 117-121) -/
def setOutputStream (o : OutOpts) : OutOpts :=
  { o with streamSet := true, mode := o.mode ||| (1#64 <<< (2 - 1)) }

/-- `enable_store_in_vectors` (options.hpp 124-127) -/
def enableStore (o : OutOpts) : OutOpts := { o with mode := o.mode ||| (1#64 <<< (1 - 1)) }

/-- `disable_store_in_vectors` (options.hpp 128-131).  `~(1 << 0)` is computed in `int` (-2) and converted to
`std::size_t`, i.e. all bits but the lowest. -/
def disableStore (o : OutOpts) : OutOpts := { o with mode := o.mode &&& ~~~(1#64 <<< (1 - 1)) }

/-- The mutating calls. -/
inductive Call where
  | setStream | enable | disable
  deriving DecidableEq

/-- effect of one call -/
def apply (o : OutOpts) : Call → OutOpts
  | .setStream => o.setOutputStream
  | .enable => o.enableStore
  | .disable => o.disableStore

/-- effect of a call sequence -/
def after (o : OutOpts) (cs : List Call) : OutOpts := cs.foldl apply o

end OutOpts
end Verif
