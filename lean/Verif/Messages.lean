import Verif.Newton

/-!
# Model of newton.cpp
-/

namespace Verif

/-- `newton::status_message` (newton.cpp 6-22) -/
def statusMessage (status : ℤ) : String :=
  if status = 0 then "SUCCESS"
  else if status = 1 then "INCREMENT_DIVERGE"
  else if status = 2 then "ITERATION_ERROR_TOO_LARGE"
  else if status = 3 then "MAXIT_EXCEEDED"
  else if status = 4 then "GENERIC_ERROR"
  else "Unrecognized status code!"

end Verif
