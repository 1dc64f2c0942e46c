import Verif.Methods
import Verif.TestEq

/-!
# Model of examples/example_equations.cpp

The driver program: command line, choice of equation and method, exit status.  Messages on `std::cerr`, the performance
report and the opening of the output file are not modelled (writing to a stream that failed to open has no effect on the
exit status).  `run_batch` (417-449) is called by nobody.
-/

set_option linter.unusedSectionVars false

namespace Verif

/-- what the C++ library does with text: `std::stof`, `std::stoi` (`none`: an exception is thrown) and the numeric
`operator>>` on one word (`none`: the word is not a number).  Simplification: an extraction consumes a whole word. -/
structure TextNum (F : Type) where
  stof : String → Option F
  stoi : String → Option ℤ
  word : String → Option F

/-- `user_options` (example_equations.cpp 40-53).  The constructor does not initialise `time_internals`, so the member is
`none` until it is set. -/
structure UserOpts (F : Type) where
  eq : String
  method : String
  t0 : F
  t1 : F
  dt : F
  relTol : F
  absTol : F
  timeInternals : Option Bool
  outInterval : ℤ
  outputFname : String

/-- the standard input: the words not read yet and whether an extraction has failed (`std::cin` in
example_equations.cpp 183-189 and 316-338) -/
structure Stdin where
  words : List String
  failed : Bool := false

section parsing
variable {F : Type}

/-- default constructor (example_equations.cpp 41-43) -/
def UserOpts.dflt [Lit F] : UserOpts F :=
  { eq := "exponential", method := "LOBATTO_IIIC_85", t0 := lit 0, t1 := lit 10, dt := lit (1 / 10 ^ 2),
    relTol := lit (1 / 10 ^ 5), absTol := lit (1 / 10 ^ 4), timeInternals := none, outInterval := 0, outputFname := "" }

/-- how one pass of the loop of `parse_opts` (example_equations.cpp 87-180) ends -/
inductive ParseStep (F : Type) where
  | stop (r : Outcome (ℤ × UserOpts F))
  | go (rest : List String) (u : UserOpts F)

/-- an option that takes one value (the pattern of example_equations.cpp 95-102): status -1 if there is none.  `set` is `none` if
the conversion throws. -/
def needOne (rest : List String) (u : UserOpts F) (set : String → Option (UserOpts F)) : ParseStep F :=
  match rest with
  | [] => .stop (.ret (-1, u))
  | v :: rest' =>
    match set v with
    | none => .stop .throws
    | some u' => .go rest' u'

/-- one pass of the loop of `parse_opts` (example_equations.cpp 91-176) on `argv[i] = arg` with `rest` the arguments after it.  The
branch for `--out-interval` (142-148) reports a missing value but does not return: `argv[i+1]` is then the null pointer
`argv[argc]`, from which `std::stoi` constructs a `std::string`, which is undefined. -/
def parseOne (e : TextNum F) (arg : String) (rest : List String) (u : UserOpts F) : ParseStep F :=
  if arg = "-h" ∨ arg = "--help" then .stop (.ret (1, u))
  else if arg = "--equation" then needOne rest u fun v => some { u with eq := v }
  else if arg = "--method" then needOne rest u fun v => some { u with method := v }
  else if arg = "--time-span" then
    match rest with
    | a :: b :: rest' =>
      match e.stof a with
      | none => .stop .throws
      | some x =>
        match e.stof b with
        | none => .stop .throws
        | some y => .go rest' { u with t0 := x, t1 := y }
    | _ => .stop (.ret (-1, u))
  else if arg = "--dt" then needOne rest u fun v => (e.stof v).map fun x => { u with dt := x }
  else if arg = "--rel-tol" then needOne rest u fun v => (e.stof v).map fun x => { u with relTol := x }
  else if arg = "--abs-tol" then needOne rest u fun v => (e.stof v).map fun x => { u with absTol := x }
  else if arg = "--out-interval" then
    match rest with
    | [] => .stop .ub
    | v :: rest' =>
      match e.stoi v with
      | none => .stop .throws
      | some k => .go rest' { u with outInterval := k }
  else if arg = "--time-internals" then
    match rest with
    | [] => .stop (.ret (-1, u))
    | v :: rest' =>
      match e.stoi v with
      | none => .stop .throws
      | some k => if k ≠ 0 ∧ k ≠ 1 then .stop (.ret (-2, u)) else .go rest' { u with timeInternals := some (k != 0) }
  else if arg = "--output-file" then needOne rest u fun v => some { u with outputFname := v }
  else .stop (.ret (-1, u))

theorem needOne_shorter {rest : List String} {u u' : UserOpts F} {set : String → Option (UserOpts F)} {r : List String}
    (h : needOne rest u set = .go r u') : r.length < rest.length + 1 := by
  unfold needOne at h
  split at h
  · cases h
  · split at h
    · cases h
    · cases h; simp only [List.length_cons]; omega

theorem parseOne_shorter {e : TextNum F} {arg : String} {rest : List String} {u u' : UserOpts F} {r : List String}
    (h : parseOne e arg rest u = .go r u') : r.length < rest.length + 1 := by
  unfold parseOne at h
  by_cases h0 : arg = "-h" ∨ arg = "--help"
  · rw [if_pos h0] at h; cases h
  rw [if_neg h0] at h
  by_cases h1 : arg = "--equation"
  · rw [if_pos h1] at h; exact needOne_shorter h
  rw [if_neg h1] at h
  by_cases h2 : arg = "--method"
  · rw [if_pos h2] at h; exact needOne_shorter h
  rw [if_neg h2] at h
  by_cases h3 : arg = "--time-span"
  · rw [if_pos h3] at h
    split at h
    · split at h
      · cases h
      · split at h
        · cases h
        · cases h; simp only [List.length_cons]; omega
    · cases h
  rw [if_neg h3] at h
  by_cases h4 : arg = "--dt"
  · rw [if_pos h4] at h; exact needOne_shorter h
  rw [if_neg h4] at h
  by_cases h5 : arg = "--rel-tol"
  · rw [if_pos h5] at h; exact needOne_shorter h
  rw [if_neg h5] at h
  by_cases h6 : arg = "--abs-tol"
  · rw [if_pos h6] at h; exact needOne_shorter h
  rw [if_neg h6] at h
  by_cases h7 : arg = "--out-interval"
  · rw [if_pos h7] at h
    split at h
    · cases h
    · split at h
      · cases h
      · cases h; simp only [List.length_cons]; omega
  rw [if_neg h7] at h
  by_cases h8 : arg = "--time-internals"
  · rw [if_pos h8] at h
    split at h
    · cases h
    · split at h
      · cases h
      · split at h
        · cases h
        · cases h; simp only [List.length_cons]; omega
  rw [if_neg h8] at h
  by_cases h9 : arg = "--output-file"
  · rw [if_pos h9] at h; exact needOne_shorter h
  rw [if_neg h9] at h
  cases h

/-- `parse_opts` (example_equations.cpp 87-180) on `argv[1..argc-1]`; the returned status with the options as they are then -/
def parseOpts (e : TextNum F) (args : List String) (u : UserOpts F) : Outcome (ℤ × UserOpts F) :=
  match args with
  | [] => .ret (0, u)
  | arg :: rest =>
    match _h : parseOne e arg rest u with
    | .stop r => r
    | .go r u' => parseOpts e r u'
  termination_by args.length
  decreasing_by
    have := parseOne_shorter (by assumption)
    simpa using this

end parsing

section model
variable {F : Type} [Add F] [Sub F] [Mul F] [Div F] [Neg F] [Scalar F]

/-- `set_irk_options` (example_equations.cpp 210-221) applied to default options; `out_interval` and `time_internals` only steer logging -/
def setIrkOptions (u : UserOpts F) : IrkOpts F :=
  { IrkOpts.dflt with
    relTol := u.relTol
    absTol := u.absTol
    newtonOpts := some { NewtonOpts.dflt with tol := lit (1 / 10) * cmin u.relTol u.absTol } }

/-- `set_erk_options` (example_equations.cpp 224-230) applied to default options -/
def setErkOptions (u : UserOpts F) : ErkOpts F := { ErkOpts.dflt with relTol := u.relTol, absTol := u.absTol }

/-- the output options (example_equations.cpp 270-277) -/
def exampleOut (u : UserOpts F) : OutOpts :=
  if u.outputFname = "" then OutOpts.dflt else OutOpts.dflt.setOutputStream.disableStore

/-- exit status from the result of a run (example_equations.cpp 288-293, 302-308).  On success `print_performance` (248-264)
reads `accept_frac`, which is undefined while it is not initialised; `elapsed_time` is assigned together with it. -/
def exitOf {α : Type} (status : α → ℤ) (frac : α → Option F) : Outcome α → Outcome ℤ
  | .ret out =>
    if status out ≠ 0 then .ret 2
    else
      match frac out with
      | none => .ub
      | some _ => .ret 0
  | .assertFail => .assertFail
  | .throws => .throws
  | .ub => .ub

/-- `int_equation` (example_equations.cpp 267-312), called with fresh name tables.  `set_irk_options` and `set_erk_options` copy
`time_internals`; copying an indeterminate `bool` is undefined. -/
def intEquation {n : ℕ} (nd : Bool) (la : LinAlg F) (fn : OdeFun F n) (u : UserOpts F) (y0 : Vec F n) (fuel : ℕ) :
    Option (Outcome ℤ) :=
  let m := ((Tables.init irkMethods).nameToMethod u.method).1
  if m ≠ 0 then
    match u.timeInternals with
    | none => some .ub
    | some _ => (irkOdeint nd la fn u.t0 u.t1 y0 (setIrkOptions u) (exampleOut u) m u.dt fuel).map (exitOf IrkOutput.status IrkOutput.acceptFrac)
  else
    let m' := ((Tables.init erkMethods).nameToMethod u.method).1
    if m' ≠ 0 then
      match u.timeInternals with
      | none => some .ub
      | some _ =>
        (erkOdeint nd fn.fn u.t0 u.t1 y0 (setErkOptions u) (exampleOut u) m' u.dt fuel).map (exitOf ErkOutput.status ErkOutput.acceptFrac)
    else some (.ret (-1))

/-- `read_param` (example_equations.cpp 183-189): the new value of the parameter.  After a failure or at the end of the input
nothing is stored; a word that is not a number stores 0 and sets the fail bit. -/
def readParam (e : TextNum F) (s : Stdin) (old : Option F) : Option F × Stdin :=
  if s.failed then (old, s)
  else
    match s.words with
    | [] => (old, { s with failed := true })
    | w :: ws =>
      match e.word w with
      | some x => (some x, { words := ws })
      | none => (some (lit 0), { words := ws, failed := true })

/-- a parameter that must have a value when it is copied (example_equations.cpp 341-414) -/
def useParam {α : Type} (x : Option F) (k : F → Option (Outcome α)) : Option (Outcome α) :=
  match x with
  | none => some .ub
  | some v => k v

/-- `solve_robertson` (example_equations.cpp 316-338) -/
def solveRobertson (nd : Bool) (la : LinAlg F) (s : Stdin) (u : UserOpts F) (fuel : ℕ) : Option (Outcome ℤ) :=
  match s.words with
  | [] => some (.ret 1)
  | w :: _ =>
    if w = "Y" ∨ w = "y" ∨ w = "yes" ∨ w = "Yes" then intEquation nd la TestEq.rober u ![lit 1, lit 0, lit 0] fuel
    else some (.ret 1)

/-- `solve_three_body` (example_equations.cpp 341-358).  The masses are locals without initialiser. -/
def solveThreeBody (nd : Bool) (la : LinAlg F) (e : TextNum F) (s : Stdin) (u : UserOpts F) (y0 : Vec F 12) (fuel : ℕ) :
    Option (Outcome ℤ) :=
  let (m1, s) := readParam e s none
  let (m2, s) := readParam e s none
  let (m3, _) := readParam e s none
  useParam m1 fun m1 => useParam m2 fun m2 => useParam m3 fun m3 => intEquation nd la (TestEq.threeBody m1 m2 m3) u y0 fuel

/-- `solve_van_der_pol` (example_equations.cpp 361-368) -/
def solveVanDerPol (nd : Bool) (la : LinAlg F) (e : TextNum F) (s : Stdin) (u : UserOpts F) (fuel : ℕ) :
    Option (Outcome ℤ) :=
  let (mu, _) := readParam e s (some (lit (5 / 10)))
  useParam mu fun mu => intEquation nd la (TestEq.vdpol mu) u ![lit 2, lit 0] fuel

/-- `solve_brusselator` (example_equations.cpp 371-380) -/
def solveBrusselator (nd : Bool) (la : LinAlg F) (e : TextNum F) (s : Stdin) (u : UserOpts F) (fuel : ℕ) :
    Option (Outcome ℤ) :=
  let (a, s) := readParam e s (some (lit 1))
  let (b, _) := readParam e s (some (lit (25 / 10)))
  useParam a fun a => useParam b fun b => intEquation nd la (TestEq.bruss a b) u ![lit (25 / 10), lit (25 / 10)] fuel

/-- `solve_exponential` (example_equations.cpp 383-391) -/
def solveExponential (nd : Bool) (la : LinAlg F) (e : TextNum F) (s : Stdin) (u : UserOpts F) (fuel : ℕ) :
    Option (Outcome ℤ) :=
  let (l, _) := readParam e s (some (lit 1))
  useParam l fun l => intEquation nd la (TestEq.exponential l) u ![lit 1] fuel

/-- `solve_stiff_equation` (example_equations.cpp 394-400) -/
def solveStiff (nd : Bool) (la : LinAlg F) (u : UserOpts F) (fuel : ℕ) : Option (Outcome ℤ) :=
  intEquation nd la TestEq.stiffEq u ![lit 1, lit 1] fuel

/-- `solve_lorenz` (example_equations.cpp 403-414) -/
def solveLorenz (nd : Bool) (la : LinAlg F) (e : TextNum F) (s : Stdin) (u : UserOpts F) (fuel : ℕ) : Option (Outcome ℤ) :=
  let (r, s) := readParam e s (some (lit 28))
  let (sg, s) := readParam e s (some (lit 10))
  let (b, _) := readParam e s (some (lit 8 / lit 3))
  useParam r fun r => useParam sg fun sg => useParam b fun b =>
    intEquation nd la (TestEq.lorenz sg r b) u ![lit 1, lit 1, lit 1] fuel

/-- default initial state of the three-body problem (example_equations.cpp 342-343) -/
def threeBodyY0 : Vec F 12 :=
  ![lit 1, lit 0, lit 3, lit 2, lit 0, lit 3, lit 0, lit 2, - lit 1, lit 0, - lit 1, lit 0]

/-- initial state of `three-body-resume` (example_equations.cpp 484-487) -/
def threeBodyResume : Vec F 12 :=
  ![- lit (161263 / 1000), lit (195287 / 1000), - lit (16126 / 100), lit (195316 / 1000), - lit (194043 / 100),
    - lit (251987 / 100), lit (210719 / 10000), - lit (156866 / 100000), - lit (217366 / 10000), lit (236384 / 100000),
    - lit (133533 / 100000), - lit (173402 / 100000)]

/-- the choice of the equation in `main` (example_equations.cpp 474-499) -/
def selectEquation (nd : Bool) (la : LinAlg F) (e : TextNum F) (s : Stdin) (u : UserOpts F) (fuel : ℕ) :
    Option (Outcome ℤ) :=
  if u.eq = "exponential" then solveExponential nd la e s u fuel
  else if u.eq = "stiff-equation" then solveStiff nd la u fuel
  else if u.eq = "robertson" then solveRobertson nd la s u fuel
  else if u.eq = "three-body" then solveThreeBody nd la e s u threeBodyY0 fuel
  else if u.eq = "three-body-resume" then solveThreeBody nd la e s u threeBodyResume fuel
  else if u.eq = "van-der-pol" then solveVanDerPol nd la e s u fuel
  else if u.eq = "brusselator" then solveBrusselator nd la e s u fuel
  else if u.eq = "lorenz" then solveLorenz nd la e s u fuel
  else some (.ret (-1))

/-- `main` (example_equations.cpp 454-503): `args` is `argv[1..argc-1]`, `stdin` the words of the standard input; the
result is the value returned -/
def exampleMain (nd : Bool) (la : LinAlg F) (e : TextNum F) (args : List String) (stdin : List String) (fuel : ℕ) :
    Option (Outcome ℤ) :=
  if args = [] then some (.ret 3)
  else
    match parseOpts e args UserOpts.dflt with
    | .assertFail => some .assertFail
    | .throws => some .throws
    | .ub => some .ub
    | .ret (st, u) =>
      if st < 0 then some (.ret (-1))
      else if 0 < st then some (.ret 0)
      else selectEquation nd la e { words := stdin } u fuel

end model
end Verif
