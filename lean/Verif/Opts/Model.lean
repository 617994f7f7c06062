import Verif.Parse.Model
import Verif.Parse.SortProps
import Verif.Text.Tok
/-!
# Options of the parser (C72)

Models `include/options.h:58-80` (the fields and their defaults), `:138-160` (`setOption`), `:196-222` (the typed setters
and getters) and the overloads of `Parser::setOption` (`src/base_parser.cpp:235-247`, `include/parser.h:403-406`).
-/
namespace SMT.Opts
open SMT.Text SMT.Parse SMT.Tok

/-- the Boolean options -/
inductive Flag | keepLet | keepDivision | floatEvaluate | expandFunctions | expandRecursive
  deriving DecidableEq

/-- the fields of `GlobalOptions` that `setOption` touches with their defaults (`include/options.h:45`, `:58-80`); `mpfr_prec_t` is a
signed 64-bit integer, `map` is the public table `options` -/
structure St where
  keepLet : Bool := true
  keepDivision : Bool := true
  floatEvaluate : Bool := true
  expandFunctions : Bool := true
  expandRecursive : Bool := false
  precision : Int := 128
  map : List Char → Option (List Char) := fun _ => none

/-- `getKeepLet`, `getKeepDivision`, `getEvaluateUseFloating`, `getExpandFunctions`, `getExpandRecursiveFunctions`
(`include/options.h:208-222`) -/
def St.get (s : St) : Flag → Bool
  | .keepLet => s.keepLet
  | .keepDivision => s.keepDivision
  | .floatEvaluate => s.floatEvaluate
  | .expandFunctions => s.expandFunctions
  | .expandRecursive => s.expandRecursive

/-- the typed setters (`include/options.h:204-222`) -/
def St.set (s : St) : Flag → Bool → St
  | .keepLet, b => { s with keepLet := b }
  | .keepDivision, b => { s with keepDivision := b }
  | .floatEvaluate, b => { s with floatEvaluate := b }
  | .expandFunctions, b => { s with expandFunctions := b }
  | .expandRecursive, b => { s with expandRecursive := b }

/-- `GlobalOptions::setOption` (`include/options.h:138-160`). The second component says whether `std::stoi` threw: the table
has been changed by then. The `int` goes through `size_t` into a signed 64-bit integer, which gives it back. -/
def setOption (s : St) (key value : List Char) : St × Bool :=
  let s := { s with map := fun k => if k = key then some value else s.map k }
  if key = cs!"keep_let" then (s.set .keepLet (value = cs!"true"), false)
  else if key = cs!"keep_division" then (s.set .keepDivision (value = cs!"true"), false)
  else if key = cs!"precision" then
    match stoi value with
    | .ok i => ({ s with precision := i }, false)
    | _ => (s, true)
  else if key = cs!"float_evaluate" then (s.set .floatEvaluate (value = cs!"true"), false)
  else if key = cs!"expand_functions" then (s.set .expandFunctions (value = cs!"true"), false)
  else if key = cs!"expand_recursive_functions" then (s.set .expandRecursive (value = cs!"true"), false)
  else (s, false)

/-- a call of the user. `str` passes a `std::string`, `lit` a string literal, `dbl` a `double` given by the text that
`std::to_string` makes of it (the formatting of a `double` is not modelled). -/
inductive Call where
  | str (key value : List Char)
  | int (key : List Char) (value : Int)
  | dbl (key text : List Char)
  | bool (key : List Char) (value : Bool)
  | lit (key value : List Char)
  | setFlag (f : Flag) (b : Bool)
  | setPrecision (i : Int)

/-- one call (`src/base_parser.cpp:235-247`, `:283-294`). For a string literal the overload with `bool` is chosen, since the
conversion of a pointer to `bool` is a standard one and that to `std::string` is not. -/
def step (s : St) : Call → St × Bool
  | .str k v => setOption s k v
  | .int k v => setOption s k (showInt v)
  | .dbl k t => setOption s k t
  | .bool k v => setOption s k (if v then cs!"true" else cs!"false")
  | .lit k _ => setOption s k cs!"true"
  | .setFlag f b => (s.set f b, false)
  | .setPrecision i => ({ s with precision := i }, false)

/-- the state after a history of calls; a caller goes on after an exception -/
def run (h : List Call) : St := h.foldl (fun s c => (step s c).1) {}

end SMT.Opts
