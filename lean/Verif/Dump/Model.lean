import Verif.Print.Model

/-!
# Writing the whole problem (C67)

`src/base_parser.cpp:2830-2866` (`Parser::dumpSMT2`), with `250-259` (`getVariables`) and `276-282` (`getFunctions`).
-/

namespace SMT.Dump
open SMT SMT.Text SMT.Kinds SMT.Sorts SMT.Print

/-- What `dumpSMT2` reads of the parser: the logic of the options, `sort_key_map`, the nodes of `var_names` and `temp_var_names`
(`src/base_parser.cpp:250-259`), the nodes of `fun_key_map` in the order of `function_names` (`276-282`), and the assertions.  The two maps are
hash tables; the lists are their entries in any order. -/
structure Prog where
  logic : List Char
  sorts : List (List Char × Srt)
  vars : List N
  funs : List N
  asserts : List N

/-- the declared sorts (`src/base_parser.cpp:2834-2838`) -/
def sortLines : List (List Char × Srt) → List Char
  | [] => []
  | x :: xs => (if x.2.kind = .DEC then cs!"(declare-sort " ++ x.1 ++ cs!" " ++ dec x.2.arity ++ cs!")\n" else []) ++ sortLines xs

/-- the variables (`src/base_parser.cpp:2840-2843`) -/
def varLines : List N → List Char
  | [] => []
  | v :: vs => cs!"(declare-fun " ++ v.name ++ cs!" () " ++ print v.sort ++ cs!")\n" ++ varLines vs

/-- one function (`src/base_parser.cpp:2846-2857`) -/
def funText (fuel : Nat) (f : N) : Res (List Char) :=
  if f.kind = .FUNC_DEC then .ok (dumpFuncDec f)
  else if f.kind = .FUNC_REC then dumpFun cs!"define-fun-rec" fuel f
  else dumpFun cs!"define-fun" fuel f

/-- the functions (`src/base_parser.cpp:2844-2858`) -/
def funLines (fuel : Nat) : List N → Res (List Char)
  | [] => .ok []
  | f :: fs => do
    let t ← funText fuel f
    let r ← funLines fuel fs
    return t ++ cs!"\n" ++ r

/-- the assertions (`src/base_parser.cpp:2860-2862`) -/
def assertLines (fuel : Nat) : List N → Res (List Char)
  | [] => .ok []
  | a :: as => do
    let t ← dump fuel a
    let r ← assertLines fuel as
    return cs!"(assert " ++ t ++ cs!")\n" ++ r

/-- `Parser::dumpSMT2` (`src/base_parser.cpp:2830-2866`); the fuel bounds the steps of the printer -/
def dumpSMT2 (fuel : Nat) (P : Prog) : Res (List Char) := do
  let fs ← funLines fuel P.funs
  let as ← assertLines fuel P.asserts
  return cs!"(set-logic " ++ P.logic ++ cs!")\n" ++ sortLines P.sorts ++ varLines P.vars ++ fs ++ as ++ cs!"(check-sat)\n" ++ cs!"(exit)\n"

end SMT.Dump
