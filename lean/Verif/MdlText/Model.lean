import Verif.Script.Model
import Verif.Print.Model

/-!
# Reading and writing models (C68)

`src/base_parser.cpp:2365-2411` (`parseModelSymbolName`), `2414-2613` (`parseModel`), `src/model.cpp:137-143` (`Model::toString`).

Expressions are kept as the trees of calls of `Verif.Parse.Model`.  The printed warnings are left out.
-/

namespace SMT.MdlText
open SMT SMT.Text SMT.Lex SMT.Sorts SMT.Parse SMT.Script

/-- a `Model` (`include/model.h:131-134`): name and sort of each variable with its value, in the order of `model_vars`; the index from names
to positions is the position of the name in this list (C36) -/
abbrev M := List (List Char × Srt × T Srt)

/-- `Model::add(node, value)` (`src/model.cpp:46-55`) -/
def put (x : List Char) (so : Srt) (t : T Srt) : M → M
  | [] => [(x, so, t)]
  | (y, s', t') :: m => if y = x then (y, s', t) :: m else (y, s', t') :: put x so t m

/-- the white space of `src/base_parser.cpp:2370`, `2383`, `2386` -/
def isWs (c : Char) : Bool := isBlank c || isNl c

/-- the white space of `src/base_parser.cpp:2442`, `2466`, `2523` -/
def isWs4 (c : Char) : Bool := c == ' ' || c == '\t' || c == '\n' || c == '\r'

/-- the loop over a name that starts with an opening parenthesis (`src/base_parser.cpp:2381-2395`): the name and the rest -/
def rawName : List Char → List Char × List Char
  | [] => ([], [])
  | c :: s =>
    if isWs c ∧ ((s.dropWhile isWs).head? = some '(' ∨ (s.dropWhile isWs).head? = some ')') then ([], c :: s)
    else (c :: (rawName s).1, (rawName s).2)

/-- the test for a name that is written with bars (`src/base_parser.cpp:2403`) -/
def oddStart (a : List Char) : Bool :=
  match a.head? with
  | some c => ('0' ≤ c && c ≤ '9') || c = ')' || c = ';'
  | none => false

/-- `parseModelSymbolName` (`src/base_parser.cpp:2366-2410`) -/
def symName (cfg : Cfg) (p : P) : Res (List Char × P) :=
  match p.lex.rest with
  | '(' :: s =>
    if (s.dropWhile isWs).head? = some ')' ∨ (s.dropWhile isWs).head? = some '(' then .ok (cs!"||", p)
    else .ok ('|' :: ((rawName p.lex.rest).1 ++ ['|']), { p with lex := scan p.lex.line (rawName p.lex.rest).2 })
  | _ => do
    let (a, p) ← sym cfg p
    return (if oddStart a then '|' :: (a ++ ['|']) else a, p)

/-- white space between two definitions, and the line number (`src/base_parser.cpp:2466-2469`, `2523-2526`) -/
def wsGo (line : Nat) : List Char → List Char × Nat
  | [] => ([], line)
  | c :: s => if isWs4 c then wsGo (if s.head? = some '\n' then line + 1 else line) s else (c :: s, line)

/-- the same on the parser -/
def blanks (p : P) : P := { p with lex := { p.lex with rest := (wsGo p.lex.line p.lex.rest).1, line := (wsGo p.lex.line p.lex.rest).2 } }

/-- the test for `(model` (`src/base_parser.cpp:2441-2448`) on the text behind the opening parenthesis -/
def isModelHead (s : List Char) : Bool :=
  match s.dropWhile isWs4 with
  | 'm' :: 'o' :: 'd' :: 'e' :: 'l' :: c :: _ => isWs4 c || c = '('
  | _ => false

/-- the opening parenthesis and `model` (`src/base_parser.cpp:2438-2458`) -/
def header (cfg : Cfg) (p : P) : Res P :=
  match p.lex.rest with
  | '(' :: s =>
    if isModelHead s then do
      let p ← lpar p
      let (_, p) ← sym cfg p
      return p
    else lpar p
  | _ => .ok p

/-- a definition is skipped -/
def leave (s : S) (p : P) : Res S := do
  let p ← rpar (skipTo p)
  return { s with p := p }

/-- the declaration of a function (`src/base_parser.cpp:2503-2510`); after `mkFuncDec` the name is in `fun_key_map` -/
def declare (s : S) (f : List Char) (ps : List (List Char × Srt)) (out : Srt) : Res S :=
  if ps = [] then .ok s
  else do
    let funs ← mkFuncDec s.funs f (ps.map fun v => v.2) out
    return { s with funs := funs, fnames := if f ∈ s.fnames then s.fnames else s.fnames ++ [f] }

/-- one round of the first pass (`src/base_parser.cpp:2475-2515`); the loop over the parameters is the one of `parseQuant` -/
def item1 (cfg : Cfg) (n : Nat) (s : S) : Res S := do
  let p ← lpar s.p
  let (k, p) ← sym cfg p
  if k ≠ cs!"define-fun" then leave s p
  else do
    let (f, p) ← symName cfg p
    let p ← lpar p
    let (ps, p) ← quantVars cfg n [] p
    let p ← rpar p
    let (out, p) ← parseSort cfg n p
    let s ← declare s f ps out
    leave s p

/-- the first pass (`src/base_parser.cpp:2464-2516`); the flag says that an exception was thrown.  Simplification: what the round that
throws has entered in `sort_key_map` is dropped. -/
def pass1 (cfg : Cfg) : Nat → S → Res (Bool × S)
  | 0, _ => .diverge
  | n + 1, s =>
    if (blanks s.p).cur ≠ some '(' then .ok (false, { s with p := blanks s.p })
    else
      match item1 cfg n { s with p := blanks s.p } with
      | .ok s => pass1 cfg n s
      | .throw => .ok (true, s)
      | .abort => .abort
      | .ub => .ub
      | .diverge => .diverge

/-- one round of the second pass (`src/base_parser.cpp:2532-2597`).  Simplification: what an expression has changed before it throws is
dropped. -/
def item2 (cfg : Cfg) (n : Nat) (only : Bool) (s : S) (m : M) : Res (Bool × S × M) := do
  let p ← lpar s.p
  let (k, p) ← sym cfg p
  if k ≠ cs!"define-fun" then do
    let s ← leave s p
    return (false, s, m)
  else do
    let (x, p) ← symName cfg p
    let p ← lpar p
    let (ps, p) ← quantVars cfg n [] p
    let p ← rpar p
    if ps ≠ [] then do
      let s ← leave s p
      return (false, s, m)
    else do
      let (so, p) ← parseSort cfg n p
      if only ∧ s.vars.lookup x = none then do
        let s ← leave s p
        return (false, s, m)
      else
        match expr cfg n p with
        | .ok (t, p) => do
          let p ← rpar p
          return (false, { (s.var x so).note t with p := p }, put x (((s.var x so).vars.lookup x).getD so) t m)
        | .throw => .ok (true, s.var x so, m)
        | .abort => .abort
        | .ub => .ub
        | .diverge => .diverge

/-- the second pass (`src/base_parser.cpp:2521-2598`) -/
def pass2 (cfg : Cfg) (only : Bool) : Nat → S → M → Res (S × M)
  | 0, _, _ => .diverge
  | n + 1, s, m =>
    if (blanks s.p).cur ≠ some '(' then .ok ({ s with p := blanks s.p }, m)
    else
      match item2 cfg n only { s with p := blanks s.p } m with
      | .ok (false, s, m) => pass2 cfg only n s m
      | .ok (true, s, m) => .ok (s, m)
      | .throw => .ok (s, m)
      | .abort => .abort
      | .ub => .ub
      | .diverge => .diverge

/-- buffer and cursor of the caller (`src/base_parser.cpp:2604-2609`); `scan_mode` and `line_number` stay -/
def restore (old : P) (s : S) : S := { s with p := { s.p with lex := { s.p.lex with rest := old.lex.rest } } }

/-- `parseModel` (`src/base_parser.cpp:2414-2613`) -/
def parseModel (pres : Bool) (n : Nat) (only : Bool) (s : S) (text : List Char) : Res (M × S) := do
  let cfg : Cfg := ⟨false, pres⟩
  let p ← header cfg { s.p with lex := scan 1 text }
  let (thrown, s1) ← pass1 cfg n { s with p := p }
  if thrown then return ([], restore s.p s1)
  else do
    let (s2, m) ← pass2 cfg only n { s1 with p := { s1.p with lex := { s1.p.lex with rest := p.lex.rest, line := 1 } } } []
    return (m, restore s.p s2)

/-- `Model::toString` (`src/model.cpp:137-143`) on the nodes of the variables and of the values -/
def toText (fuel : Nat) : List (Print.N × Print.N) → Res (List Char)
  | [] => .ok []
  | (x, v) :: m => do
    let t ← Print.dump fuel v
    let r ← toText fuel m
    return cs!"(define-fun " ++ x.name ++ cs!" () " ++ print x.sort ++ cs!" " ++ t ++ cs!")\n" ++ r

end SMT.MdlText
