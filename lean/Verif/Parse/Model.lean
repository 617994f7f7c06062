import Verif.Lex.Model
import Verif.Sort.Model
import Verif.Text.Dec

/-!
# The expression parser (C41, C52, C53)

`src/base_parser.cpp:1433-1571` (`parseSort`), `1595-1832` (`LetContext`, `parsePreservingLet`, `parseLet`), `1834-1857` (`peekSymbol`),
`2035-2071` (`parseQuant`), `695-717` (`mkExpr`), `src/opt_parser.cpp:32-40` (`attemptParseKeywords`), `src/base_parser.cpp:719-746`
(`parseKeyword`), `src/expr_parser.cpp:60-595` (`ExprFrame`, `parseExpr`).

The parser calls node constructors (`parseConstFunc`, `parseOper`, `mkForall`, `mkLetChain`, ...) as it goes along.  The model records
these calls, with their arguments, in a tree; what the calls do is modelled elsewhere (`Verif.Kind`, `Verif.Api`, `Verif.Scope`).  A call
that returns an error node makes the parser exit; the recorded calls are taken to succeed.

`err_*` prints and exits (`Res.abort`).  `condAssert` does nothing in the default build.  Reading past the end of the buffer, and
following a null pointer, is undefined behaviour (`Res.ub`).  All loops and calls are bounded by a fuel, which only makes the definitions
structural; the theorems give a fuel that is enough.

`parseLet` reads the result of a stack element after removing it from the vector (`src/base_parser.cpp:1810-1822`); the model takes this
to give the value that was there.
-/

namespace SMT.Parse
open SMT SMT.Text SMT.Lex SMT.Sorts

/-- the calls the parser makes -/
inductive Tag (σ : Type) where
  /-- `parseConstFunc(s)`, with `allow_placeholder_vars` -/
  | sym (s : List Char) (ph : Bool)
  /-- `parseOper(op, func_args, oper_params)` or one of the constructors of the fast path; the first `nidx` children are `func_args` -/
  | app (op : List Char) (nidx : Nat)
  /-- `mkForall`, `mkExists`; the child is the body -/
  | quant (head : List Char) (vars : List (List Char × σ))
  /-- one level of a let; the children are the values and the body -/
  | lets (names : List (List Char))
  /-- `mkConstBv(num, width)` -/
  | bv (num : List Char) (width : Nat)
  /-- a special floating-point value -/
  | fpc (which : List Char) (e s : Nat)
  /-- `mkFpConst(sign, exp, mant)` -/
  | fp
  /-- `mkConstArray(sort, value)` -/
  | constArr (s : σ)
  /-- `mkPlaceholderVar(name)` for `(_ as-array name)` -/
  | asArray (name : List Char)
  /-- an annotated term, entered in `named_assertions` if there is a name -/
  | named (name : Option (List Char))
  /-- `mkRootObj(expr, index)` -/
  | rootObj (i : Int)
  /-- `mkRootOfWithInterval(coeffs, lower, upper)` -/
  | rootInt
  /-- `mkRealAlgebraicNumber(polynomial, lower, upper)` -/
  | ran
  deriving DecidableEq

/-- a tree of calls -/
inductive T (σ : Type) where
  | mk (tag : Tag σ) (cs : List (T σ))

/-- the parser: cursor (`bufptr`, `scan_mode`, `line_number`), `sort_key_map`, the names in `let_key_map` (or those in
`preserving_let_key_map` with the current suffix), `let_nesting_depth`, `allow_placeholder_vars` -/
structure P where
  lex : St
  keys : List (List Char × Srt)
  bound : List (List Char)
  depth : Nat
  ph : Bool

/-- options and input mode: `parsing_file`, `parsing_preserve_let` -/
structure Cfg where
  file : Bool
  pres : Bool

/-- `*bufptr`, `none` at the terminating NUL -/
def P.cur (p : P) : Option Char := p.lex.rest.head?

/-- `getSymbol` -/
def sym (cfg : Cfg) (p : P) : Res (List Char × P) := do
  let (s, l) ← getSymbol cfg.file p.lex
  return (s, { p with lex := l })
/-- `parseLpar` -/
def lpar (p : P) : Res P := do
  let l ← parseLpar p.lex
  return { p with lex := l }
/-- `parseRpar` -/
def rpar (p : P) : Res P := do
  let l ← parseRpar p.lex
  return { p with lex := l }
/-- `scanToNextSymbol` -/
def skip (p : P) : P := { p with lex := scan p.lex.line p.lex.rest }
/-- `bufptr++` over a character that is not NUL -/
def advance (p : P) : P := { p with lex := { p.lex with rest := p.lex.rest.tail } }

/-- `strtol`: an optional sign and the digits after it (white space in front is not modelled) -/
def strtol (s : List Char) : Option Int :=
  let (neg, r) := match s with
    | '-' :: r => (true, r)
    | '+' :: r => (false, r)
    | r => (false, r)
  match r.takeWhile Char.isDigit with
  | [] => none
  | ds => some (if neg then -(undec ds) else undec ds)

/-- `std::stoi`: throws when there is no number or it is not an `int` -/
def stoi (s : List Char) : Res Int :=
  match strtol s with
  | none => .throw
  | some i => if -(2 ^ 31 : Int) ≤ i ∧ i < 2 ^ 31 then .ok i else .throw

/-- `std::stoul`: throws when there is no number or its absolute value is not an `unsigned long`; a minus sign wraps around -/
def stoul (s : List Char) : Res Nat :=
  match strtol s with
  | none => .throw
  | some i => if i.natAbs < 2 ^ 64 then .ok (i % 2 ^ 64).toNat else .throw

/-- conversion of an `int` to `size_t` -/
def toSize (i : Int) : Nat := (i % 2 ^ 64).toNat

/-- `NULL_SORT` (`include/sort.h:290`) -/
def NULL_SORT : Srt := .mk .NULL cs!"Null" 0 []

/-- `BASIC_SORTS` (`src/base_parser.cpp:1439-1451`) -/
def basicSorts : List (List Char × Srt) := [
  (cs!"Bool", BOOL_SORT), (cs!"Int", INT_SORT), (cs!"Real", REAL_SORT), (cs!"RoundingMode", ROUNDING_MODE_SORT),
  (cs!"String", STR_SORT), (cs!"Float16", fpSort cs!"Float16" 5 11), (cs!"Float32", fpSort cs!"Float32" 8 24),
  (cs!"Float64", fpSort cs!"Float64" 11 53), (cs!"RegLan", REG_SORT), (cs!"Reg", REG_SORT), (cs!"RegEx", REG_SORT)]

/-- a sort from `sort_key_map`, entered if it is not there (`src/base_parser.cpp:1481-1487`, `1519-1525`, `1534-1540`).  Simplification:
the sort manager (`Sorts.insertSort`) is not called, so the sort is the one asked for; C18 is about the manager. -/
def keyed (p : P) (key : List Char) (s : Res Srt) : Res (Srt × P) :=
  match p.keys.lookup key with
  | some s => .ok (s, p)
  | none => do
    let s ← s
    return (s, { p with keys := p.keys ++ [(key, s)] })

/-- a basic sort or one of `sort_key_map` (`src/base_parser.cpp:1459-1467`, `1546-1555`) -/
def findSort (p : P) (s : List Char) : Res Srt :=
  match basicSorts.lookup s with
  | some r => .ok r
  | none =>
    match p.keys.lookup s with
    | some r => .ok r
    | none => .abort

mutual
/-- `parseSort` (`src/base_parser.cpp:1433-1571`).  Simplification: the sorts that are pushed on the children of a declared sort (lines
1557-1563) are dropped; nothing that is modelled reads them. -/
def parseSort (cfg : Cfg) : Nat → P → Res (Srt × P)
  | 0, _ => .diverge
  | n + 1, p =>
    if p.cur = some ')' then .ok (NULL_SORT, p)
    else if p.cur ≠ some '(' then do
      let (s, p) ← sym cfg p
      let r ← findSort p s
      return (r, p)
    else do
      let p ← lpar p
      let (s, p) ← sym cfg p
      let (r, p) ← sortTail cfg n s p
      let p ← rpar p
      return (r, p)
/-- the part between the head of a compound sort and the closing parenthesis (`src/base_parser.cpp:1474-1564`) -/
def sortTail (cfg : Cfg) : Nat → List Char → P → Res (Srt × P)
  | 0, _, _ => .diverge
  | n + 1, s, p =>
    if s = cs!"Array" then do
      let (i, p) ← parseSort cfg n p
      let (e, p) ← parseSort cfg n p
      keyed p (cs!"ARRAY_" ++ print i ++ cs!"_" ++ print e) (.ok (arraySort i e))
    else if s = cs!"Datatype" ∨ s = cs!"Set" ∨ s = cs!"Relation" ∨ s = cs!"Bag" ∨ s = cs!"Sequence" then .ok (NULL_SORT, p)
    else if s = cs!"RegEx" then do
      let (a, p) ← parseSort cfg n p
      if a.kind ≠ .STR then .abort else return (REG_SORT, p)
    else if s = cs!"UF" then .ok (NULL_SORT, p)
    else if s = cs!"_" then do
      let (id, p) ← sym cfg p
      if id = cs!"BitVec" then do
        let (w, p) ← sym cfg p
        keyed p (cs!"BV_" ++ w) (do let i ← stoi w; return bvSort (toSize i))
      else if id = cs!"FloatingPoint" then do
        let (e, p) ← sym cfg p
        let (m, p) ← sym cfg p
        keyed p (cs!"FP_" ++ e ++ cs!"_" ++ m) (do let i ← stoi e; let j ← stoi m; return fpSort cs!"FP" (toSize i) (toSize j))
      else .abort
    else do
      let r ← findSort p s
      let p ← sortArgs cfg n r.arity p
      return (r, p)
/-- the arguments of a declared sort (`src/base_parser.cpp:1557-1563`) -/
def sortArgs (cfg : Cfg) : Nat → Nat → P → Res P
  | 0, _, _ => .diverge
  | _ + 1, 0, p => .ok p
  | n + 1, k + 1, p => do
    let (_, p) ← parseSort cfg n p
    sortArgs cfg n k p
end

/-- `peekSymbol` (`src/base_parser.cpp:1834-1857`), which leaves the cursor where it was -/
def peekSymbol (cfg : Cfg) (p : P) : Res (List Char) :=
  match p.lex.rest with
  | '(' :: s => (getSymbol cfg.file (scan p.lex.line s)).bind fun r => .ok r.1
  | _ => (getSymbol cfg.file p.lex).bind fun r => .ok r.1

/-- the test for a let in the body of a let (`src/base_parser.cpp:1687`, `1789`) -/
def isLet (cfg : Cfg) (p : P) : Res Bool :=
  if p.cur = some '(' then do
    let s ← peekSymbol cfg p
    return s = cs!"let"
  else .ok false

/-- `KEYWORD` (`include/parser.h`) -/
inductive KW where
  | null | id | weight | comp | epsilon | M | named
  deriving DecidableEq

/-- `attemptParseKeywords` (`src/opt_parser.cpp:32-40`) and `parseKeyword` (`src/base_parser.cpp:719-746`) -/
def keyword (cfg : Cfg) (p : P) : Res (KW × P) :=
  if p.cur = some ':' then do
    let (key, p) ← sym cfg p
    if key = cs!":id" then return (.id, p)
    else if key = cs!":weight" then return (.weight, p)
    else if key = cs!":comp" then return (.comp, p)
    else if key = cs!":epsilon" then return (.epsilon, p)
    else if key = cs!":M" then return (.M, p)
    else if key = cs!":named" then return (.named, p)
    else .abort
  else .ok (.null, p)

/-- `FrameState` (`src/expr_parser.cpp:40-50`) -/
inductive FS where
  | start | params | pfArgs | pfParams | finish
  deriving DecidableEq

/-- `ExprFrame` (`src/expr_parser.cpp:60-76`) -/
structure Frame where
  state : FS := .start
  head : List Char := []
  second : List Char := []
  args : List (T Srt) := []
  ops : List (T Srt) := []
  result : Option (T Srt) := none

/-- a frame with its result -/
def Frame.done (f : Frame) (t : T Srt) : Frame := { f with result := some t, state := .finish }

/-- `LetContext` (`src/base_parser.cpp:1595-1605`) -/
structure LetCtx where
  names : List (List Char) := []
  result : Option (T Srt) := none
  complete : Bool := false

/-- the tree of a let: the levels from the outermost to the innermost -/
def nest {σ : Type} : List (List (List Char) × List (T σ)) → T σ → T σ
  | [], b => b
  | (ns, vs) :: ls, b => .mk (.lets ns) (vs ++ [nest ls b])

/-- the name of the operator (`src/expr_parser.cpp:443`) -/
def Frame.opName (f : Frame) : List Char := if f.head = cs!"_" then f.second else f.head

/-- the operators that switch placeholder variables on (`src/expr_parser.cpp:444-447`) -/
def placeholderOp (op : List Char) : Bool := op = cs!"root-obj" || op = cs!"root-of-with-interval" || op = cs!"real_algebraic_number"

mutual
/-- `parseExpr` (`src/expr_parser.cpp:79-84`) -/
def expr (cfg : Cfg) : Nat → P → Res (T Srt × P)
  | 0, _ => .diverge
  | n + 1, p => run cfg n [{}] p
/-- the loop of `parseExpr` (`src/expr_parser.cpp:83-594`); the head of the list is the top of the stack -/
def run (cfg : Cfg) : Nat → List Frame → P → Res (T Srt × P)
  | 0, _, _ => .diverge
  | _ + 1, [], _ => .abort
  | n + 1, f :: st, p =>
    match f.state with
    | .start =>
      if p.cur ≠ some '(' then do
        let (s, p) ← sym cfg p
        run cfg n (f.done (.mk (.sym s p.ph) []) :: st) p
      else do
        let p ← lpar p
        let (f, p) ← start cfg n f p
        run cfg n (f :: st) p
    | .params =>
      -- the current settings are saved on every visit of the frame, also after they were changed by the first visit
      let p1 := skip (if placeholderOp f.opName then { p with ph := true } else p)
      if p1.cur = some ')' then do
        let p2 ← rpar p1
        let p3 := if placeholderOp f.opName then { p2 with ph := p.ph } else p2
        run cfg n (f.done (.mk (.app f.opName f.args.length) (f.args ++ f.ops)) :: st) p3
      else run cfg n ({} :: f :: st) p1
    | .pfArgs =>
      let p := skip p
      if p.cur = some ')' then do
        let p ← rpar p
        run cfg n ({ f with state := .pfParams } :: st) p
      else run cfg n ({} :: f :: st) p
    | .pfParams =>
      let p := skip p
      if p.cur = some ')' then do
        let p ← rpar p
        run cfg n (f.done (.mk (.app f.second f.args.length) (f.args ++ f.ops)) :: st) p
      else run cfg n ({} :: f :: st) p
    | .finish =>
      match f.result with
      | none => .ub
      | some t =>
        match st with
        | [] => .ok (t, p)
        | g :: st =>
          match g.state with
          | .params => run cfg n ({ g with ops := g.ops ++ [t] } :: st) p
          | .pfArgs => run cfg n ({ g with args := g.args ++ [t] } :: st) p
          | .pfParams => run cfg n ({ g with ops := g.ops ++ [t] } :: st) p
          | _ => run cfg n (g :: st) p
/-- the rest of the state `Start` after the opening parenthesis (`src/expr_parser.cpp:99-429`) -/
def start (cfg : Cfg) : Nat → Frame → P → Res (Frame × P)
  | 0, _, _ => .diverge
  | n + 1, f, p =>
    if p.cur = some '(' then do
      let p ← lpar p
      let (s, p) ← sym cfg p
      if s = cs!"_" then do
        let (g, p) ← sym cfg p
        return ({ f with second := g, state := .pfArgs }, p)
      else if s = cs!"as" then do
        let (g, p) ← sym cfg p
        if g = cs!"const" then do
          let (so, p) ← parseSort cfg n p
          let p ← rpar p
          let (v, p) ← expr cfg n p
          let p ← rpar p
          return (f.done (.mk (.constArr so) [v]), p)
        else .abort
      else if s = cs!"root-obj" then do
        let old := p.ph
        let (e, p) ← expr cfg n { p with ph := true }
        let (i, p) ← sym cfg p
        let p ← rpar p
        let i ← stoi i
        return (f.done (.mk (.rootObj i) [e]), { p with ph := old })
      else if s = cs!"root-of-with-interval" then do
        let (ts, p) ← rootInt cfg n p
        return (f.done (.mk .rootInt ts), p)
      else .abort
    else do
      let (h, p) ← sym cfg p
      let f := { f with head := h }
      if h = cs!"exists" ∨ h = cs!"forall" then do
        let (vs, p) ← quantHead cfg n p
        let (b, p) ← expr cfg n p
        let p ← rpar p
        return (f.done (.mk (.quant h vs) [b]), p)
      else if h = cs!"_" then do
        let (g, p) ← sym cfg p
        if g.length ≥ 2 ∧ g.take 2 = cs!"bv" then do
          let (w, p) ← sym cfg p
          let w ← stoul w
          let p ← rpar p
          return (f.done (.mk (.bv (g.drop 2) w) []), p)
        else if g = cs!"+zero" ∨ g = cs!"-zero" ∨ g = cs!"+oo" ∨ g = cs!"-oo" ∨ g = cs!"NaN" ∨ g = cs!"+NaN" ∨ g = cs!"-NaN" then do
          let (e, p) ← sym cfg p
          let (m, p) ← sym cfg p
          let e ← stoul e
          let m ← stoul m
          let p ← rpar p
          return (f.done (.mk (.fpc g e m) []), p)
        else if g = cs!"as-array" then do
          let (a, p) ← sym cfg p
          let p ← rpar p
          return (f.done (.mk (.asArray a) []), p)
        else if g = cs!"real_algebraic_number" then do
          let old := p.ph
          let (ts, p) ← algebraic cfg n (skip { p with ph := true })
          let p ← rpar { p with ph := old }
          return (f.done (.mk .ran ts), p)
        else return ({ f with second := g, state := .params }, p)
      else if h = cs!"fp" then do
        let (s, p) ← expr cfg n p
        let (e, p) ← expr cfg n p
        let (m, p) ← expr cfg n p
        let p ← rpar p
        return (f.done (.mk .fp [s, e, m]), p)
      else if h = cs!"let" then do
        -- a new suffix for the names of an outermost let
        let q := if cfg.pres ∧ p.depth = 0 then { p with bound := [] } else p
        let q ← lpar { q with depth := q.depth + 1 }
        let (t, q) ← letLoop cfg n [{}] [] q
        let q ← rpar { q with depth := q.depth - 1 }
        return (f.done t, q)
      else if h = cs!"!" then do
        let (t, p) ← expr cfg n p
        let (k, p) ← keyword cfg p
        if k = .named then do
          let (a, p) ← sym cfg p
          let p ← rpar p
          return (f.done (.mk (.named (some a)) [t]), p)
        else do
          let p ← rpar p
          return (f.done (.mk (.named none) [t]), p)
      else if h = cs!"root-of-with-interval" then do
        let (ts, p) ← rootInt cfg n p
        return (f.done (.mk .rootInt ts), p)
      else return ({ f with state := .params }, p)
/-- `(coeffs ...) lower upper)` (`src/expr_parser.cpp:165-191`, `405-427`) -/
def rootInt (cfg : Cfg) : Nat → P → Res (List (T Srt) × P)
  | 0, _ => .diverge
  | n + 1, p => do
    let p ← lpar p
    let (_, p) ← sym cfg p
    let (cs, p) ← coeffs cfg n [] (skip p)
    let p ← rpar p
    let (lo, p) ← expr cfg n p
    let (hi, p) ← expr cfg n p
    let p ← rpar p
    return (cs ++ [lo, hi], p)
/-- the coefficients -/
def coeffs (cfg : Cfg) : Nat → List (T Srt) → P → Res (List (T Srt) × P)
  | 0, _, _ => .diverge
  | n + 1, acc, p =>
    if p.cur = some ')' then .ok (acc, p)
    else do
      let (t, p) ← expr cfg n p
      coeffs cfg n (acc ++ [t]) (skip p)
/-- a real algebraic number (`src/expr_parser.cpp:274-333`) -/
def algebraic (cfg : Cfg) : Nat → P → Res (List (T Srt) × P)
  | 0, _ => .diverge
  | n + 1, p =>
    if p.cur = some '<' then do
      let (q, p) ← expr cfg n (skip (advance p))
      let p := skip p
      let p := if p.cur = some ',' then skip (advance p) else p
      if p.cur = some '(' then do
        let p ← lpar p
        let (lo, p) ← expr cfg n p
        let p := skip p
        let p := if p.cur = some ',' then skip (advance p) else p
        let (hi, p) ← expr cfg n p
        let p ← rpar p
        let p := skip p
        return ([q, lo, hi], if p.cur = some '>' then advance p else p)
      else do
        let (lo, p) ← expr cfg n p
        let (hi, p) ← expr cfg n p
        let p := skip p
        return ([q, lo, hi], if p.cur = some '>' then advance p else p)
    else do
      let (q, p) ← expr cfg n p
      let (lo, p) ← expr cfg n p
      let (hi, p) ← expr cfg n p
      return ([q, lo, hi], p)
/-- the variables of a quantifier, with the parentheses around them (`src/base_parser.cpp:2038-2055`) -/
def quantHead (cfg : Cfg) : Nat → P → Res (List (List Char × Srt) × P)
  | 0, _ => .diverge
  | n + 1, p => do
    let p ← lpar p
    let (vs, p) ← quantVars cfg n [] p
    let p ← rpar p
    return (vs, p)
/-- the loop over the variables (`src/base_parser.cpp:2041-2052`) -/
def quantVars (cfg : Cfg) : Nat → List (List Char × Srt) → P → Res (List (List Char × Srt) × P)
  | 0, _, _ => .diverge
  | n + 1, acc, p =>
    if p.cur = some ')' then .ok (acc, p)
    else do
      let p ← lpar p
      let (x, p) ← sym cfg p
      let (s, p) ← parseSort cfg n p
      let p ← rpar p
      quantVars cfg n (acc ++ [(x, s)]) p
/-- the bindings of one level (`src/base_parser.cpp:1633-1675`, `1748-1782`); `pres` decides when a name becomes visible: after its value
in both functions -/
def letBinds (cfg : Cfg) : Nat → List (List Char) → List (T Srt) → P → Res (List (List Char) × List (T Srt) × P)
  | 0, _, _, _ => .diverge
  | n + 1, ns, vs, p =>
    if p.cur = some ')' then .ok (ns, vs, p)
    else do
      let p ← lpar p
      let (x, p) ← sym cfg p
      if x ∈ p.bound then .abort
      else do
        let (v, p) ← expr cfg n p
        let p ← rpar { p with bound := x :: p.bound }
        letBinds cfg n (ns ++ [x]) (vs ++ [v]) p
/-- the loops of `parsePreservingLet` (`src/base_parser.cpp:1627-1720`) and `parseLet` (`1741-1827`): the stack of levels, its top
first, and the levels whose bindings were read, the outermost first -/
def letLoop (cfg : Cfg) : Nat → List LetCtx → List (List (List Char) × List (T Srt)) → P → Res (T Srt × P)
  | 0, _, _, _ => .diverge
  | _ + 1, [], _, _ => .abort
  | n + 1, c :: st, all, p => do
    let (c, all, p) ← letLevel cfg n c all p
    let inner ← isLet cfg p
    if inner then do
      let p ← lpar p
      let (_, p) ← sym cfg p
      let p ← lpar p
      letLoop cfg n ({} :: c :: st) all p
    else do
      let (r, p) ← letBody cfg n c p
      -- `parseLet` forgets the names of the level
      let p := if cfg.pres then p else { p with bound := p.bound.filter fun x => decide (x ∉ c.names) }
      match st with
      | [] =>
        match r with
        | none => .ub
        | some b => .ok (nest all b, p)
      | d :: st => do
        let p ← rpar p
        letLoop cfg n ({ d with result := r, complete := true } :: st) all p
/-- the bindings of a level that is not complete (`src/base_parser.cpp:1632-1684`, `1747-1786`) -/
def letLevel (cfg : Cfg) : Nat → LetCtx → List (List (List Char) × List (T Srt)) → P →
    Res (LetCtx × List (List (List Char) × List (T Srt)) × P)
  | 0, _, _, _ => .diverge
  | n + 1, c, all, p =>
    if c.complete then .ok (c, all, p) else do
      let (ns, vs, p) ← letBinds cfg n [] [] p
      let p ← rpar p
      return ({ c with names := ns }, all ++ [(ns, vs)], p)
/-- the body of the innermost level (`src/base_parser.cpp:1698-1701`, `1800-1802`) -/
def letBody (cfg : Cfg) : Nat → LetCtx → P → Res (Option (T Srt) × P)
  | 0, _, _ => .diverge
  | n + 1, c, p =>
    if p.cur ≠ some ')' then do
      let (t, p) ← expr cfg n p
      return (some t, p)
    else .ok (c.result, p)
end

/-- `mkExpr` (`src/base_parser.cpp:695-717`): what is behind the expression is ignored; an empty text gives an error node -/
def mkExpr (pres : Bool) (fuel : Nat) (p : P) (text : List Char) : Res (T Srt × P) :=
  if text.isEmpty then .abort else expr ⟨false, pres⟩ fuel { p with lex := scan 1 text }

end SMT.Parse
