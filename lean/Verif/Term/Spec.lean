/-!
# Terms, values and the SMT-LIB meaning of the core and arithmetic operators

This file is the specification side: sorts, terms, values and `eval`, the value of a term under an
assignment.  `eval` says nothing about how the parser builds terms.
-/

namespace SMT

/-- Sorts (`include/sort.h:39-66`).  Simplification: array, float, datatype and user sorts are all
`other cls idx`, where `cls` is what `Sort::operator==` looks at (kind, name and arity) and `idx`
stands for the component sorts it ignores. -/
inductive Srt where
  | bool | int | real
  /-- `SK_INTOREAL`, the sort of integer literals -/
  | ior
  | str | bv (w : Nat) | other (cls idx : Nat)
  /-- `SK_UNKNOWN`, the sort of the `unknown` node -/
  | unk
  /-- `SK_NULL`, the sort of the error node -/
  | null
  deriving DecidableEq, Repr

/-- `Int`, `Real` or the literal sort. -/
def Srt.isNum : Srt → Bool
  | .int => true | .real => true | .ior => true | _ => false

/-- The variable kinds (`include/kind.h`: `NT_VAR`, `NT_TEMP_VAR`, `NT_QUANT_VAR`,
`NT_PLACEHOLDER_VAR`). -/
inductive VK where | var | temp | quant | placeholder
  deriving DecidableEq, Repr

/-- Operator kinds.  The core and linear-arithmetic kinds are interpreted; every other kind is
opaque and classified only as far as the code classifies it (`include/dag.h:388-424,609-657`):
`arith` operators (`div`, `mod`, `abs`, `pow`, ...), uninterpreted functions, string operators,
bit-vector operators, other atoms (bit-vector/float/string comparisons and arithmetic predicates)
and the rest. -/
inductive Kind where
  | not | and | or | xor | implies | eq | distinct | ite
  | add | mul | sub | neg | le | lt | ge | gt
  | arith (id : Nat) | uf (id : Nat) | strOp (id : Nat) | bvOp (id : Nat) | atom (id : Nat)
  | misc (id : Nat)
  deriving DecidableEq, Repr

/-- An expression.  Nodes are hash-consed (`src/dag.cpp:1040-1110`), so a node is identified with
its structure: kind, sort, name and children. -/
inductive Term where
  /-- `NT_CONST_TRUE` -/
  | tt
  /-- `NT_CONST_FALSE` -/
  | ff
  /-- integer literal, sort `ior` (`src/op_parser.cpp:620-623`) -/
  | cint (i : Int)
  /-- real literal: its text and its value, sort `Real` (`src/op_parser.cpp:633-642`) -/
  | creal (name : String) (q : Rat)
  /-- any other literal of sort `s`: strings, bit-vectors (the text is the value) and opaque ones -/
  | clit (s : Srt) (txt : String)
  | var (vk : VK) (s : Srt) (name : String)
  | app (k : Kind) (s : Srt) (ts : List Term)
  /-- `UNKNOWN_NODE` -/
  | unknown
  /-- an error node -/
  | err
  deriving Repr

/-- Values: Booleans, numbers, and elements of the other sorts (named by strings). -/
inductive Val where
  | b (x : Bool) | n (q : Rat) | u (s : Srt) (x : String)
  deriving DecidableEq

/-- `v` is an element of sort `s`.  `Int` is read as the numbers: the theorems then hold for more
assignments than the integer-valued ones. -/
def Val.hasSort : Val → Srt → Bool
  | .b _, .bool => true
  | .n _, .int => true
  | .n _, .real => true
  | .n _, .ior => true
  | .u s _, t => s == t && !(t == .bool) && !t.isNum && !(t == .unk) && !(t == .null)
  | _, _ => false

/-- An assignment: values of the variables, of the opaque literals and of the opaque operators. -/
structure Env where
  var : VK → Srt → String → Val
  lit : Srt → String → String
  fn : Kind → Srt → List Val → Option Val

/-- All values Boolean. -/
def boolsOf : List Val → Option (List Bool)
  | [] => some []
  | .b x :: vs => (boolsOf vs).map (x :: ·)
  | _ :: _ => none

/-- All values numbers. -/
def numsOf : List Val → Option (List Rat)
  | [] => some []
  | .n x :: vs => (numsOf vs).map (x :: ·)
  | _ :: _ => none

/-- The two values come from one sort (numbers count as one sort, as in SMT-LIB's mixed use). -/
def Val.sameSort : Val → Val → Bool
  | .b _, .b _ => true
  | .n _, .n _ => true
  | .u s _, .u t _ => s == t
  | _, _ => false

/-- `(=> x1 ... xn)`, right associative. -/
def impChain : List Bool → Bool
  | [] => true
  | [x] => x
  | x :: y :: r => !x || impChain (y :: r)

/-- chainable relation -/
def chain {α : Type} (r : α → α → Bool) : List α → Bool
  | [] => true
  | [_] => true
  | x :: y :: l => r x y && chain r (y :: l)

/-- pairwise relation -/
def pairw {α : Type} (r : α → α → Bool) : List α → Bool
  | [] => true
  | x :: l => l.all (r x) && pairw r l

/-- at least two values, all of one sort -/
def homog : List Val → Bool
  | x :: y :: l => (y :: l).all (x.sameSort ·)
  | _ => false

/-- at least two numbers in a chain -/
def cmpChain (r : Rat → Rat → Bool) (vs : List Val) : Option Val :=
  match numsOf vs with
  | some (x :: y :: l) => some (.b (chain r (x :: y :: l)))
  | _ => none

/-- SMT-LIB meaning of the operators.  `none`: ill-typed. -/
def apply (ρ : Env) (k : Kind) (s : Srt) (vs : List Val) : Option Val :=
  match k with
  | .not => match vs with
      | [.b x] => some (.b (!x))
      | _ => none
  | .and => (boolsOf vs).map fun l => .b (l.all id)
  | .or => (boolsOf vs).map fun l => .b (l.any id)
  | .xor => (boolsOf vs).map fun l => .b (l.foldl Bool.xor false)
  | .implies => if vs.length < 2 then none else (boolsOf vs).map fun l => .b (impChain l)
  | .eq => if homog vs then some (.b (chain (fun a b => decide (a = b)) vs)) else none
  | .distinct => if homog vs then some (.b (pairw (fun a b => decide (a ≠ b)) vs)) else none
  | .ite => match vs with
      | [.b c, x, y] => if x.sameSort y then some (if c then x else y) else none
      | _ => none
  | .add => match numsOf vs with
      | some (x :: l) => some (.n (x + l.sum))
      | _ => none
  | .mul => match numsOf vs with
      | some (x :: l) => some (.n (x * l.foldr (· * ·) 1))
      | _ => none
  | .sub => match numsOf vs with
      | some (x :: y :: l) => some (.n (x - (y :: l).sum))
      | _ => none
  | .neg => match vs with
      | [.n x] => some (.n (-x))
      | _ => none
  | .le => cmpChain (fun a b => decide (a ≤ b)) vs
  | .lt => cmpChain (fun a b => decide (a < b)) vs
  | .ge => cmpChain (fun a b => decide (a ≥ b)) vs
  | .gt => cmpChain (fun a b => decide (a > b)) vs
  | .arith i => match ρ.fn (.arith i) s vs with
      | some (.n q) => some (.n q)
      | _ => none
  | k => ρ.fn k s vs

/-- keep a value only if it belongs to the sort -/
def guardSort (s : Srt) (v : Option Val) : Option Val :=
  match v with
  | some x => if x.hasSort s then some x else none
  | none => none

mutual
/-- Value of a term under an assignment; `none` if it is ill-typed (wrong operand sorts, a stored
sort that does not fit the value, an `unknown` or error node inside). -/
def eval (ρ : Env) : Term → Option Val
  | .tt => some (.b true)
  | .ff => some (.b false)
  | .cint i => some (.n i)
  | .creal _ q => some (.n q)
  | .clit s x => guardSort s (some (match s with
      | .str => .u .str x
      | .bv w => .u (.bv w) x
      | s => .u s (ρ.lit s x)))
  | .var vk s x => guardSort s (some (ρ.var vk s x))
  | .app k s ts =>
    match evalL ρ ts with
    | some vs => guardSort s (apply ρ k s vs)
    | none => none
  | .unknown => none
  | .err => none
/-- Values of a list of terms. -/
def evalL (ρ : Env) : List Term → Option (List Val)
  | [] => some []
  | t :: ts =>
    match eval ρ t, evalL ρ ts with
    | some v, some vs => some (v :: vs)
    | _, _ => none
end

/-- The value of operator `k` applied to the operands: what the user asked for. -/
def evalApp (ρ : Env) (k : Kind) (ts : List Term) (s : Srt) : Option Val :=
  match evalL ρ ts with
  | some vs => apply ρ k s vs
  | none => none

end SMT
