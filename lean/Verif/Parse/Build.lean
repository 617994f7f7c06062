import Verif.Parse.Spec
import Verif.Print.Model

/-!
# From the calls of the parser to nodes (C41)

`src/expr_parser.cpp:452-520` (the fast path), `780-1430` (`parseOper`), `598-768` (`parseConstFunc`, as an unknown function).

`Verif.Parse.Model` gives the tree of calls that the parser makes for a text.  Here the calls are carried out: which node constructor is
called for an operator name, and with which of the operands.  The constructors themselves are a parameter (`Ctors`); they are modelled in
other modules.  A constructor is named by the kind of its nodes: `mkAnd` by `AND`, and so on; the table was generated from the source and
from the kind in the call of `mkOper` inside the constructor (`src/op_parser.cpp`).
-/

namespace SMT.Parse
open SMT SMT.Text SMT.Kinds SMT.Sorts SMT.Print

/-- an operand: `oper_params[i]` or `func_args[i]` -/
inductive Sel where
  | p (i : Nat)
  | a (i : Nat)
  deriving DecidableEq

/-- what a case of `parseOper` does -/
inductive Disp where
  /-- `mkX(oper_params)` -/
  | all (c : K)
  /-- `mkX(oper_params[0], ...)`; the number of operands is only checked by `condAssert` -/
  | sel (c : K) (s : List Sel)
  /-- `log`: natural logarithm with one operand, any base with two -/
  | log
  /-- one or two operands -/
  | opt12 (c : K)
  /-- two operands, or the conjunction of the neighbours -/
  | chain (c : K)
  | toFp
  | toFpUnsigned
  /-- `err_unkwn_sym` -/
  | unknown
  deriving DecidableEq

/-- the `switch` of `parseOper` (`src/expr_parser.cpp:799-1429`) -/
def disp : K → Disp
  | .AND => .all .AND
  | .OR => .all .OR
  | .NOT => .sel .NOT [.p 0]
  | .IMPLIES => .all .IMPLIES
  | .XOR => .all .XOR
  | .EQ => .all .EQ
  | .DISTINCT => .all .DISTINCT
  | .ITE => .all .ITE
  | .ADD => .all .ADD
  | .NEG => .sel .NEG [.p 0]
  | .SUB => .all .SUB
  | .MUL => .all .MUL
  | .IAND => .all .IAND
  | .POW2 => .sel .POW2 [.p 0]
  | .POW => .sel .POW [.p 0, .p 1]
  | .DIV_INT => .sel .DIV_INT [.p 0, .p 1]
  | .DIV_REAL => .sel .DIV_REAL [.p 0, .p 1]
  | .MOD => .sel .MOD [.p 0, .p 1]
  | .ABS => .sel .ABS [.p 0]
  | .SQRT => .sel .SQRT [.p 0]
  | .SAFESQRT => .sel .SAFESQRT [.p 0]
  | .CEIL => .sel .CEIL [.p 0]
  | .FLOOR => .sel .FLOOR [.p 0]
  | .ROUND => .sel .ROUND [.p 0]
  | .EXP => .sel .EXP [.p 0]
  | .LN => .sel .LN [.p 0]
  | .LG => .sel .LG [.p 0]
  | .LB => .sel .LB [.p 0]
  | .LOG => .log
  | .SIN => .sel .SIN [.p 0]
  | .COS => .sel .COS [.p 0]
  | .TAN => .sel .TAN [.p 0]
  | .COT => .sel .COT [.p 0]
  | .SEC => .sel .SEC [.p 0]
  | .CSC => .sel .CSC [.p 0]
  | .ASIN => .sel .ASIN [.p 0]
  | .ACOS => .sel .ACOS [.p 0]
  | .ATAN => .sel .ATAN [.p 0]
  | .ACOT => .sel .ACOT [.p 0]
  | .ASEC => .sel .ASEC [.p 0]
  | .ACSC => .sel .ACSC [.p 0]
  | .SINH => .sel .SINH [.p 0]
  | .COSH => .sel .COSH [.p 0]
  | .TANH => .sel .TANH [.p 0]
  | .ASECH => .sel .ASECH [.p 0]
  | .ACSCH => .sel .ACSCH [.p 0]
  | .ACOTH => .sel .ACOTH [.p 0]
  | .ATAN2 => .sel .ATAN2 [.p 0, .p 1]
  | .ASINH => .sel .ASINH [.p 0]
  | .ACOSH => .sel .ACOSH [.p 0]
  | .ATANH => .sel .ATANH [.p 0]
  | .SECH => .sel .SECH [.p 0]
  | .CSCH => .sel .CSCH [.p 0]
  | .LE => .sel .LE [.p 0, .p 1]
  | .LT => .sel .LT [.p 0, .p 1]
  | .GE => .sel .GE [.p 0, .p 1]
  | .GT => .sel .GT [.p 0, .p 1]
  | .TO_REAL => .sel .TO_REAL [.p 0]
  | .TO_INT => .sel .TO_INT [.p 0]
  | .IS_INT => .sel .IS_INT [.p 0]
  | .IS_DIVISIBLE => .sel .IS_DIVISIBLE [.p 0, .p 1]
  | .IS_PRIME => .sel .IS_PRIME [.p 0]
  | .IS_EVEN => .sel .IS_EVEN [.p 0]
  | .IS_ODD => .sel .IS_ODD [.p 0]
  | .GCD => .sel .GCD [.p 0, .p 1]
  | .LCM => .sel .LCM [.p 0, .p 1]
  | .FACT => .sel .FACT [.p 0]
  | .BV_NOT => .sel .BV_NOT [.p 0]
  | .BV_NEG => .sel .BV_NEG [.p 0]
  | .BV_AND => .all .BV_AND
  | .BV_OR => .all .BV_OR
  | .BV_XOR => .all .BV_XOR
  | .BV_NAND => .all .BV_NAND
  | .BV_NOR => .all .BV_NOR
  | .BV_XNOR => .all .BV_XNOR
  | .BV_COMP => .sel .BV_COMP [.p 0, .p 1]
  | .BV_ADD => .all .BV_ADD
  | .BV_SUB => .all .BV_SUB
  | .BV_MUL => .all .BV_MUL
  | .BV_UDIV => .sel .BV_UDIV [.p 0, .p 1]
  | .BV_UREM => .sel .BV_UREM [.p 0, .p 1]
  | .BV_SDIV => .sel .BV_SDIV [.p 0, .p 1]
  | .BV_SREM => .sel .BV_SREM [.p 0, .p 1]
  | .BV_SMOD => .sel .BV_SMOD [.p 0, .p 1]
  | .BV_SHL => .sel .BV_SHL [.p 0, .p 1]
  | .BV_LSHR => .sel .BV_LSHR [.p 0, .p 1]
  | .BV_ASHR => .sel .BV_ASHR [.p 0, .p 1]
  | .BV_ULT => .sel .BV_ULT [.p 0, .p 1]
  | .BV_ULE => .sel .BV_ULE [.p 0, .p 1]
  | .BV_UGT => .sel .BV_UGT [.p 0, .p 1]
  | .BV_UGE => .sel .BV_UGE [.p 0, .p 1]
  | .BV_SLT => .sel .BV_SLT [.p 0, .p 1]
  | .BV_SLE => .sel .BV_SLE [.p 0, .p 1]
  | .BV_SGT => .sel .BV_SGT [.p 0, .p 1]
  | .BV_SGE => .sel .BV_SGE [.p 0, .p 1]
  | .BV_CONCAT => .all .BV_CONCAT
  | .BV_TO_INT => .sel .BV_TO_INT [.p 0]
  | .BV_TO_NAT => .sel .BV_TO_NAT [.p 0]
  | .NAT_TO_BV => .sel .NAT_TO_BV [.p 0, .p 1]
  | .INT_TO_BV => .sel .INT_TO_BV [.p 0, .a 0]
  | .BV_EXTRACT => .sel .BV_EXTRACT [.p 0, .a 0, .a 1]
  | .BV_REPEAT => .sel .BV_REPEAT [.p 0, .a 0]
  | .BV_ZERO_EXT => .sel .BV_ZERO_EXT [.p 0, .a 0]
  | .BV_SIGN_EXT => .sel .BV_SIGN_EXT [.p 0, .a 0]
  | .BV_ROTATE_LEFT => .sel .BV_ROTATE_LEFT [.p 0, .a 0]
  | .BV_ROTATE_RIGHT => .sel .BV_ROTATE_RIGHT [.p 0, .a 0]
  | .FP_ABS => .sel .FP_ABS [.p 0]
  | .FP_NEG => .sel .FP_NEG [.p 0]
  | .FP_ADD => .all .FP_ADD
  | .FP_SUB => .all .FP_SUB
  | .FP_MUL => .all .FP_MUL
  | .FP_DIV => .all .FP_DIV
  | .FP_FMA => .all .FP_FMA
  | .FP_SQRT => .opt12 .FP_SQRT
  | .FP_REM => .sel .FP_REM [.p 0, .p 1]
  | .FP_ROUND_TO_INTEGRAL => .opt12 .FP_ROUND_TO_INTEGRAL
  | .FP_MIN => .all .FP_MIN
  | .FP_MAX => .all .FP_MAX
  | .FP_LE => .chain .FP_LE
  | .FP_LT => .chain .FP_LT
  | .FP_GE => .chain .FP_GE
  | .FP_GT => .chain .FP_GT
  | .FP_EQ => .chain .FP_EQ
  | .FP_TO_UBV => .sel .FP_TO_UBV [.p 0, .p 1, .a 0]
  | .FP_TO_SBV => .sel .FP_TO_SBV [.p 0, .p 1, .a 0]
  | .FP_TO_REAL => .sel .FP_TO_REAL [.p 0]
  | .FP_TO_FP => .toFp
  | .FP_TO_FP_UNSIGNED => .toFpUnsigned
  | .FP_IS_NORMAL => .sel .FP_IS_NORMAL [.p 0]
  | .FP_IS_SUBNORMAL => .sel .FP_IS_SUBNORMAL [.p 0]
  | .FP_IS_ZERO => .sel .FP_IS_ZERO [.p 0]
  | .FP_IS_INF => .sel .FP_IS_INF [.p 0]
  | .FP_IS_NAN => .sel .FP_IS_NAN [.p 0]
  | .FP_IS_NEG => .sel .FP_IS_NEG [.p 0]
  | .FP_IS_POS => .sel .FP_IS_POS [.p 0]
  | .SELECT => .sel .SELECT [.p 0, .p 1]
  | .STORE => .sel .STORE [.p 0, .p 1, .p 2]
  | .STR_LEN => .sel .STR_LEN [.p 0]
  | .STR_CONCAT => .all .STR_CONCAT
  | .STR_SUBSTR => .sel .STR_SUBSTR [.p 0, .p 1, .p 2]
  | .STR_PREFIXOF => .sel .STR_PREFIXOF [.p 0, .p 1]
  | .STR_SUFFIXOF => .sel .STR_SUFFIXOF [.p 0, .p 1]
  | .STR_INDEXOF => .sel .STR_INDEXOF [.p 0, .p 1, .p 2]
  | .STR_CHARAT => .sel .STR_CHARAT [.p 0, .p 1]
  | .STR_UPDATE => .sel .STR_UPDATE [.p 0, .p 1, .p 2]
  | .STR_REPLACE => .sel .STR_REPLACE [.p 0, .p 1, .p 2]
  | .STR_REPLACE_ALL => .sel .STR_REPLACE_ALL [.p 0, .p 1, .p 2]
  | .STR_REPLACE_REG => .sel .STR_REPLACE_REG [.p 0, .p 1, .p 2]
  | .STR_REPLACE_REG_ALL => .sel .STR_REPLACE_REG_ALL [.p 0, .p 1, .p 2]
  | .STR_INDEXOF_REG => .sel .STR_INDEXOF_REG [.p 0, .p 1]
  | .STR_TO_LOWER => .sel .STR_TO_LOWER [.p 0]
  | .STR_TO_UPPER => .sel .STR_TO_UPPER [.p 0]
  | .STR_REV => .sel .STR_REV [.p 0]
  | .STR_SPLIT => .sel .STR_SPLIT [.p 0, .p 1]
  | .STR_SPLIT_AT => .sel .STR_SPLIT_AT [.p 0, .p 1, .p 2]
  | .STR_SPLIT_REST => .sel .STR_SPLIT_REST [.p 0, .p 1, .p 2]
  | .STR_NUM_SPLITS => .sel .STR_NUM_SPLITS [.p 0, .p 1]
  | .STR_SPLIT_AT_RE => .sel .STR_SPLIT_AT_RE [.p 0, .p 1, .p 2]
  | .STR_SPLIT_REST_RE => .sel .STR_SPLIT_REST_RE [.p 0, .p 1, .p 2]
  | .STR_NUM_SPLITS_RE => .sel .STR_NUM_SPLITS_RE [.p 0, .p 1]
  | .STR_LT => .sel .STR_LT [.p 0, .p 1]
  | .STR_LE => .sel .STR_LE [.p 0, .p 1]
  | .STR_GT => .sel .STR_GT [.p 0, .p 1]
  | .STR_GE => .sel .STR_GE [.p 0, .p 1]
  | .STR_IN_REG => .sel .STR_IN_REG [.p 0, .p 1]
  | .STR_CONTAINS => .sel .STR_CONTAINS [.p 0, .p 1]
  | .STR_IS_DIGIT => .sel .STR_IS_DIGIT [.p 0]
  | .STR_FROM_INT => .sel .STR_FROM_INT [.p 0]
  | .STR_TO_INT => .sel .STR_TO_INT [.p 0]
  | .STR_TO_REG => .sel .STR_TO_REG [.p 0]
  | .STR_TO_CODE => .sel .STR_TO_CODE [.p 0]
  | .STR_FROM_CODE => .sel .STR_FROM_CODE [.p 0]
  | .REG_CONCAT => .all .REG_CONCAT
  | .REG_UNION => .all .REG_UNION
  | .REG_INTER => .all .REG_INTER
  | .REG_DIFF => .all .REG_DIFF
  | .REG_STAR => .sel .REG_STAR [.p 0]
  | .REG_PLUS => .sel .REG_PLUS [.p 0]
  | .REG_OPT => .sel .REG_OPT [.p 0]
  | .REG_RANGE => .sel .REG_RANGE [.p 0, .p 1]
  | .REG_REPEAT => .sel .REG_REPEAT [.p 0, .p 1]
  | .REG_COMPLEMENT => .sel .REG_COMPLEMENT [.p 0]
  | .REG_LOOP => .sel .REG_LOOP [.p 0, .a 0, .a 1]
  | _ => .unknown

/-- the fast path (`src/expr_parser.cpp:454-517`), in the order of the tests -/
def fast : List (List Char × Disp) := [
  (cs!"=", .all .EQ), (cs!"and", .all .AND), (cs!"=>", .all .IMPLIES), (cs!"or", .all .OR), (cs!"not", .sel .NOT [.p 0]),
  (cs!"ite", .all .ITE), (cs!"distinct", .all .DISTINCT), (cs!"+", .all .ADD), (cs!"-", .all .SUB), (cs!"*", .all .MUL),
  (cs!"<=", .sel .LE [.p 0, .p 1]), (cs!"<", .sel .LT [.p 0, .p 1]), (cs!">=", .sel .GE [.p 0, .p 1]), (cs!">", .sel .GT [.p 0, .p 1]),
  (cs!"bvult", .sel .BV_ULT [.p 0, .p 1]), (cs!"bvugt", .sel .BV_UGT [.p 0, .p 1]), (cs!"bvule", .sel .BV_ULE [.p 0, .p 1]),
  (cs!"bvuge", .sel .BV_UGE [.p 0, .p 1]), (cs!"bvsgt", .sel .BV_SGT [.p 0, .p 1]), (cs!"bvsle", .sel .BV_SLE [.p 0, .p 1]),
  (cs!"bvslt", .sel .BV_SLT [.p 0, .p 1]), (cs!"bvsge", .sel .BV_SGE [.p 0, .p 1])]

/-- what a name in scope stands for: a variable of a quantifier, or the value of a let -/
inductive Stands (α : Type := N) where
  | var (s : Option D)
  | val (n : α)

/-- the names in scope, the innermost first -/
abbrev Names (α : Type := N) := List (List Char × Stands α)

/-- nodes have names (`getPureName`) -/
class HasName (α : Type) where
  name : α → List Char

instance : HasName N := ⟨N.name⟩

/-- the node constructors, for some state of the parser.  Simplification: the constructors of sorted nodes get the sort that the sort object
stands for.  `α` is the type of nodes: the printable nodes of `Verif.Print`, or the terms of `Verif.Term` (in `Verif.Mean`). -/
structure Ctors (α : Type := N) where
  /-- the constructor of the kind, `src/op_parser.cpp` -/
  op : K → List α → Res α
  /-- the names in `fun_key_map` -/
  isFun : List Char → Bool
  /-- `applyFun(fun_key_map[name], operands)` -/
  apply : List Char → List α → Res α
  /-- `parseConstFunc` (`src/expr_parser.cpp:598-768`), with `allow_placeholder_vars` -/
  leaf : Names α → List Char → Bool → Res α
  /-- `mkForall`, `mkExists` with the variables made by `mkQuantVar` -/
  quant : List Char → List (List Char × Option D) → α → Res α
  /-- `mkConstBv` for `(_ bvN w)` -/
  bv : List Char → Nat → Res α
  /-- the special floating-point values -/
  fpc : List Char → Nat → Nat → Res α
  /-- `mkFpConst` -/
  fp : List α → Res α
  /-- `mkConstArray` -/
  constArr : Option D → α → Res α
  /-- `mkPlaceholderVar` for `(_ as-array f)` -/
  asArray : List Char → Res α
  /-- `mkRootObj` -/
  rootObj : α → Int → Res α
  /-- `mkRootOfWithInterval`, the coefficients and the bounds -/
  rootInt : List α → Res α
  /-- `mkRealAlgebraicNumber` -/
  ran : List α → Res α

/-- the operands of a case; an operand that is not there is undefined behaviour -/
def select {α : Type} (as ps : List α) : List Sel → Res (List α)
  | [] => .ok []
  | .p i :: s =>
    match ps[i]? with
    | none => .ub
    | some x => do
      let xs ← select as ps s
      return x :: xs
  | .a i :: s =>
    match as[i]? with
    | none => .ub
    | some x => do
      let xs ← select as ps s
      return x :: xs

/-- the neighbours related (`src/expr_parser.cpp:1153-1158` and so on) -/
def pairs {α : Type} (I : Ctors α) (c : K) : List α → Res (List α)
  | x :: y :: l => do
    let r ← I.op c [x, y]
    let rs ← pairs I c (y :: l)
    return r :: rs
  | _ => .ok []

/-- a case of `parseOper` -/
def runCase {α : Type} (I : Ctors α) (as ps : List α) : Disp → Res α
  | .all c => I.op c ps
  | .sel c s => do
    let xs ← select as ps s
    I.op c xs
  | .log =>
    match ps with
    | [x] => I.op .LN [x]
    | [x, y] => I.op .LOG [x, y]
    | _ => .abort
  | .opt12 c =>
    match ps with
    | [x] => I.op c [x]
    | [x, y] => I.op c [x, y]
    | _ => .abort
  | .chain c =>
    match ps with
    | [x, y] => I.op c [x, y]
    | _ => do
      let rs ← pairs I c ps
      I.op .AND rs
  | .toFp =>
    match as, ps with
    | [e, s], [r, x] => I.op .FP_TO_FP [e, s, r, x]
    | [e, s], [x] => I.op .FP_TO_FP [e, s, x]
    | [_, _], _ => .abort
    | _, [e, s, x] => I.op .FP_TO_FP [e, s, x]
    | _, _ => .abort
  | .toFpUnsigned =>
    match as, ps with
    | [e, s], [r, x] => I.op .FP_TO_FP_UNSIGNED [r, x, e, s]
    | _, _ => .abort
  | .unknown => .abort

/-- `parseOper` (`src/expr_parser.cpp:780-1430`); the index of `root-obj` is read by the constructor -/
def parseOper {α : Type} [HasName α] (I : Ctors α) (op : List Char) (as ps : List α) : Res α :=
  if I.isFun op then I.apply op ps
  else if op = cs!"root-obj" then
    match ps with
    | e :: i :: _ => do
      let j ← stoi (HasName.name i)
      I.rootObj e j
    | _ => .ub
  else runCase I as ps (disp (getOperKind (String.ofList op)))

/-- the end of an operator (`src/expr_parser.cpp:450-517`, `551-560`): the fast path is for operators without indices.  Simplification:
`((_ op) x)`, with an empty list of indices, is not told from `(op x)`. -/
def callOper {α : Type} [HasName α] (I : Ctors α) (op : List Char) (as ps : List α) : Res α :=
  if as.isEmpty then
    match fast.lookup op with
    | some d => runCase I as ps d
    | none => parseOper I op as ps
  else parseOper I op as ps

mutual
/-- The calls carried out, from the leaves.  Let bindings are expanded, a binding being visible in the next ones (`parsing_preserve_let`
off, `src/base_parser.cpp:1726-1832`); the nodes made in the other mode are in `Verif.Scope`. -/
def build {α : Type} [HasName α] (I : Ctors α) (sc : Names α) : T (Option D) → Res α
  | .mk tag cs =>
    match tag with
    | .sym s ph => I.leaf sc s ph
    | .app op n => do
      let xs ← buildL I sc cs
      callOper I op (xs.take n) (xs.drop n)
    | .quant h vs => do
      let xs ← buildL I (vs.reverse.map (fun v => (v.1, .var v.2)) ++ sc) cs
      match xs with
      | [b] => I.quant h vs b
      | _ => .ub
    | .lets ns => buildLets I sc ns cs
    | .bv n w => I.bv n w
    | .fpc w e s => I.fpc w e s
    | .fp => do
      let xs ← buildL I sc cs
      I.fp xs
    | .constArr s => do
      let xs ← buildL I sc cs
      match xs with
      | [v] => I.constArr s v
      | _ => .ub
    | .asArray a => I.asArray a
    | .named _ => do
      let xs ← buildL I sc cs
      match xs with
      | [b] => .ok b
      | _ => .ub
    | .rootObj i => do
      let xs ← buildL I sc cs
      match xs with
      | [e] => I.rootObj e i
      | _ => .ub
    | .rootInt => do
      let xs ← buildL I sc cs
      I.rootInt xs
    | .ran => do
      let xs ← buildL I sc cs
      I.ran xs
/-- the calls of a list -/
def buildL {α : Type} [HasName α] (I : Ctors α) (sc : Names α) : List (T (Option D)) → Res (List α)
  | [] => .ok []
  | t :: ts => do
    let x ← build I sc t
    let xs ← buildL I sc ts
    return x :: xs
/-- the values of a let and its body -/
def buildLets {α : Type} [HasName α] (I : Ctors α) (sc : Names α) : List (List Char) → List (T (Option D)) → Res α
  | n :: ns, v :: vs => do
    let x ← build I sc v
    buildLets I ((n, .val x) :: sc) ns vs
  | [], b :: _ => build I sc b
  | _, [] => .ub
end

end SMT.Parse
