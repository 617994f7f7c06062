import Verif.Store.Walk

/-!
# Collecting variables and atoms from a shared term graph (`src/conv_parser.cpp:34-216, 1889-1914`)

Nodes live on the heap of `Verif/Store/Model.lean` and are named by pointers; the hash sets of the code are keyed by
pointer and are lists here, in order of insertion.
-/

namespace SMT.Walk
open SMT.Kinds SMT.Text SMT.Store

/-- the two hash sets a collector works on, and the number of calls made (an instrumentation) -/
structure W where
  acc : List Nat
  vis : List Nat
  calls : Nat

/-- `unordered_set::insert` -/
def ins (l : List Nat) (p : Nat) : List Nat := if p ∈ l then l else l ++ [p]

/-- The shape shared by the four collectors (`src/conv_parser.cpp:45-60, 75-92, 170-183, 198-211`): a visited node is
skipped; a node satisfying `hit` is inserted and not entered; a node satisfying `down` is entered.  The first argument
bounds the recursion depth (children were allocated before their parent, so depth `p + 1` is never exceeded). -/
def collect (H : Heap) (hit down : Nat → Bool) : Nat → Nat → W → W
  | 0, _, w => w
  | n + 1, p, w =>
    if p ∈ w.vis then { w with calls := w.calls + 1 }
    else if hit p then ⟨ins w.acc p, w.vis ++ [p], w.calls + 1⟩
    else if down p then (kids H p).foldl (fun w c => collect H hit down n c w) ⟨w.acc, w.vis ++ [p], w.calls + 1⟩
    else ⟨w.acc, w.vis ++ [p], w.calls + 1⟩

/-- the loop over a list of expressions with one visited set (`src/conv_parser.cpp:39-44, 158-163, 186-191`) -/
def collectL (H : Heap) (hit down : Nat → Bool) (es : List Nat) (w : W) : W :=
  es.foldl (fun w e => collect H hit down (e + 1) e w) w

/-- what is asked about sorts (`include/sort.h`), by the sort's pointer -/
structure SortTest where
  isBool : Nat → Bool
  isInt : Nat → Bool
  isReal : Nat → Bool
  isIntOrReal : Nat → Bool
  isBv : Nat → Bool
  isFp : Nat → Bool
  isStr : Nat → Bool

/-- kind of the node at a pointer -/
def kindAt (H : Heap) (p : Nat) : K := (H[p]?.map Obj.kind).getD .NULL
/-- sort of the node at a pointer -/
def sortAt (H : Heap) (p : Nat) : Nat := (H[p]?.map Obj.sort).getD 0

/-- `DAGNode::isVar` (`include/dag.h:313-326`): each of `isVBool`, `isVInt`, … also asks for one of these five kinds -/
def isVarK : K → Bool
  | .VAR | .TEMP_VAR | .QUANT_VAR | .LET_BIND_VAR | .PLACEHOLDER_VAR => true
  | _ => false

/-- `DAGNode::isConst` (`include/dag.h:295-302`) -/
def isConstK : K → Bool
  | .CONST | .CONST_TRUE | .CONST_FALSE | .CONST_PI | .CONST_E | .INFINITY | .POS_INFINITY | .NEG_INFINITY | .NAN
  | .EPSILON | .POS_EPSILON | .NEG_EPSILON | .ROOT_OF_WITH_INTERVAL | .ROOT_OBJ | .REAL_ALGEBRAIC_NUMBER => true
  | _ => false

/-- `isArithOp`, `isArithConv`, `isRealNonlinearOp`, `isTranscendentalOp` (`include/dag.h:370, 378, 409, 427`) -/
def isArithK : K → Bool
  | .ADD | .SUB | .MUL | .NEG | .DIV_INT | .DIV_REAL | .MOD | .ABS | .CEIL | .FLOOR | .ROUND => true
  | .TO_REAL | .TO_INT => true
  | .IAND | .POW2 | .POW | .SQRT | .SAFESQRT => true
  | .EXP | .LOG | .LN | .LB | .LG | .SIN | .COS | .SEC | .CSC | .TAN | .COT | .ASIN | .ACOS | .ASEC | .ACSC | .ATAN | .ACOT
  | .SINH | .COSH | .TANH | .SECH | .CSCH | .COTH | .ASINH | .ACOSH | .ATANH | .ASECH | .ACSCH | .ACOTH | .ATAN2 => true
  | _ => false

/-- `isIte() || isMax() || isMin()` -/
def isPickK : K → Bool
  | .ITE | .MAX | .MIN => true
  | _ => false

/-- `DAGNode::isArithTerm` (`include/dag.h:416-419`, `313-318` for `isVInt`, `isCInt`, …) -/
def isArithTerm (S : SortTest) (k : K) (s : Nat) : Bool :=
  isArithK k ||
  (isVarK k && (S.isInt s || S.isReal s)) ||
  (isConstK k && (S.isInt s || S.isIntOrReal s || S.isReal s)) ||
  ((isPickK k || k == .UF_APPLY) && (S.isInt s || S.isReal s || S.isIntOrReal s))

/-- the kinds of `DAGNode::isBVOp` (`include/dag.h:497`) -/
def isBVOpK : K → Bool
  | .BV_NOT | .BV_AND | .BV_OR | .BV_XOR | .BV_NAND | .BV_NOR | .BV_XNOR | .BV_ADD | .BV_SUB | .BV_MUL | .BV_UDIV | .BV_UREM
  | .BV_SDIV | .BV_SREM | .BV_SMOD | .BV_SHL | .BV_LSHR | .BV_ASHR | .BV_CONCAT | .BV_EXTRACT | .BV_REPEAT | .BV_ZERO_EXT
  | .BV_SIGN_EXT | .BV_ROTATE_LEFT | .BV_ROTATE_RIGHT => true
  | _ => false

/-- `DAGNode::isBVTerm` (`include/dag.h:509-515`) -/
def isBVTerm (S : SortTest) (k : K) (s : Nat) : Bool :=
  isBVOpK k || ((isVarK k || isConstK k || isPickK k || k == .UF_APPLY) && S.isBv s)

/-- the kinds of `DAGNode::isFPOp` (`include/dag.h:545`) -/
def isFPOpK : K → Bool
  | .FP_ADD | .FP_SUB | .FP_MUL | .FP_DIV | .FP_ABS | .FP_NEG | .FP_REM | .FP_FMA | .FP_SQRT | .FP_ROUND_TO_INTEGRAL | .FP_MIN
  | .FP_MAX => true
  | _ => false

/-- the kinds of `DAGNode::isFPConv` (`include/dag.h:566`) -/
def isFPConvK : K → Bool
  | .FP_TO_UBV | .FP_TO_SBV | .FP_TO_REAL | .FP_TO_FP | .FP_TO_FP_UNSIGNED => true
  | _ => false

/-- `DAGNode::isFPTerm` (`include/dag.h:568-574`) -/
def isFPTerm (S : SortTest) (k : K) (s : Nat) : Bool :=
  isFPOpK k || ((isFPConvK k || isVarK k || isConstK k || isPickK k || k == .UF_APPLY) && S.isFp s)

/-- the kinds of `DAGNode::isStrOp` (`include/dag.h:613`) -/
def isStrOpK : K → Bool
  | .STR_LEN | .STR_CONCAT | .STR_SUBSTR | .STR_PREFIXOF | .STR_SUFFIXOF | .STR_INDEXOF | .STR_CHARAT | .STR_UPDATE | .STR_REPLACE
  | .STR_REPLACE_ALL | .STR_TO_LOWER | .STR_TO_UPPER | .STR_REV | .STR_SPLIT | .STR_SPLIT_AT | .STR_SPLIT_REST | .STR_NUM_SPLITS
  | .STR_SPLIT_AT_RE | .STR_SPLIT_REST_RE | .STR_NUM_SPLITS_RE => true
  | _ => false

/-- the test on the first operand in `DAGNode::isStrEq` (`include/dag.h:620`) -/
def isStrTerm (S : SortTest) (k : K) (s : Nat) : Bool :=
  isStrOpK k || ((isVarK k || isConstK k || k == .UF_APPLY) && S.isStr s)

/-- `DAGNode::isEq` (`include/dag.h:347`) -/
def isEqK : K → Bool
  | .EQ | .EQ_BOOL | .EQ_OTHER => true
  | _ => false
/-- `DAGNode::isDistinct` (`include/dag.h:350`) -/
def isDistinctK : K → Bool
  | .DISTINCT | .DISTINCT_BOOL | .DISTINCT_OTHER => true
  | _ => false

/-- the kinds that make a node an atom by themselves: `isLe` … (`include/dag.h:422`), `isArithProp` (435), the order tests of
`isBVCompOp` (519-520), `isFPComp` (557), `isFPProp` (584), `isStrComp` (621) and `isStrProp` (627) -/
def isPredK : K → Bool
  | .LE | .LT | .GE | .GT => true
  | .IS_INT | .IS_DIVISIBLE | .IS_PRIME | .IS_EVEN | .IS_ODD => true
  | .BV_ULT | .BV_ULE | .BV_UGT | .BV_UGE | .BV_SLT | .BV_SLE | .BV_SGT | .BV_SGE => true
  | .FP_LE | .FP_LT | .FP_GE | .FP_GT | .FP_EQ => true
  | .FP_IS_NORMAL | .FP_IS_SUBNORMAL | .FP_IS_ZERO | .FP_IS_INF | .FP_IS_NAN | .FP_IS_NEG | .FP_IS_POS => true
  | .STR_LT | .STR_LE | .STR_GT | .STR_GE | .STR_IN_REG | .STR_CONTAINS | .STR_IS_DIGIT => true
  | _ => false

/-- `DAGNode::isAtom` (`include/dag.h:654-657` with `420-422, 435-436, 516-522, 554-558, 585, 620-628`).  An equation without
operands is not built; `getChild(0)` would be undefined there. -/
def isAtom (S : SortTest) (H : Heap) (p : Nat) : Bool :=
  isPredK (kindAt H p) ||
  (kindAt H p == .UF_APPLY && S.isBool (sortAt H p)) ||
  (match kids H p with
   | [] => false
   | a :: as =>
     ((isEqK (kindAt H p) || isDistinctK (kindAt H p)) &&
       (isArithTerm S (kindAt H a) (sortAt H a) || isBVTerm S (kindAt H a) (sortAt H a) ||
        isFPTerm S (kindAt H a) (sortAt H a))) ||
     (isEqK (kindAt H p) && !as.isEmpty && isStrTerm S (kindAt H a) (sortAt H a)))

/-- `Parser::collectVars(exprs, vars)` (`src/conv_parser.cpp:158-183`) -/
def collectVars (H : Heap) (es vars : List Nat) : W :=
  let hit := fun p => isVarK (kindAt H p)
  collectL H hit (fun p => !hit p) es ⟨vars, [], 0⟩

/-- `Parser::collectAssignableVars(exprs, vars)` (`src/conv_parser.cpp:186-211`, `include/dag.h:337`) -/
def collectAssignableVars (H : Heap) (es vars : List Nat) : W :=
  let hit := fun p => isVarK (kindAt H p) || kindAt H p == .UF_APPLY
  collectL H hit (fun p => !hit p) es ⟨vars, [], 0⟩

/-- `Parser::collectAtoms(exprs, atoms)` (`src/conv_parser.cpp:34-60`) -/
def collectAtoms (S : SortTest) (H : Heap) (es atoms : List Nat) : W :=
  collectL H (isAtom S H) (fun p => !isAtom S H p) es ⟨atoms, [], 0⟩

/-- `Parser::collectGroundAtoms(exprs, atoms)` after the conversion to NNF (`src/conv_parser.cpp:67-92`): a visited
expression is skipped before the call, too -/
def collectGroundAtoms (S : SortTest) (H : Heap) (nnfs atoms : List Nat) : W :=
  nnfs.foldl (fun w e => if e ∈ w.vis then w
    else collect H (isAtom S H) (fun p => kindAt H p == .AND) (e + 1) e w) ⟨atoms, [], 0⟩

/-- the loop of `hasSomeKinds` (`src/conv_parser.cpp:1894-1912`): `stack` has the top first; `none`: not finished within
`n` rounds -/
def kindsLoop (H : Heap) (ks : K → Bool) : Nat → List Nat → List Nat → Option Bool
  | _, [], _ => some false
  | 0, _ :: _, _ => none
  | n + 1, p :: stack, v =>
    if p ∈ v then kindsLoop H ks n stack v
    else if ks (kindAt H p) then some true
    else kindsLoop H ks n (((kids H p).filter fun c => decide (c ∉ v ++ [p])).reverse ++ stack) (v ++ [p])

/-- `Parser::hasSomeKinds(expr, kinds)` (`src/conv_parser.cpp:1889-1914`) -/
def hasSomeKinds (H : Heap) (ks : K → Bool) (n : Nat) (p : Nat) : Option Bool := kindsLoop H ks n [p] []

end SMT.Walk
