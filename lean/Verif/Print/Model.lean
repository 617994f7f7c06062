import Verif.Basic
import Verif.Kind.Model
import Verif.Sort.Model
import Verif.Text.Dec

/-!
# The printer (C39)

`src/dag.cpp:58-91` (`dumpConst`), `94-860` (`dumpSMTLIB2_streaming`, `dumpSMTLIB2`), `863-898` (`dumpFuncDef`, `dumpFuncRec`,
`dumpFuncDec`), `include/dag.h:681-686` (`getPureName`).

The printer is a loop over a stack of work items.  An item is a node to be processed or a text to be written; the actions 1, 2 and 3
write fixed texts.  Nodes are trees (sharing is not visible to the printer), child pointers are not null, and reading a child that is
not there is undefined behaviour (`Res.ub`).  The cache of operator names is filled before it is read; it is a constant table here.
-/

namespace SMT.Print
open SMT SMT.Text SMT.Kinds SMT.Sorts

/-- `DAGNode` (`include/dag.h:60-120`), the fields the printer reads -/
inductive N where
  | mk (kind : K) (name : List Char) (sort : Srt) (children : List N)

namespace N
/-- `getKind` -/
def kind : N → K | mk k _ _ _ => k
/-- `getName` -/
def name : N → List Char | mk _ n _ _ => n
/-- `getSort` -/
def sort : N → Srt | mk _ _ s _ => s
/-- `getChildren` -/
def children : N → List N | mk _ _ _ c => c
end N

/-- `WorkItem` (`src/dag.cpp:137-146`): action 0, 1, 2, 3, 4 -/
inductive Item where
  | node (n : N)
  | space
  | close
  | closeSpace
  | text (t : List Char)

/-- the text before the first occurrence of `p` in `s`, all of `s` if there is none: `s.substr(0, s.find(p))` -/
def cutAt (p : List Char) : List Char → List Char
  | [] => []
  | c :: s => if p.isPrefixOf (c :: s) then [] else c :: cutAt p s

/-- `PRESERVING_LET_BIND_VAR_SUFFIX` (`include/kind.h:166`) -/
def letSuffix : List Char := cs!"_SMTParser_Preserving_Let_Bind_Var_Suffix_"

/-- `getPureName` (`include/dag.h:681-686`) -/
def pureName (n : N) : List Char := if n.kind = .LET_BIND_VAR then cutAt letSuffix n.name else n.name

/-- `dumpConst` (`src/dag.cpp:58-91`); `name[0]` of an empty name is the terminating NUL -/
def dumpConst (name : List Char) (s : Srt) : List Char :=
  if s.kind = .REAL || s.kind = .INT || s.kind = .INTOREAL then
    match name with
    | '-' :: r => cs!"(- " ++ r ++ cs!")"
    | _ => name
  else name

/-- the operator names of `kind_cache` that are read (`src/dag.cpp:103-134`) -/
def kindCache : K → List Char
  | .NOT => cs!"not" | .AND => cs!"and" | .OR => cs!"or" | .ADD => cs!"+" | .MUL => cs!"*" | .SUB => cs!"-" | .EQ => cs!"="
  | .LE => cs!"<=" | .LT => cs!"<" | .GE => cs!">=" | .GT => cs!">" | .DIV_REAL => cs!"/" | .NEG => cs!"-" | .DISTINCT => cs!"distinct"
  | _ => []

/-- `kindToString` as characters -/
def kindName (k : K) : List Char := (kindToString k).toList

/-- `for (int i = children.size() - 1; i >= lo; i--) { push child i; push space; }`, in the order of the pushes -/
def pushArgs (cs : List N) : List Item := cs.reverse.flatMap fun c => [.node c, .space]

/-- the pushes for one binding (`src/dag.cpp:458-467`, `495-504`): `)`, value, space, name, `(`, and a space unless it is the first -/
def pushBind (first : Bool) (b : N) : Option (List Item) := do
  let v ← b.children[0]?
  some ([.text cs!")", .node v, .text cs!" ", .text (pureName b), .text cs!"("] ++ if first then [] else [.text cs!" "])

/-- the pushes for a list of bindings, from the last one to the first -/
def pushBinds : Bool → List N → Option (List Item)
  | _, [] => some []
  | first, b :: bs => do
    let r ← pushBinds false bs
    let x ← pushBind first b
    some (r ++ x)

/-- the pushes for the binding lists of a let chain, from the last one to the first (`src/dag.cpp:488-507`) -/
def pushChain : List N → Option (List Item)
  | [] => some []
  | l :: ls => do
    let r ← pushChain ls
    let b ← pushBinds true l.children
    some (r ++ ([.text cs!") "] ++ b ++ [.text cs!"(let ("]))

/-- the variables of a quantifier (`src/dag.cpp:403-411`) -/
def quantVars : Bool → List N → List Char
  | _, [] => []
  | first, v :: vs => (if first then [] else cs!" ") ++ cs!"(" ++ v.name ++ cs!" " ++ print v.sort ++ cs!")" ++ quantVars false vs

/-- a named special value, or its default text (`src/dag.cpp:348-379`) -/
def special (n : N) (dflt : List Char) : List Char :=
  match n.name with
  | '(' :: _ => n.name
  | _ => dflt

/-- The `switch` on the kind (`src/dag.cpp:180-850`): the text written at once and the items pushed, in the order of the pushes. -/
def expand (n : N) : Option (List Char × List Item) :=
  let cs := n.children
  match n.kind with
  | .CONST_TRUE => some (cs!"true", [])
  | .CONST_FALSE => some (cs!"false", [])
  | .CONST =>
    if n.name = cs!"(fp_bit_representation)" && cs.length = 3 then do
      let sign ← cs[0]?
      let exp ← cs[1]?
      let mant ← cs[2]?
      some (cs!"(fp ", [.close, .node mant, .space, .node exp, .space, .node sign])
    else some (dumpConst n.name n.sort, [])
  | .VAR | .TEMP_VAR | .PLACEHOLDER_VAR => some (n.name, [])
  | .CONST_ARRAY => do
    let c ← cs[0]?
    some (cs!"((as const " ++ print n.sort ++ cs!") ", [.close, .node c])
  | .EQ | .LE | .LT | .GE | .GT | .ADD | .MUL | .SUB | .DIV_REAL =>
    match cs with
    | [c0, c1] => some (cs!"(" ++ kindCache n.kind ++ cs!" ", [.close, .node c1, .space, .node c0])
    | _ => some (cs!"(" ++ kindCache n.kind, [.close] ++ pushArgs cs)
  | .AND | .OR | .DISTINCT => some (cs!"(" ++ kindCache n.kind, [.close] ++ pushArgs cs)
  | .REG_LOOP => do
    let c0 ← cs[0]?
    let c1 ← cs[1]?
    let c2 ← cs[2]?
    some (cs!"((_ re.loop ", [.close, .node c0, .closeSpace, .node c2, .space, .node c1])
  | .NOT | .NEG => do
    let c ← cs[0]?
    some (cs!"(" ++ kindCache n.kind ++ cs!" ", [.close, .node c])
  | .ITE => do
    let c0 ← cs[0]?
    let c1 ← cs[1]?
    let c2 ← cs[2]?
    some (cs!"(ite ", [.close, .node c2, .space, .node c1, .space, .node c0])
  | .BV_EXTRACT => do
    let c0 ← cs[0]?
    let c1 ← cs[1]?
    let c2 ← cs[2]?
    some (cs!"((_ extract ", [.close, .node c0, .closeSpace, .node c2, .space, .node c1])
  | .BV_REPEAT | .BV_ZERO_EXT | .BV_SIGN_EXT | .BV_ROTATE_LEFT | .BV_ROTATE_RIGHT => do
    let c0 ← cs[0]?
    let c1 ← cs[1]?
    some (cs!"((_ " ++ kindName n.kind ++ cs!" ", [.close, .node c0, .closeSpace, .node c1])
  | .CONST_PI => some (cs!"pi", [])
  | .CONST_E => some (cs!"e", [])
  | .INFINITY => some (special n cs!"inf", [])
  | .POS_INFINITY => some (special n cs!"+inf", [])
  | .NEG_INFINITY => some (special n cs!"-inf", [])
  | .NAN => some (special n cs!"NaN", [])
  | .EPSILON => some (cs!"epsilon", [])
  | .POS_EPSILON => some (cs!"+epsilon", [])
  | .NEG_EPSILON => some (cs!"-epsilon", [])
  | .REG_NONE => some (cs!"re.none", [])
  | .REG_ALL => some (cs!"re.all", [])
  | .REG_ALLCHAR => some (cs!"re.allchar", [])
  | .FORALL | .EXISTS => do
    let body ← cs[0]?
    some (cs!"(" ++ kindName n.kind ++ cs!" (" ++ quantVars true (cs.drop 1) ++ cs!") ", [.close, .node body])
  | .QUANT_VAR | .FUNC_DEC | .FUNC_DEF | .FUNC_REC | .FUNC_PARAM => some (n.name, [])
  | .FUNC_APPLY | .FUNC_REC_APPLY =>
    if cs.length ≤ 1 then some (n.name, []) else some (cs!"(" ++ n.name, [.close] ++ pushArgs (cs.drop 1))
  | .LET => do
    let body ← cs[0]?
    let b ← pushBinds true (cs.drop 1)
    some ([], [.text cs!")", .node body, .text cs!") "] ++ b ++ [.text cs!"(let ("])
  | .LET_CHAIN => do
    let body ← cs.getLast?
    let b ← pushChain cs.dropLast
    some ([], List.replicate (cs.length - 1) (.text cs!")") ++ [.node body] ++ b)
  | .LET_BIND_VAR => some (pureName n, [])
  | .LET_BIND_VAR_LIST => do
    let b ← pushBinds true (cs.drop 1)
    some ([], [.text cs!")"] ++ b ++ [.text cs!"( "])
  | .UF_APPLY => if cs.isEmpty then some (n.name, []) else some (cs!"(" ++ n.name, [.close] ++ pushArgs cs)
  | .FP_ADD | .FP_SUB | .FP_MUL | .FP_DIV | .FP_FMA | .FP_MIN | .FP_MAX | .FP_SQRT | .FP_ROUND_TO_INTEGRAL =>
    some (cs!"(" ++ kindName n.kind, [.close] ++ pushArgs cs)
  | .FP_ABS | .FP_NEG | .FP_IS_NORMAL | .FP_IS_SUBNORMAL | .FP_IS_ZERO | .FP_IS_INF | .FP_IS_NAN | .FP_IS_NEG | .FP_IS_POS
  | .FP_TO_REAL => do
    let c ← cs[0]?
    some (cs!"(" ++ kindName n.kind ++ cs!" ", [.close, .node c])
  | .FP_REM => do
    let c0 ← cs[0]?
    let c1 ← cs[1]?
    some (cs!"(fp.rem ", [.close, .node c1, .space, .node c0])
  | .FP_LE | .FP_LT | .FP_GE | .FP_GT | .FP_EQ => do
    let c0 ← cs[0]?
    let c1 ← cs[1]?
    some (cs!"(" ++ kindName n.kind ++ cs!" ", [.close, .node c1, .space, .node c0])
  | .FP_TO_UBV | .FP_TO_SBV => do
    let rm ← cs[0]?
    let fp ← cs[1]?
    let size ← cs[2]?
    some (cs!"((_ " ++ kindName n.kind ++ cs!" ", [.close, .node fp, .space, .node rm, .closeSpace, .node size])
  | .FP_TO_FP => do
    let eb ← cs[0]?
    let sb ← cs[1]?
    if cs.length = 4 then do
      let rm ← cs[2]?
      let param ← cs[3]?
      some (cs!"((_ to_fp ", [.close, .node param, .space, .node rm, .closeSpace, .node sb, .space, .node eb])
    else if cs.length = 3 then do
      let param ← cs[2]?
      some (cs!"((_ to_fp ", [.close, .node param, .closeSpace, .node sb, .space, .node eb])
    else some (cs!"INVALID_FP_TO_FP_NODE", [])
  | .FP_TO_FP_UNSIGNED => do
    let eb ← cs[0]?
    let sb ← cs[1]?
    let rm ← cs[2]?
    let param ← cs[3]?
    some (cs!"((_ to_fp_unsigned ", [.close, .node param, .space, .node rm, .closeSpace, .node sb, .space, .node eb])
  | .ROOT_OBJ => do
    let expr ← cs[0]?
    let index ← cs[1]?
    some (cs!"(root-obj ", [.close, .node index, .space, .node expr])
  | .ROOT_OF_WITH_INTERVAL => do
    let upper ← cs[cs.length - 1]?
    let lower ← if 2 ≤ cs.length then cs[cs.length - 2]? else none
    some (cs!"(root-of-with-interval (coeffs ", [.close, .node upper, .space, .node lower, .space, .close] ++ pushArgs (cs.take (cs.length - 2)))
  | .REAL_ALGEBRAIC_NUMBER => do
    let poly ← cs[0]?
    let lower ← cs[1]?
    let upper ← cs[2]?
    some (cs!"(_ real_algebraic_number <", [.text cs!">", .close, .node upper, .space, .text cs!",", .node lower, .space, .text cs!"(",
      .space, .text cs!",", .node poly])
  | .SELECT => do
    let c0 ← cs[0]?
    let c1 ← cs[1]?
    some (cs!"(select ", [.close, .node c1, .space, .node c0])
  | .STORE => do
    let c0 ← cs[0]?
    let c1 ← cs[1]?
    let c2 ← cs[2]?
    some (cs!"(store ", [.close, .node c2, .space, .node c1, .space, .node c0])
  | k =>
    match cs with
    | [] => some (kindName k, [])
    | [c] => some (cs!"(" ++ kindName k ++ cs!" ", [.close, .node c])
    | _ => some (cs!"(" ++ kindName k, [.close] ++ pushArgs cs)

/-- The loop (`src/dag.cpp:153-852`).  The top of the stack is the head of the list, so that pushing puts the pushed items in front in
reverse order.  The fuel only makes the definition structural; the theorems give a fuel that is enough. -/
def loop : Nat → List Item → List Char → Res (List Char)
  | _, [], out => .ok out
  | 0, _ :: _, _ => .diverge
  | f + 1, i :: st, out =>
    match i with
    | .space => loop f st (out ++ cs!" ")
    | .close => loop f st (out ++ cs!")")
    | .closeSpace => loop f st (out ++ cs!") ")
    | .text t => loop f st (out ++ t)
    | .node n =>
      match expand n with
      | none => .ub
      | some (t, push) => loop f (push.reverse ++ st) (out ++ t)

/-- `dumpSMTLIB2` (`src/dag.cpp:856-860`) -/
def dump (fuel : Nat) (n : N) : Res (List Char) := loop fuel [.node n] []

/-- `dumpFuncDef` and `dumpFuncRec` (`src/dag.cpp:863-886`); `kw` is `define-fun` or `define-fun-rec` -/
def dumpFun (kw : List Char) (fuel : Nat) (n : N) : Res (List Char) :=
  match n.children with
  | [] => .ub
  | body :: ps => (dump fuel body).bind fun t =>
      .ok (cs!"(" ++ kw ++ cs!" " ++ n.name ++ cs!" (" ++ quantVars true ps ++ cs!") " ++ print n.sort ++ cs!" " ++ t ++ cs!")")

/-- the parameter sorts of a declaration (`src/dag.cpp:890-893`) -/
def sortList : Bool → List N → List Char
  | _, [] => []
  | first, v :: vs => (if first then [] else cs!" ") ++ print v.sort ++ sortList false vs

/-- `dumpFuncDec` (`src/dag.cpp:887-897`) -/
def dumpFuncDec (n : N) : List Char :=
  cs!"(declare-fun " ++ n.name ++ cs!" (" ++ sortList true (n.children.drop 1) ++ cs!") " ++ print n.sort ++ cs!")"

end SMT.Print
