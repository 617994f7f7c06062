import Verif.Parse.Build
import Verif.Parse.Leaf
import Verif.Term.Model
import Verif.Script.Model
import Verif.Mean.BvModel
import Verif.Mean.ArModel
import Verif.Mean.StrModel

/-!
# The nodes made for a written term (C79, C80)

`Verif.Parse.Model` gives the tree of calls the parser makes for a text, `Verif.Parse.Build` says which constructor is called for an operator
and with which operands, `Verif.Parse.Leaf` how a symbol is looked up, and `Verif.Term.Model` what the constructors do.  Here the four are put
together: the constructors of `Verif.Term` are the constructors of `Verif.Parse.Build`.
-/

namespace SMT.Mean
open SMT SMT.Text SMT.Kinds SMT.Sorts SMT.Parse

/-- the sort of a node (`include/sort.h`).  Simplification: the sorts of `Verif.Term` keep apart `Bool`, `Int`, `Real`, `String` and the
bit-vectors only. -/
def toSrt : D → SMT.Srt
  | .bool => .bool
  | .int => .int
  | .real => .real
  | .str => .str
  | .bv w => .bv w
  | _ => .other 0 0

/-- `Real(text)` of a decimal (`include/number.h`, `mpfr_set_str`): the digits read from the left; `dot`: behind the point; `k` digits
behind the point so far.  Simplification: the value before it is rounded (`toReal` of `Verif.Term` rounds). -/
def readReal (m k : Nat) (dot : Bool) : List Char → Rat
  | [] => (m : Rat) / ((10 ^ k : Nat) : Rat)
  | c :: s => if c = '.' then readReal m k true s else readReal (m * 10 + (c.toNat - 48)) (if dot then k + 1 else k) dot s

/-- what the parser knows when it reads a term -/
structure Ctx where
  /-- the state the constructors depend on -/
  c : SMT.Cfg
  /-- `var_names`: the declared constants, with their nodes -/
  vars : List (List Char × SMT.Srt)
  /-- `fun_key_map`: the declared functions, with the number of parameters, the sort and the number of the function -/
  funs : List (List Char × Nat × SMT.Srt × Nat)

/-- the tables after declaring constants and functions (`mkVar`, `src/op_parser.cpp:710-732`; `mkFuncDec`, `src/op_parser.cpp:237-264`) -/
def declared (c : SMT.Cfg) (vars : List (List Char × D)) (funs : List (List Char × List D × D)) : Ctx where
  c := c
  vars := vars.map fun v => (v.1, toSrt v.2)
  funs := funs.zipIdx.map fun f => (f.1.1, f.1.2.1.length, toSrt f.1.2.2, f.2)

/-- nodes have names (`DAGNode::getName`, `include/dag.h`); only used for the index of `root-obj` -/
instance : HasName SMT.Term := ⟨fun t => match t with
  | .cint i => Tok.showInt i
  | .creal n _ => n.toList
  | .clit _ n => n.toList
  | .var _ _ n => n.toList
  | _ => []⟩

/-- the constructors by their kind (`src/op_parser.cpp`); `rest` are those not modelled in `Verif.Term` -/
def op (c : SMT.Cfg) (rest : K → List SMT.Term → Res SMT.Term) (k : K) (ts : List SMT.Term) : Res SMT.Term :=
  match k with
  | .AND => .ok (mkAnd c ts)
  | .OR => .ok (mkOr c ts)
  | .XOR => .ok (mkXor c ts)
  | .IMPLIES => .ok (mkImplies c ts)
  | .EQ => .ok (mkEqV c ts)
  | .DISTINCT => .ok (mkDistinctV c ts)
  | .ADD => .ok (mkAdd c ts)
  | .MUL => .ok (mkMul c ts)
  | .SUB => .ok (mkSub c ts)
  | .NOT => match ts with
    | [t] => .ok (mkNot c t)
    | _ => .ub
  | .NEG => match ts with
    | [t] => .ok (mkNeg c t)
    | _ => .ub
  | .ITE => match ts with
    | [a, x, y] => .ok (mkIte c a x y)
    | _ => .abort
  | .LE => match ts with
    | [x, y] => .ok (mkLe2 c x y)
    | _ => .ub
  | .LT => match ts with
    | [x, y] => .ok (mkLt2 c x y)
    | _ => .ub
  | .GE => match ts with
    | [x, y] => .ok (mkGe2 c x y)
    | _ => .ub
  | .GT => match ts with
    | [x, y] => .ok (mkGt2 c x y)
    | _ => .ub
  | k => match bvCtor c k with
    | some f => f ts
    | none => match arCtor c k with
      | some f => f ts
      | none => match strCtor k with
        | some f => f ts
        | none => rest k ts

/-- `applyFun` of a declared function (`src/base_parser.cpp:1857-1868`) -/
def applyDec (X : Ctx) (f : List Char) (ts : List SMT.Term) : Res SMT.Term :=
  match X.funs.lookup f with
  | none => .ub
  | some (n, s, i) => if n ≠ ts.length then .ok .err else .ok (.app (.uf i) s ts)

/-- the constants: `mkTrue`, `mkFalse`, `mkConstInt` (`src/op_parser.cpp:617-623`), `mkConstReal` of a text
(`src/op_parser.cpp:633-638`), `mkConstStr` (`src/op_parser.cpp:651-660`) and `mkConstBv` (`src/op_parser.cpp:661-673`); `rest` are the others -/
def lit (rest : Leaf.Lit → Res SMT.Term) : Leaf.Lit → Res SMT.Term
  | .tru => .ok .tt
  | .fls => .ok .ff
  | .int s => (Tok.toInteger s).bind fun z => .ok (.cint z)
  | .real s => .ok (.creal (String.ofList s) (readReal 0 0 false s))
  | .bv s w => (BV.mkConstBv s w).bind fun k => .ok (ofConst k)
  | .str s => .ok (.clit .str (String.ofList (Str.mkConstStr s)))
  | l => rest l

/-- the values of lets among the names in scope (`let_key_map`, `src/expr_parser.cpp:613-623`) -/
def letsOf : Names SMT.Term → List (List Char × SMT.Term)
  | [] => []
  | (n, .val t) :: sc => (n, t) :: letsOf sc
  | (_, .var _) :: sc => letsOf sc

/-- the quantified variables among the names in scope (`quant_var_map`, `src/expr_parser.cpp:632-640`) -/
def quantsOf : Names SMT.Term → List (List Char × SMT.Term)
  | [] => []
  | (n, .var s) :: sc => (n, .var .quant ((s.map toSrt).getD .unk) (String.ofList n)) :: quantsOf sc
  | (_, .val _) :: sc => quantsOf sc

/-- the tables of `parseConstFunc` (`src/expr_parser.cpp:598-661`).  Simplification: the node of a function, which is not a term, is
some opaque node. -/
def tables (X : Ctx) (sc : Names SMT.Term) : Leaf.Tables SMT.Term where
  holders := []
  lets := letsOf sc
  funs := X.funs.map fun f => (f.1, .app (.misc f.2.1) f.2.2.1 [])
  funVars := []
  quants := quantsOf sc
  vars := X.vars.map fun v => (v.1, .var .var v.2 (String.ofList v.1))

/-- The constructors of `Verif.Term`; those that are not modelled there are taken from `rest`, as are the constants `rlit`. -/
def ctors (X : Ctx) (rest : Ctors SMT.Term) (rlit : Leaf.Lit → Res SMT.Term) : Ctors SMT.Term :=
  { rest with
    op := op X.c rest.op
    isFun := fun n => (X.funs.lookup n).isSome
    apply := applyDec X
    bv := fun s w => (BV.mkConstBv s w).bind fun k => .ok (ofConst k)
    leaf := fun sc s ph => Leaf.parseConstFunc (tables X sc) (lit rlit) (fun n => .ok (.var .placeholder .unk (String.ofList n))) ph s }

/-- `options->isIntTheory()` (`include/options.h:185-187`) -/
def isIntTheory (logic : List Char) : Bool := logic.contains 'I' && !logic.contains 'R'
/-- `options->isRealTheory()` (`include/options.h:188-190`) -/
def isRealTheory (logic : List Char) : Bool := logic.contains 'R'

/-- The tables of a parser (`src/base_parser.cpp`, `var_names`, `fun_key_map`, `options->logic`).  Simplification: functions with a
definition are left out; the theorems are about scripts that have none. -/
def ctxOf (c : SMT.Cfg) (s : Script.S) : Ctx where
  c := { c with intTheory := isIntTheory s.logic, realTheory := isRealTheory s.logic }
  vars := s.vars.map fun v => (v.1, ((sortOf v.2).map toSrt).getD .unk)
  funs := s.funs.zipIdx.filterMap fun f => match f.1.2 with
    | .dec ps o => some (f.1.1, ps.length, ((sortOf o).map toSrt).getD .unk, f.2)
    | _ => none

/-- the node made for a tree of calls (`parseExpr`, `src/expr_parser.cpp:79-594`) -/
def node (X : Ctx) (rest : Ctors SMT.Term) (rlit : Leaf.Lit → Res SMT.Term) (t : T (Option D)) : Res SMT.Term :=
  build (ctors X rest rlit) [] t

end SMT.Mean
