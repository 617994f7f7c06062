import Verif.Mean.Model
import Verif.Subst.Model
import Verif.Script.Spec

/-!
# The nodes made where functions are defined (C82)

`Verif.Mean.Model` with the functions of `define-fun`: the body is read as a term in which the parameters are nodes of their own
(`NT_FUNC_PARAM`), and a call of the function copies it (`Verif.Subst.Model`).
-/

namespace SMT.Mean
open SMT SMT.Text SMT.Kinds SMT.Sorts SMT.Parse

/-- the sort of an output or of a parameter -/
def srtOf (o : Option D) : SMT.Srt := (o.map toSrt).getD .unk

/-- the node of a parameter (`mkFunParamVar`, `src/op_parser.cpp:778-784`).  Simplification: `NT_FUNC_PARAM` is the kind of variable that the
parser never makes, `temp`. -/
def param (p : List Char × Option D) : SMT.Term := .var .temp (srtOf p.2) (String.ofList p.1)

mutual
/-- A node as `applyFunPostOrder` sees it (`src/base_parser.cpp:1964-1999`): a parameter, a constant, another variable, or a node with operands.
A node without operands that is no constant is rebuilt like an operator. -/
def toBody : SMT.Term → Subst.Body
  | .var .temp s x => .param s x
  | .var vk s x => .glob vk s x
  | .app k s ts => .app k s (toBodyL ts)
  | .unknown => .app (.misc 0) .unk []
  | .err => .app (.misc 0) .unk []
  | t => .lit t
/-- a list of nodes -/
def toBodyL : List SMT.Term → List Subst.Body
  | [] => []
  | t :: ts => toBody t :: toBodyL ts
end

/-- the body of a function; if it is an error a call returns it (`src/base_parser.cpp:1891-1893`) -/
def bodyOf (t : SMT.Term) : Subst.Body := if t.isErr then .lit .err else toBody t

/-- `fun_key_map` in the order of its entries, with the function nodes (`src/op_parser.cpp:237-328`) -/
abbrev Funs := List (List Char × Subst.Fn)

/-- what the parser knows when it reads a term: the options, the declared constants (`var_names`), the functions (`fun_key_map`) and the
parameters of the function whose body is read (`fun_var_map`) -/
structure DCtx where
  c : SMT.Cfg
  vars : List (List Char × SMT.Srt)
  funs : Funs
  params : List (List Char × Option D)

/-- `applyFun(fun_key_map[f], ts)` (`src/expr_parser.cpp:780-800`, `src/base_parser.cpp:1857-1915`), with the default options (functions are
expanded, recursive ones are not).  In a body no call is left, so calls do not nest. -/
def applyDef (X : DCtx) (f : List Char) (ts : List SMT.Term) : Res SMT.Term :=
  match X.funs.findIdx? fun g => g.1 == f with
  | none => .ub
  | some i => Subst.applyFun X.c {} (X.funs.map fun g => g.2) 2 i ts

/-- the tables of `parseConstFunc` (`src/expr_parser.cpp:598-661`), as in `Verif.Mean.Model`, and the parameters -/
def dtables (X : DCtx) (sc : Names SMT.Term) : Leaf.Tables SMT.Term where
  holders := []
  lets := letsOf sc
  funs := X.funs.map fun f => (f.1, .app (.misc f.2.uf) f.2.sort [])
  funVars := X.params.map fun p => (p.1, param p)
  quants := quantsOf sc
  vars := X.vars.map fun v => (v.1, .var .var v.2 (String.ofList v.1))

/-- the constructors of `Verif.Term`, with these tables -/
def dctors (X : DCtx) (rest : Ctors SMT.Term) (rlit : Leaf.Lit → Res SMT.Term) : Ctors SMT.Term :=
  { rest with
    op := op X.c rest.op
    isFun := fun n => X.funs.any fun g => g.1 == n
    apply := applyDef X
    bv := fun s w => (BV.mkConstBv s w).bind fun k => .ok (ofConst k)
    leaf := fun sc s ph => Leaf.parseConstFunc (dtables X sc) (lit rlit) (fun n => .ok (.var .placeholder .unk (String.ofList n))) ph s }

/-- One command that makes a function (`src/base_parser.cpp:933-1058`): the entry goes to the end of the table.  While the body of
`define-fun-rec` is read the function is only declared.  Simplifications: the constants and the logic are those at the end of the script, and
the functions of one `define-funs-rec` do not know each other. -/
def addFun (c : SMT.Cfg) (vars : List (List Char × SMT.Srt)) (rest : Ctors SMT.Term) (rlit : Leaf.Lit → Res SMT.Term) (F : Funs)
    (f : List Char × Script.Fn (Option D)) : Res Funs :=
  match f.2 with
  | .dec ps o => .ok (F ++ [(f.1, ⟨F.length, srtOf o, ps.map fun p => (srtOf p, ""), none, false⟩)])
  | .defn ps o b => (build (dctors ⟨c, vars, F, ps⟩ rest rlit) [] b).bind fun t =>
      .ok (F ++ [(f.1, ⟨F.length, srtOf o, ps.map fun p => (srtOf p.2, String.ofList p.1), some (bodyOf t), false⟩)])
  | .recu ps o b =>
    let F' := F ++ [(f.1, ⟨F.length, srtOf o, ps.map fun p => (srtOf p.2, ""), none, false⟩)]
    (build (dctors ⟨c, vars, F', ps⟩ rest rlit) [] b).bind fun t =>
      .ok (F ++ [(f.1, ⟨F.length, srtOf o, ps.map fun p => (srtOf p.2, String.ofList p.1), some (bodyOf t), true⟩)])

/-- the table after the functions were read, one after the other -/
def addFuns (c : SMT.Cfg) (vars : List (List Char × SMT.Srt)) (rest : Ctors SMT.Term) (rlit : Leaf.Lit → Res SMT.Term) :
    Funs → List (List Char × Script.Fn (Option D)) → Res Funs
  | F, [] => .ok F
  | F, f :: fs => (addFun c vars rest rlit F f).bind fun F' => addFuns c vars rest rlit F' fs

/-- what a parser knows when it reads a term of an assertion, its state being `s` (no function body is being read) -/
def dctxOf (c : SMT.Cfg) (rest : Ctors SMT.Term) (rlit : Leaf.Lit → Res SMT.Term) (s : Script.S) : Res DCtx :=
  let c' : SMT.Cfg := { c with intTheory := isIntTheory s.logic, realTheory := isRealTheory s.logic }
  let vars := s.vars.map fun v => (v.1, ((sortOf v.2).map toSrt).getD .unk)
  (addFuns c' vars rest rlit [] (s.funs.map fun f => (f.1, f.2.map sortOf))).bind fun F => .ok ⟨c', vars, F, []⟩

/-- the node made for a tree of calls -/
def dnode (X : DCtx) (rest : Ctors SMT.Term) (rlit : Leaf.Lit → Res SMT.Term) (t : T (Option D)) : Res SMT.Term :=
  build (dctors X rest rlit) [] t

end SMT.Mean
