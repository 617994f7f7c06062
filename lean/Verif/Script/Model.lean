import Verif.Parse.Model
import Verif.Text.Str

/-!
# Scripts (C56, C57)

`src/base_parser.cpp:612-681` (`parseSmtlib2File`, `parseStr`), `748-1430` (`parseCommand`), `src/opt_parser.cpp:42-339` (soft
assertions and objectives), `src/objective.cpp:32-100` (comparison operators), `src/op_parser.cpp:237-328` (`mkFuncDec`, `mkFuncDef`,
`mkFuncRec`), `710-720` (`mkVar`), `include/options.h:81-136` (`setLogic`).

Expressions are kept as the trees of calls of `Verif.Parse.Model`.  Warnings that are only printed are left out.  Hash maps are
association lists whose first entry for a key counts.
-/

namespace SMT.Script
open SMT SMT.Text SMT.Lex SMT.Sorts SMT.Parse

/-- what `fun_key_map` has for a name: `NT_FUNC_DEC`, `NT_FUNC_DEF`, `NT_FUNC_REC` -/
inductive Fn (σ : Type) where
  | dec (ps : List σ) (out : σ)
  | defn (ps : List (List Char × σ)) (out : σ) (body : T σ)
  | recu (ps : List (List Char × σ)) (out : σ) (body : T σ)

/-- the weight of a soft assertion: `mkConstInt`, `mkConstReal` (`src/opt_parser.cpp:87-100`) -/
inductive Weight where
  | int (s : List Char)
  | real (s : List Char)
  deriving DecidableEq

/-- `OPT_KIND` (`include/objective.h`) -/
inductive OptKind where
  | minimize | maximize | maxsat | minsat | lex | pareto | box | minmax | maxmin
  deriving DecidableEq

/-- `COMP_KIND` (`include/objective.h`) -/
inductive Comp where
  | lt | le | gt | ge | bvult | bvule | bvugt | bvuge | bvslt | bvsle | bvsgt | bvsge | fplt | fple | fpgt | fpge | null
  deriving DecidableEq, Repr

/-- an `Objective` (`include/objective.h`): one that holds a `SingleObjective` with the same kind and group, or one that holds other
objectives; `eps` and `M` say that the node is not `NULL_NODE` (it is then always the same node, whatever was written) -/
inductive Obj (σ : Type) where
  | single (k : OptKind) (gid : List Char) (term : Option (T σ)) (comp : Comp) (eps M : Bool)
  | multi (k : OptKind) (gid : List Char) (subs : List (Option (Obj σ)))

/-- the parser, as far as commands change it: `assertions`, `assertion_groups`, `named_assertions`, `assumptions`, `soft_assertions`,
`soft_weights`, `soft_assertion_groups`, `var_names`, `fun_key_map`, `function_names`, `objectives`, `objective_map`, options -/
structure S where
  p : P
  asserts : List (T Srt) := []
  groups : List (List Char × List Nat) := []
  named : List (List Char × T Srt) := []
  assumptions : List (List (T Srt)) := []
  soft : List (T Srt) := []
  weights : List Weight := []
  softGroups : List (List Char × List Nat) := []
  vars : List (List Char × Srt) := []
  funs : List (List Char × Fn Srt) := []
  fnames : List (List Char) := []
  objs : List (Obj Srt) := []
  objMap : List (List Char × Option (Obj Srt)) := []
  checkSat : Bool := false
  getModel : Bool := false
  getObjectives : Bool := false
  logic : List Char := cs!"UNKNOWN_LOGIC"

mutual
/-- the entries of `named_assertions` made while an expression is read, in their order (`src/expr_parser.cpp:384-391`) -/
def namings {σ : Type} : T σ → List (List Char × T σ)
  | .mk (.named (some a)) [t] => namings t ++ [(a, t)]
  | .mk _ cs => namingsL cs
/-- the same for a list -/
def namingsL {σ : Type} : List (T σ) → List (List Char × T σ)
  | [] => []
  | t :: ts => namings t ++ namingsL ts
end

/-- the names in an expression are entered; later entries replace earlier ones -/
def S.note (s : S) (t : T Srt) : S := { s with named := (namings t).reverse ++ s.named }

/-- an element added to the set of a group (`src/base_parser.cpp:782-789`, `src/opt_parser.cpp:102-109`) -/
def addTo (g : List Char) (i : Nat) : List (List Char × List Nat) → List (List Char × List Nat)
  | [] => [(g, [i])]
  | (h, is) :: gs => if h = g then (h, is ++ [i]) :: gs else (h, is) :: addTo g i gs

/-- `skipToRpar` -/
def skipTo (p : P) : P := { p with lex := skipToRpar p.lex }

/-- the symbol after a keyword of the kind that is asked for -/
def symAfter (cfg : Cfg) (want k : KW) (p : P) : Res (List Char × P) :=
  if k = want then sym cfg p else .ok ([], p)

/-- the keyword and its symbol that may follow the expression, if there was no symbol in front of it (`src/base_parser.cpp:765-771`) -/
def idAfter (cfg : Cfg) (g : List Char) (p : P) : Res (List Char × P) :=
  if g = [] then do
    let (k, p) ← keyword cfg p
    symAfter cfg .id k p
  else .ok (g, p)

/-- `assert` (`src/base_parser.cpp:754-796`) -/
def cmdAssert (cfg : Cfg) (n : Nat) (s : S) : Res S := do
  let (k, p) ← keyword cfg s.p
  let (g, p) ← symAfter cfg .id k p
  let (t, p) ← expr cfg n p
  let (g, p) ← idAfter cfg g p
  let (k, p) ← keyword cfg p
  let (a, p) ← symAfter cfg .named k p
  let s := s.note t
  return { s with
    p := skipTo p
    asserts := s.asserts ++ [t]
    groups := if g = [] then s.groups else addTo g s.asserts.length s.groups
    named := if a = [] then s.named else (a, t) :: s.named }

/-- the keywords of a soft assertion, at most `k` of them (`src/opt_parser.cpp:49-64`, `69-84`); `(:id, :weight)` -/
def softKeys (cfg : Cfg) : Nat → List Char × List Char → P → Res ((List Char × List Char) × P)
  | 0, a, p => .ok (a, p)
  | n + 1, a, p => do
    let (k, p) ← keyword cfg p
    if k = .null then return (a, p)
    else if k = .id then do
      let (g, p) ← sym cfg p
      softKeys cfg n (g, a.2) p
    else if k = .weight then do
      let (w, p) ← sym cfg p
      softKeys cfg n (a.1, w) p
    else .abort

/-- the weight (`src/opt_parser.cpp:87-100`) -/
def weightOf (w : List Char) : Res Weight :=
  if w ≠ [] then
    if Str.isIntTok w then .ok (.int w)
    else if Tok.isReal w then .ok (.real w)
    else .abort
  else .ok (.int ['1'])

/-- `assert-soft` (`src/opt_parser.cpp:42-109`, `src/base_parser.cpp:798-802`) -/
def cmdSoft (cfg : Cfg) (n : Nat) (s : S) : Res S := do
  let (a, p) ← softKeys cfg 2 ([], []) s.p
  let (t, p) ← expr cfg n p
  let (a, p) ← softKeys cfg 2 a p
  let w ← weightOf a.2
  let s := s.note t
  return { s with
    p := skipTo p
    soft := s.soft ++ [t]
    weights := s.weights ++ [w]
    softGroups := if a.1 = [] then s.softGroups else addTo a.1 s.soft.length s.softGroups }

/-- expressions up to a closing parenthesis (`src/base_parser.cpp:816-819`) -/
def exprList (cfg : Cfg) : Nat → List (T Srt) → P → Res (List (T Srt) × P)
  | 0, _, _ => .diverge
  | n + 1, acc, p =>
    if p.cur = some ')' then .ok (acc, p)
    else do
      let (t, p) ← expr cfg n p
      exprList cfg n (acc ++ [t]) p

/-- `check-sat-assuming` (`src/base_parser.cpp:812-823`): the closing parenthesis of the list is not read -/
def cmdAssuming (cfg : Cfg) (n : Nat) (s : S) : Res S := do
  let p ← lpar s.p
  let (ts, p) ← exprList cfg n [] p
  let s := ts.foldl S.note s
  return { s with p := skipTo p, assumptions := s.assumptions ++ [ts] }

/-- `mkVar` (`src/op_parser.cpp:710-720`): a name that is known keeps its node -/
def S.var (s : S) (name : List Char) (so : Srt) : S :=
  match s.vars.lookup name with
  | some _ => s
  | none => { s with vars := s.vars ++ [(name, so)] }

/-- `declare-const` (`src/base_parser.cpp:826-842`) -/
def cmdConst (cfg : Cfg) (n : Nat) (s : S) : Res S := do
  let (name, p) ← sym cfg s.p
  let (so, p) ← parseSort cfg n p
  return { s.var name so with p := skipTo p }

/-- sorts up to a closing parenthesis (`src/base_parser.cpp:868-870`) -/
def sortList (cfg : Cfg) : Nat → List Srt → P → Res (List Srt × P)
  | 0, _, _ => .diverge
  | n + 1, acc, p =>
    if p.cur = some ')' then .ok (acc, p)
    else do
      let (t, p) ← parseSort cfg n p
      sortList cfg n (acc ++ [t]) p

/-- `mkFuncDec` (`src/op_parser.cpp:237-260`) -/
def mkFuncDec (funs : List (List Char × Fn Srt)) (name : List Char) (ps : List Srt) (out : Srt) : Res (List (List Char × Fn Srt)) :=
  match funs.lookup name with
  | some _ => .abort
  | none => .ok (funs ++ [(name, .dec ps out)])

/-- the entry of a name replaced -/
def setFn (name : List Char) (f : Fn Srt) : List (List Char × Fn Srt) → List (List Char × Fn Srt)
  | [] => []
  | (h, g) :: fs => if h = name then (h, f) :: fs else (h, g) :: setFn name f fs

/-- `mkFuncDef` and `mkFuncRec` (`src/op_parser.cpp:262-328`): a declared function is updated; `f` is the new entry -/
def mkFuncBody (funs : List (List Char × Fn Srt)) (name : List Char) (f : Fn Srt) : Res (List (List Char × Fn Srt)) :=
  match funs.lookup name with
  | some (.dec _ _) => .ok (setFn name f funs)
  | some _ => .abort
  | none => .ok (funs ++ [(name, f)])

/-- `declare-fun` (`src/base_parser.cpp:845-886`) -/
def cmdFun (cfg : Cfg) (n : Nat) (s : S) : Res S := do
  let (name, p) ← sym cfg s.p
  let p ← lpar p
  if p.cur = some ')' then do
    let p ← rpar p
    let (so, p) ← parseSort cfg n p
    return { s.var name so with p := skipTo p }
  else do
    let (ps, p) ← sortList cfg n [] p
    let p ← rpar p
    let (so, p) ← parseSort cfg n p
    let funs ← mkFuncDec s.funs name ps so
    return { s with p := skipTo p, funs := funs, fnames := s.fnames ++ [name] }

/-- an entry of `sort_key_map`, if the name has none -/
def addKey (p : P) (name : List Char) (so : Srt) : P :=
  match p.keys.lookup name with
  | some _ => p
  | none => { p with keys := p.keys ++ [(name, so)] }

/-- `declare-sort` (`src/base_parser.cpp:889-904`) -/
def cmdSort (cfg : Cfg) (s : S) : Res S := do
  let (name, p) ← sym cfg s.p
  let (a, p) ← sym cfg p
  let i ← stoi a
  return { s with p := skipTo (addKey p name (decSort name (toSize i))) }

/-- names up to a closing parenthesis (`src/base_parser.cpp:1167-1169`, `src/opt_parser.cpp:250-252`) -/
def symList (cfg : Cfg) : Nat → List (List Char) → P → Res (List (List Char) × P)
  | 0, _, _ => .diverge
  | n + 1, acc, p =>
    if p.cur = some ')' then .ok (acc, p)
    else do
      let (a, p) ← sym cfg p
      symList cfg n (acc ++ [a]) p

/-- `define-sort` (`src/base_parser.cpp:1159-1193`) -/
def cmdDefSort (cfg : Cfg) (n : Nat) (s : S) : Res S := do
  let (name, p) ← sym cfg s.p
  let p ← lpar p
  let (ps, p) ← symList cfg n [] p
  let p ← rpar p
  let (so, p) ← parseSort cfg n p
  if ps = [] then return { s with p := skipTo (addKey p name so) }
  else return { s with p := skipTo (addKey p name (.mk .DEF name ps.length (ps.map (fun a => .mk .UNKNOWN a 0 []) ++ [so]))) }

/-- the parameters of a function (`src/base_parser.cpp:951-974`, `1013-1037`): a name may not occur twice -/
def funParams (cfg : Cfg) : Nat → List (List Char × Srt) → P → Res (List (List Char × Srt) × P)
  | 0, _, _ => .diverge
  | n + 1, acc, p =>
    if p.cur = some ')' then .ok (acc, p)
    else do
      let p ← lpar p
      let (x, p) ← sym cfg p
      let (so, p) ← parseSort cfg n p
      if x ∈ acc.map (fun v => v.1) then .abort
      else do
        let p ← rpar p
        funParams cfg n (acc ++ [(x, so)]) p

/-- the test for a name that has an entry (`src/base_parser.cpp:912-918`, `936-942`, `998-1004`): a defined function is an error; for
another one the command is left without reading the rest of it -/
def known (s : S) (name : List Char) : Res Bool :=
  match s.funs.lookup name with
  | some (.defn _ _ _) => .abort
  | some _ => .ok true
  | none => .ok false

/-- `define-const` (`src/base_parser.cpp:907-930`) -/
def cmdDefConst (cfg : Cfg) (n : Nat) (s : S) : Res S := do
  let (name, p) ← sym cfg s.p
  let b ← known s name
  if b then return { s with p := p }
  else do
    let (so, p) ← parseSort cfg n p
    let (t, p) ← expr cfg n p
    let s := s.note t
    let funs ← mkFuncBody s.funs name (.defn [] so t)
    return { s with p := skipTo p, funs := funs, fnames := s.fnames ++ [name] }

/-- `define-fun` (`src/base_parser.cpp:933-988`) -/
def cmdDefFun (cfg : Cfg) (n : Nat) (s : S) : Res S := do
  let (name, p) ← sym cfg s.p
  let b ← known s name
  if b then return { s with p := p }
  else do
    let p ← lpar p
    let (ps, p) ← funParams cfg n [] p
    let p ← rpar p
    let (so, p) ← parseSort cfg n p
    let (t, p) ← expr cfg n p
    let s := s.note t
    let funs ← mkFuncBody s.funs name (.defn ps so t)
    return { s with p := skipTo p, funs := funs, fnames := s.fnames ++ [name] }

/-- `define-fun-rec` (`src/base_parser.cpp:992-1058`) -/
def cmdDefRec (cfg : Cfg) (n : Nat) (s : S) : Res S := do
  let (name, p) ← sym cfg s.p
  let b ← known s name
  if b then return { s with p := p }
  else do
    let p ← lpar p
    let (ps, p) ← funParams cfg n [] p
    let p ← rpar p
    let (so, p) ← parseSort cfg n p
    let funs ← mkFuncDec s.funs name (ps.map fun v => v.2) so
    let (t, p) ← expr cfg n p
    let s := s.note t
    let funs ← mkFuncBody funs name (.recu ps so t)
    return { s with p := skipTo p, funs := funs, fnames := s.fnames ++ [name] }

/-- the declarations of `define-funs-rec` (`src/base_parser.cpp:1072-1118`); `fn` are the names to be put on `function_names` -/
def recHeads (cfg : Cfg) : Nat → S → List (List Char × List (List Char × Srt) × Srt) → P →
    Res (List (List Char × List (List Char × Srt) × Srt) × P)
  | 0, _, _, _ => .diverge
  | n + 1, s, acc, p =>
    if p.cur = some ')' then .ok (acc, p)
    else do
      let p ← lpar p
      let (name, p) ← sym cfg p
      let b ← known s name
      if b then recHeads cfg n s acc (skipTo p)
      else do
        let p ← lpar p
        let (ps, p) ← quantVars cfg n [] p
        let p ← rpar p
        let (so, p) ← parseSort cfg n p
        let p ← rpar p
        recHeads cfg n s (acc ++ [(name, ps, so)]) p

/-- the functions declared (`src/base_parser.cpp:1121-1125`) -/
def recDecs : List (List Char × List (List Char × Srt) × Srt) → List (List Char × Fn Srt) → Res (List (List Char × Fn Srt))
  | [], funs => .ok funs
  | (name, ps, so) :: hs, funs => do
    let funs ← mkFuncDec funs name (ps.map fun v => v.2) so
    recDecs hs funs

/-- the bodies (`src/base_parser.cpp:1129-1146`) -/
def recBodies (cfg : Cfg) (n : Nat) : List (List Char × List (List Char × Srt) × Srt) → S → P → Res (S × P)
  | [], s, p => .ok (s, p)
  | (name, ps, so) :: hs, s, p => do
    let (t, p) ← expr cfg n p
    let s := s.note t
    let funs ← mkFuncBody s.funs name (.recu ps so t)
    recBodies cfg n hs { s with funs := funs } p

/-- `define-funs-rec` (`src/base_parser.cpp:1060-1151`) -/
def cmdDefRecs (cfg : Cfg) (n : Nat) (s : S) : Res S := do
  let p ← lpar s.p
  let (hs, p) ← recHeads cfg n s [] p
  let p ← rpar p
  let funs ← recDecs hs s.funs
  let p ← lpar p
  let (s, p) ← recBodies cfg n hs { s with funs := funs, fnames := s.fnames ++ hs.map fun h => h.1 } p
  let p ← rpar p
  return { s with p := skipTo p }

/-- the logics that `setLogic` knows (`include/options.h:82-130`) -/
def logics : List (List Char) := [
  cs!"QF_ABV", cs!"QF_ABVFP", cs!"QF_ABVFPLRA", cs!"QF_ALIA", cs!"QF_ANIA", cs!"QF_AUFBV", cs!"QF_AUFBVFP", cs!"QF_AUFLIA",
  cs!"QF_AUFNIA", cs!"QF_AX", cs!"QF_BV", cs!"QF_BVFP", cs!"QF_DT", cs!"QF_BVFPLRA", cs!"QF_FP", cs!"QF_FPLRA", cs!"QF_IDL", cs!"QF_LIA",
  cs!"QF_LIRA", cs!"QF_LRA", cs!"QF_NIA", cs!"QF_NIRA", cs!"QF_NRA", cs!"QF_RDL", cs!"QF_S", cs!"QF_SLIA", cs!"QF_SNIA", cs!"QF_UF",
  cs!"QF_UFBV", cs!"QF_UFBVDT", cs!"QF_UFDT", cs!"QF_UFDTLIA", cs!"QF_UFDTLIRA", cs!"QF_UFDTNIA", cs!"QF_UFFP", cs!"QF_UFFPDTNIRA",
  cs!"QF_UFIDL", cs!"QF_UFLIA", cs!"QF_UFLRA", cs!"QF_UFNIA", cs!"QF_UFNRA", cs!"AUFLIA", cs!"AUFLIRA", cs!"AUFNIRA", cs!"LIA", cs!"LRA",
  cs!"UFLRA", cs!"UFNIA", cs!"ALL"]

/-- `set-logic` (`src/base_parser.cpp:1313-1322`), which does not skip anything -/
def cmdLogic (cfg : Cfg) (s : S) : Res S := do
  let (l, p) ← sym cfg s.p
  if l ∈ logics then return { s with p := p, logic := l } else .abort

/-- a quantified formula as a command (`src/base_parser.cpp:1333-1354`): it is read and dropped -/
def cmdQuant (cfg : Cfg) (n : Nat) (s : S) : Res S := do
  let (_, p) ← quantHead cfg n s.p
  let (t, p) ← expr cfg n p
  return { s.note t with p := skipTo p }

/-- `getCompareOperator` (`src/objective.cpp:47-98`) -/
def compTable : List (List Char × Comp) := [
  (cs!"<", .lt), (cs!"<=", .le), (cs!">", .gt), (cs!">=", .ge), (cs!"bvult", .bvult), (cs!"bvule", .bvule), (cs!"bvugt", .bvugt),
  (cs!"bvuge", .bvuge), (cs!"bvslt", .bvslt), (cs!"bvsle", .bvsle), (cs!"bvsgt", .bvsgt), (cs!"bvsge", .bvsge), (cs!"fp.lt", .fplt),
  (cs!"fp.leq", .fple), (cs!"fp.gt", .fpgt), (cs!"fp.geq", .fpge)]

/-- `getCompareOperator`: `COMP_LT` for other symbols -/
def compOf (s : List Char) : Comp := (compTable.lookup s).getD .lt

/-- `getDefaultCompareOperator` (`src/objective.cpp:32-45`) -/
def defaultComp (logic : List Char) (k : OptKind) : Comp :=
  if logic ∈ [cs!"QF_LIA", cs!"QF_LRA", cs!"QF_NIA", cs!"QF_NRA", cs!"QF_IDL", cs!"QF_RDL", cs!"QF_LIRA", cs!"QF_NIRA"] then
    if k = .minimize then .lt else .gt
  else if logic ∈ [cs!"QF_BV", cs!"QF_ABV", cs!"QF_AUFBV", cs!"QF_AUFBVFP", cs!"QF_ABVFP", cs!"QF_BVFP", cs!"QF_BVFPLRA"] then
    if k = .minimize then .bvult else .bvugt
  else if logic ∈ [cs!"QF_FP", cs!"QF_FPLRA", cs!"QF_ABVFPLRA"] then
    if k = .minimize then .fplt else .fpgt
  else if k = .minimize then .lt else .gt

/-- the symbols of the keywords of an objective -/
structure OKeys where
  comp : List Char := []
  eps : List Char := []
  M : List Char := []
  gid : List Char := []

/-- the keywords of an objective, at most `k` of them (`src/opt_parser.cpp:135-158`, `160-183`) -/
def objKeys (cfg : Cfg) : Nat → OKeys → P → Res (OKeys × P)
  | 0, a, p => .ok (a, p)
  | n + 1, a, p => do
    let (k, p) ← keyword cfg p
    if k = .null then return (a, p)
    else if k = .comp then do
      let (v, p) ← sym cfg p
      objKeys cfg n { a with comp := v } p
    else if k = .epsilon then do
      let (v, p) ← sym cfg p
      objKeys cfg n { a with eps := v } p
    else if k = .M then do
      let (v, p) ← sym cfg p
      objKeys cfg n { a with M := v } p
    else if k = .id then do
      let (v, p) ← sym cfg p
      objKeys cfg n { a with gid := v } p
    else .abort

/-- the objective (`src/opt_parser.cpp:186-196`) -/
def mkObj (logic : List Char) (k : OptKind) (a : OKeys) (t : T Srt) : Obj Srt :=
  if k = .maxsat ∨ k = .minsat then .single k a.gid none .lt false false
  else .single k a.gid (some t) (if a.comp = [] then defaultComp logic k else compOf a.comp) (decide (a.eps ≠ [])) (decide (a.M ≠ []))

/-- `parseSingleObj` (`src/opt_parser.cpp:127-204`) -/
def singleObj (cfg : Cfg) (n : Nat) (k : OptKind) (s : S) : Res (Obj Srt × S) := do
  let (a, p) ← objKeys cfg 4 {} s.p
  let (t, p) ← expr cfg n p
  let (a, p) ← objKeys cfg 4 a p
  let o := mkObj s.logic k a t
  return (o, { s.note t with p := p, objs := s.objs ++ [o] })

/-- `minimize`, `maximize`, `maxsat`, `minsat` (`src/base_parser.cpp:1364-1377`, `1412-1423`) -/
def cmdObj (cfg : Cfg) (n : Nat) (k : OptKind) (s : S) : Res S := do
  let (_, s) ← singleObj cfg n k s
  return { s with p := skipTo s.p }

/-- `define-objective` (`src/opt_parser.cpp:207-232`): the group is not used -/
def cmdDefObj (cfg : Cfg) (n : Nat) (s : S) : Res S := do
  let (name, p) ← sym cfg s.p
  let (k, p) ← keyword cfg p
  let (_, p) ← symAfter cfg .id k p
  let p ← lpar p
  let (op, p) ← sym cfg p
  if op = cs!"maximize" ∨ op = cs!"minimize" then do
    let (o, s) ← singleObj cfg n (if op = cs!"maximize" then .maximize else .minimize) { s with p := p }
    let p ← rpar s.p
    return { s with p := skipTo p, objMap := if (s.objMap.lookup name).isSome then s.objMap else s.objMap ++ [(name, some o)] }
  else .abort

/-- the objectives with the given names; `objective_map[name]` enters a null pointer for an unknown name -/
def findObjs : List (List Char) → List (List Char × Option (Obj Srt)) → List (Option (Obj Srt)) × List (List Char × Option (Obj Srt))
  | [], m => ([], m)
  | x :: xs, m =>
    match m.lookup x with
    | some o => let r := findObjs xs m; (o :: r.1, r.2)
    | none => let r := findObjs xs (m ++ [(x, none)]); (none :: r.1, r.2)

/-- `parseMultiObj` (`src/opt_parser.cpp:234-262`): the group after the list is lost, because it is put into another variable -/
def cmdMulti (cfg : Cfg) (n : Nat) (k : OptKind) (s : S) : Res S := do
  let (kw, p) ← keyword cfg s.p
  let (g, p) ← symAfter cfg .id kw p
  let p ← lpar p
  let (xs, p) ← symList cfg n [] p
  let p ← rpar p
  let (kw, p) ← keyword cfg p
  let (_, p) ← symAfter cfg .id kw p
  let r := findObjs xs s.objMap
  return { s with p := skipTo p, objMap := r.2, objs := s.objs ++ [.multi k g r.1] }

/-- the keywords of `optimize` (`src/opt_parser.cpp:291-306`, `316-331`); `:opt_kind` is not known to `parseKeyword` -/
def optKeys (cfg : Cfg) : Nat → P → Res P
  | 0, p => .ok p
  | n + 1, p => do
    let (k, p) ← keyword cfg p
    if k = .null then return p
    else if k = .id then do
      let (_, p) ← sym cfg p
      optKeys cfg n p
    else .abort

/-- `optimize` (`src/opt_parser.cpp:285-339`): the objective is not stored -/
def cmdOptimize (cfg : Cfg) (n : Nat) (s : S) : Res S := do
  let p ← optKeys cfg 4 s.p
  let p ← lpar p
  let (xs, p) ← symList cfg n [] p
  let p ← rpar p
  let p ← optKeys cfg 4 p
  return { s with p := skipTo p, objMap := (findObjs xs s.objMap).2 }

/-- the commands that are only skipped (`src/base_parser.cpp:1195-1311`, `1326-1329`) -/
def skipped : List (List Char) := [
  cs!"echo", cs!"get-assertions", cs!"get-assignment", cs!"get-info", cs!"get-option", cs!"get-proof", cs!"get-unsat-assumptions",
  cs!"get-unsat-core", cs!"get-value", cs!"pop", cs!"push", cs!"reset", cs!"reset-assertions", cs!"set-info", cs!"set-option"]

/-- `parseCommand` after the name of the command (`src/base_parser.cpp:753-1430`); the result says whether it is `exit` -/
def dispatch (cfg : Cfg) (n : Nat) (c : List Char) (s : S) : Res (Bool × S) :=
  let go (r : Res S) : Res (Bool × S) := do let s ← r; return (false, s)
  if c = cs!"assert" then go (cmdAssert cfg n s)
  else if c = cs!"assert-soft" then go (cmdSoft cfg n s)
  else if c = cs!"check-sat" then go (.ok { s with checkSat := true, p := skipTo s.p })
  else if c = cs!"check-sat-assuming" then go (cmdAssuming cfg n s)
  else if c = cs!"declare-const" then go (cmdConst cfg n s)
  else if c = cs!"declare-fun" then go (cmdFun cfg n s)
  else if c = cs!"declare-sort" then go (cmdSort cfg s)
  else if c = cs!"define-const" then go (cmdDefConst cfg n s)
  else if c = cs!"define-fun" then go (cmdDefFun cfg n s)
  else if c = cs!"define-fun-rec" then go (cmdDefRec cfg n s)
  else if c = cs!"define-funs-rec" then go (cmdDefRecs cfg n s)
  else if c = cs!"define-sort" then go (cmdDefSort cfg n s)
  else if c = cs!"exit" then .ok (true, { s with p := skipTo s.p })
  else if c = cs!"get-model" then go (.ok { s with getModel := true, p := skipTo s.p })
  else if c = cs!"set-logic" then go (cmdLogic cfg s)
  else if c = cs!"exists" ∨ c = cs!"forall" then go (cmdQuant cfg n s)
  else if c = cs!"get-objectives" then go (.ok { s with getObjectives := true, p := skipTo s.p })
  else if c = cs!"maximize" then go (cmdObj cfg n .maximize s)
  else if c = cs!"minimize" then go (cmdObj cfg n .minimize s)
  else if c = cs!"define-objective" then go (cmdDefObj cfg n s)
  else if c = cs!"lex-optimize" then go (cmdMulti cfg n .lex s)
  else if c = cs!"pareto-optimize" then go (cmdMulti cfg n .pareto s)
  else if c = cs!"box-optimize" then go (cmdMulti cfg n .box s)
  else if c = cs!"minmax" then go (cmdMulti cfg n .minmax s)
  else if c = cs!"maxmin" then go (cmdMulti cfg n .maxmin s)
  else if c = cs!"maxsat" then go (cmdObj cfg n .maxsat s)
  else if c = cs!"minsat" then go (cmdObj cfg n .minsat s)
  else if c = cs!"optimize" then go (cmdOptimize cfg n s)
  else if c ∈ skipped then go (.ok { s with p := skipTo s.p })
  else .abort

/-- `parseCommand` (`src/base_parser.cpp:748-1430`) -/
def command (cfg : Cfg) (n : Nat) (s : S) : Res (Bool × S) := do
  let (c, p) ← sym cfg s.p
  dispatch cfg n c { s with p := p }

/-- the loop over the commands (`src/base_parser.cpp:644-648`, `672-676`) -/
def loop (cfg : Cfg) : Nat → S → Res S
  | 0, _ => .diverge
  | n + 1, s =>
    if s.p.cur = none then .ok s
    else do
      let p ← lpar s.p
      let (b, s) ← command cfg n { s with p := p }
      if b then return s
      else do
        let p ← rpar s.p
        loop cfg n { s with p := p }

/-- `parseSmtlib2File` (`src/base_parser.cpp:612-653`), with the text of the file.  Simplification: a file with NUL characters is not
modelled. -/
def parseFile (pres : Bool) (n : Nat) (s : S) (text : List Char) : Res S :=
  loop ⟨true, pres⟩ n { s with p := { s.p with lex := scan (if text = [] then s.p.lex.line else 1) text } }

/-- `parseStr` (`src/base_parser.cpp:666-681`); an empty text makes a null pointer that is then read.  `file` is what `parsing_file` is: it
is not set here, and it is true after a file was read. -/
def parseStr (cfg : Cfg) (n : Nat) (s : S) (text : List Char) : Res S :=
  if text = [] then .ub else loop cfg n { s with p := { s.p with lex := scan 1 text } }

end SMT.Script
