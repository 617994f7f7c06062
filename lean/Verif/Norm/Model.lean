import Verif.Subst.Model

/-!
# Arithmetic normalisation (C50)

`src/base_parser.cpp:2174-2306` (`arithNormalize`), `2343-2362` (`getZero`).

The traversal keeps an explicit stack and tables of results and change flags; nodes are immutable, so it is the recursion below.  A
missing table entry is a null pointer (`none`), using it is undefined.
-/

namespace SMT.Norm
open SMT SMT.Term

/-- What the normaliser takes from the rest of the parser. -/
structure Opt where
  /-- array sorts -/
  arr : Srt → Bool
  /-- `NT_LET` -/
  isLet : Kind → Bool
  /-- `expandLet` -/
  expandLet : Term → Term
  /-- `simplifyArray` on `select` and `store`, the identity on everything else; see `Verif.Arr` -/
  simplifyArray : Term → Term

/-- `DAGNode::isArithComp` (`include/dag.h:420-422`) -/
def isArithComp : Term → Bool
  | .app .eq _ (t :: _) => t.isArithTerm
  | .app .distinct _ (t :: _) => t.isArithTerm
  | .app .le _ _ => true
  | .app .lt _ _ => true
  | .app .ge _ _ => true
  | .app .gt _ _ => true
  | _ => false

/-- `getZero` (`src/base_parser.cpp:2343-2362`) on numeric sorts -/
def getZero (c : Cfg) : Srt → Term
  | .int => .cint 0
  | .ior => .cint 0
  | .real => mkConstReal c 0
  | _ => .err

/-- result (`none`: null) and changed flag of a node -/
abbrev R := Option Term × Bool

/-- the comparison case (`src/base_parser.cpp:2209-2231`) -/
def comp (c : Cfg) (k : Kind) (s : Srt) (ts : List Term) (rs : List R) : Res R :=
  match rs with
  | (some l, b1) :: (some r, b2) :: _ =>
    if !r.isConst then
      .ok (some (mkOper c .bool k [mkOper c l.sort .sub [l, r], getZero c l.sort]), true)
    else if b1 || b2 then .ok (some (mkOper c s k [l, r]), true)
    else .ok (some (.app k s ts), false)
  | _ => .ub

/-- results without null pointers -/
def allSome : List R → Option (List Term)
  | [] => some []
  | (some t, _) :: rs => (allSome rs).map (t :: ·)
  | (none, _) :: _ => none

/-- the simplification of equalities (`src/base_parser.cpp:2269-2285`) -/
def eqSimp (c : Cfg) (us : List Term) (t : Term) : Term :=
  match t with
  | .app .eq _ [a, b] => simp2 c .eq a b
  | .app .eq _ (_ :: _ :: _ :: _) => simpEqN c us
  | _ => .unknown

/-- what happens to the new node of another operator (`src/base_parser.cpp:2258-2288`) -/
def after (c : Cfg) (o : Opt) (us : List Term) (t : Term) (ch : Bool) : R :=
  let t' := o.simplifyArray t
  let ch' := ch || t' != t
  if (eqSimp c us t').isUnknown then (some t', ch') else (some (eqSimp c us t'), true)

/-- another operator (`src/base_parser.cpp:2234-2290`) -/
def other (c : Cfg) (o : Opt) (k : Kind) (s : Srt) (ts : List Term) (rs : List R) : Res R :=
  if !(rs.any fun r => r.2) then .ok (after c o ts (.app k s ts) false)
  else match allSome rs with
    | none => .ub
    | some us => (if o.arr s then .ok (.app k s us) else Subst.build c k s us).bind fun t => .ok (after c o us t true)

mutual
/-- one node (`src/base_parser.cpp:2192-2304`) -/
def norm (c : Cfg) (o : Opt) : Term → Res R
  | .app k s ts =>
    if (Term.app k s ts).isArithTerm then .ok (some (.app k s ts), false)
    else if o.isLet k then .ok (none, false)
    else (normL c o ts).bind fun rs =>
      if isArithComp (.app k s ts) then comp c k s ts rs else other c o k s ts rs
  | t => .ok (some t, false)
/-- the children -/
def normL (c : Cfg) (o : Opt) : List Term → Res (List R)
  | [] => .ok []
  | t :: ts => (norm c o t).bind fun r => (normL c o ts).bind fun rs => .ok (r :: rs)
end

/-- `arithNormalize(expr)` (`src/base_parser.cpp:2167-2306`) -/
def arithNormalize (c : Cfg) (o : Opt) (e : Term) : Res (Option Term) :=
  match e with
  | .err => .ok (some .err)
  | .app k s ts => (norm c o (if o.isLet k then o.expandLet (.app k s ts) else .app k s ts)).bind fun r => .ok r.1
  | e => (norm c o e).bind fun r => .ok r.1

end SMT.Norm
