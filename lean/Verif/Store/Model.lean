import Verif.Kind.Model
import Verif.Text.Dec

/-!
# The node manager (`include/dag.h`, `src/dag.cpp`) and the variable tables built on it (`src/op_parser.cpp`,
`src/base_parser.cpp`)

Objects live on a heap and are named by pointers (positions in the heap).  `std::hash` and the mixing formula of
`DAGNode::hashCode` are parameters: everything below holds for every choice of them.  Use counts and the cached
`Value` of constants are not modelled.
-/

namespace SMT.Store
open SMT.Kinds SMT.Text

/-- pointers are positions in the heap -/
scoped notation "Ptr" => Nat

/-- The hash functions (`include/dag.h:84-96`, `907-934`).  `code` receives the sort (the code hashes the sort's text,
a function of the sort object), the kind, the name, the number of children and the children hash; `comb` combines the
children's hash codes. -/
structure HashFn where
  code : Nat → K → List Char → Nat → Option Nat → Nat
  comb : List Nat → Nat

/-- `class DAGNode` (`include/dag.h:70-83`).  Sorts are pointers.  `chash = none` is the empty string, `some n` is
`std::to_string(n)`.  `hash` is the cached hash code: `insertNodeToBucket` computes it right after construction. -/
structure Obj where
  sort : Nat
  kind : K
  name : List Char
  children : List Ptr
  chash : Option Nat
  hash : Nat
  deriving DecidableEq

abbrev Heap := List Obj

/-- hash code of the object at a pointer (`include/dag.h:907`) -/
def hashAt (H : Heap) (p : Ptr) : Nat := (H[p]?.map Obj.hash).getD 0

/-- children hash computed by the constructor (`include/dag.h:87-96`) -/
def chashOf (F : HashFn) (H : Heap) (cs : List Ptr) : Option Nat :=
  if cs.isEmpty then none else some (F.comb (cs.map (hashAt H)))

/-- What the caller of `createNode` passes (`src/dag.cpp:1032-1048`); overloads that leave out the name or the children
pass the empty ones. -/
structure Req where
  sort : Nat
  kind : K
  name : List Char
  children : List Ptr
  deriving DecidableEq

/-- `DAGNode::DAGNode(sort, kind, name, children)` (`include/dag.h:84-110`) followed by `hashCode` (`907-934`) -/
def mkObj (F : HashFn) (H : Heap) (r : Req) : Obj :=
  let ch := chashOf F H r.children
  ⟨r.sort, r.kind, r.name, r.children, ch, F.code r.sort r.kind r.name r.children.length ch⟩

/-- pairs of pointers already under comparison -/
abbrev Vis := List (Ptr × Ptr)

/-- the loop over the children in `isEquivalentTo` (`include/dag.h:990-994`) -/
def allPairs (f : Ptr → Ptr → Vis → Bool × Vis) : List Ptr → List Ptr → Vis → Bool × Vis
  | x :: xs, y :: ys, v =>
    match f x y v with
    | (true, v') => allPairs f xs ys v'
    | (false, v') => (false, v')
  | _, _, v => (true, v)

/-- `DAGNode::isEquivalentTo(other, visited)` (`include/dag.h:956-996`).  The first argument bounds the recursion depth
(children of a node were allocated before it, so depth `p + 1` is never exceeded; see `equiv_exact`). -/
def equivV (H : Heap) : Nat → Ptr → Ptr → Vis → Bool × Vis
  | 0, _, _, v => (false, v)
  | n + 1, p, q, v =>
    if p = q then (true, v)
    else
      match H[p]?, H[q]? with
      | some a, some b =>
        if a.kind ≠ b.kind ∨ a.children.length ≠ b.children.length ∨ a.sort ≠ b.sort then (false, v)
        else if a.name ≠ b.name then (false, v)
        else if a.chash ≠ none ∧ b.chash ≠ none ∧ a.chash ≠ b.chash then (false, v)
        else if (p, q) ∈ v then (true, v)
        else allPairs (equivV H n) a.children b.children ((p, q) :: v)
      | _, _ => (false, v)

/-- `DAGNode::isEquivalentTo(other)` (`include/dag.h:897-900`) -/
def equiv (H : Heap) (p q : Ptr) : Bool := (equivV H (p + 1) p q []).1

/-- `class NodeManager` (`include/dag.h:1028-1036`) together with the heap.  A bucket maps a kind and a hash code to the
list of (node, index) entries. -/
structure St where
  heap : Heap
  nodes : List Ptr
  buckets : K → Nat → List (Ptr × Nat)

/-- the test applied to each entry of the small bucket (`src/dag.cpp:974-993`) -/
def hit (H : Heap) (p : Ptr) (o : Obj) (e : Ptr × Nat) : Bool :=
  e.1 == p ||
  (match H[e.1]? with
   | some b => b.kind == o.kind && b.children.length == o.children.length && b.name == o.name && equiv H e.1 p
   | none => false)

/-- `insertNodeToBucket` (`src/dag.cpp:959-1000`).  `nodes[i]` out of range would be undefined; the model then returns
the pointer itself (it never happens, see `Inv`). -/
def insertNode (st : St) (p : Ptr) : Ptr × St :=
  match st.heap[p]? with
  | none => (p, st)
  | some o =>
    match (st.buckets o.kind o.hash).find? (hit st.heap p o) with
    | some e => (st.nodes[e.2]?.getD p, st)
    | none =>
      (p, { st with
        nodes := st.nodes ++ [p],
        buckets := fun k h => if k = o.kind ∧ h = o.hash then st.buckets k h ++ [(p, st.nodes.length)]
                              else st.buckets k h })

/-- `createNode` (`src/dag.cpp:1032-1107`): allocate the object, then insert it -/
def create (F : HashFn) (st : St) (r : Req) : Ptr × St :=
  insertNode { st with heap := st.heap ++ [mkObj F st.heap r] } st.heap.length

/-- `getIndex` (`src/dag.cpp:926-942`); `none` stands for `-1` -/
def getIndex (st : St) (p : Ptr) : Option Nat :=
  match st.heap[p]? with
  | none => none
  | some o => ((st.buckets o.kind o.hash).find? (fun e => e.1 == p || equiv st.heap e.1 p)).map Prod.snd

/-- `getNode` (`src/dag.cpp:923-925`); out of range is undefined in the code -/
def getNode (st : St) (i : Nat) : Option Ptr := st.nodes[i]?

/-- pointers of the static sorts used below (`include/sort.h:290-306`) -/
def NULL_S : Nat := 0
def UNKNOWN_S : Nat := 1
def BOOL_S : Nat := 2
def REAL_S : Nat := 3
def EXT_S : Nat := 4
def STR_S : Nat := 5
def INT_S : Nat := 6

/-- The static nodes in the order of `initializeStaticNodes` (`src/dag.cpp:1002-1029`, `include/dag.h:1078-1101`).
`DAGNode("EPSILON")` falls in the last branch of the text constructor and becomes an error node
(`include/dag.h:250-257`). -/
def statics : List Req := [
  ⟨NULL_S, .NULL, cs!"NULL", []⟩,
  ⟨UNKNOWN_S, .UNKNOWN, cs!"unknown", []⟩,
  ⟨NULL_S, .ERROR, cs!"error", []⟩,
  ⟨BOOL_S, .CONST_TRUE, cs!"true", []⟩,
  ⟨BOOL_S, .CONST_FALSE, cs!"false", []⟩,
  ⟨REAL_S, .CONST_E, cs!"e", []⟩,
  ⟨REAL_S, .CONST_PI, cs!"pi", []⟩,
  ⟨EXT_S, .NAN, cs!"NaN", []⟩,
  ⟨NULL_S, .ERROR, cs!"EPSILON", []⟩,
  ⟨EXT_S, .POS_EPSILON, cs!"+EPSILON", []⟩,
  ⟨EXT_S, .NEG_EPSILON, cs!"-EPSILON", []⟩,
  ⟨STR_S, .INFINITY, cs!"INF", []⟩,
  ⟨STR_S, .POS_INFINITY, cs!"+INF", []⟩,
  ⟨STR_S, .NEG_INFINITY, cs!"-INF", []⟩,
  ⟨INT_S, .INFINITY, cs!"INF", []⟩,
  ⟨INT_S, .POS_INFINITY, cs!"+INF", []⟩,
  ⟨INT_S, .NEG_INFINITY, cs!"-INF", []⟩,
  ⟨REAL_S, .INFINITY, cs!"INF", []⟩,
  ⟨REAL_S, .POS_INFINITY, cs!"+INF", []⟩,
  ⟨REAL_S, .NEG_INFINITY, cs!"-INF", []⟩]

/-- a manager without nodes -/
def empty : St := ⟨[], [], fun _ _ => []⟩

/-- creating several nodes in a row -/
def createAll (F : HashFn) (st : St) (rs : List Req) : St := rs.foldl (fun s r => (create F s r).2) st

/-- `NodeManager::NodeManager` (`src/dag.cpp:903-917`) -/
def init (F : HashFn) : St := createAll F empty statics

/-- `NULL_NODE` is the first static node -/
def NULL_NODE : Ptr := 0
/-- `UNKNOWN_NODE` is the second static node -/
def UNKNOWN_NODE : Ptr := 1

/-! ## Variable tables -/

/-- The part of `class Parser` that holds variables (`include/parser.h:158-163`). -/
structure Tab where
  mgr : St
  vars : List (List Char × Nat)
  temps : List (List Char × Nat)
  counter : Nat

/-- a new parser (`src/base_parser.cpp:40-75`) -/
def Tab.init (F : HashFn) : Tab := ⟨Store.init F, [], [], 0⟩

/-- `Parser::mkVar` (`src/op_parser.cpp:710-720`).  An index of `-1` cast to `size_t` would be stored if `getIndex` failed;
the model stores the size of the table then (it never happens). -/
def mkVar (F : HashFn) (t : Tab) (sort : Nat) (name : List Char) : Ptr × Tab :=
  match t.vars.lookup name with
  | some i => ((getNode t.mgr i).getD NULL_NODE, t)
  | none =>
    let (p, m) := create F t.mgr ⟨sort, .VAR, name, []⟩
    (p, { t with mgr := m, vars := (name, (getIndex m p).getD m.nodes.length) :: t.vars })

/-- name of the `n`-th temporary variable (`src/op_parser.cpp:701`) -/
def tempName (n : Nat) : List Char := cs!"temp_" ++ dec n

/-- `Parser::mkTempVar` (`src/op_parser.cpp:700-709`) -/
def mkTempVar (F : HashFn) (t : Tab) (sort : Nat) : Ptr × Tab :=
  let name := tempName t.counter
  let t := { t with counter := t.counter + 1 }
  match t.temps.lookup name with
  | some _ => (UNKNOWN_NODE, t)
  | none =>
    let (p, m) := create F t.mgr ⟨sort, .TEMP_VAR, name, []⟩
    (p, { t with mgr := m, temps := (name, (getIndex m p).getD m.nodes.length) :: t.temps })

/-- `Parser::getVariable` (`src/base_parser.cpp:267-275`) -/
def getVariable (t : Tab) (name : List Char) : Ptr :=
  match t.vars.lookup name with
  | some i => (getNode t.mgr i).getD NULL_NODE
  | none =>
    match t.temps.lookup name with
    | some i => (getNode t.mgr i).getD NULL_NODE
    | none => NULL_NODE

/-- `DAGNode::rename` (`include/dag.h:710-714`): only the name changes, the cached hash stays -/
def renameObj (H : Heap) (p : Ptr) (new : List Char) : Heap := H.modify p (fun o => { o with name := new })

/-- `map[new] = i` -/
def assign (m : List (List Char × Nat)) (n : List Char) (i : Nat) : List (List Char × Nat) := (n, i) :: m

/-- `Parser::rename` (`src/base_parser.cpp:2798-2812`).  `map[old]` on a missing key inserts 0. -/
def rename (t : Tab) (p : Ptr) (new : List Char) : Ptr × Tab :=
  match t.mgr.heap[p]? with
  | none => (p, t)
  | some o =>
    let m := { t.mgr with heap := renameObj t.mgr.heap p new }
    if o.kind = .TEMP_VAR then
      match t.temps.lookup o.name with
      | some i => (p, { t with mgr := m, temps := assign t.temps new i })
      | none => (p, { t with mgr := m, temps := assign (assign t.temps o.name 0) new 0 })
    else
      match t.vars.lookup o.name with
      | some i => (p, { t with mgr := m, vars := assign t.vars new i })
      | none => (p, { t with mgr := m, vars := assign (assign t.vars o.name 0) new 0 })

/-- printed form of a variable: its name (`src/dag.cpp`, `DAGNode::toString`, `include/dag.h:688`) -/
def printVar (t : Tab) (p : Ptr) : List Char := (t.mgr.heap[p]?.map Obj.name).getD []

end SMT.Store
