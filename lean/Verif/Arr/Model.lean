import Verif.Basic

/-!
# Arrays (C26)

`src/simp_parser.cpp:1842-2223` (simplification of selects and stores, canonical forms, equality), `835-851, 1594-1602`
(folding `=` of arrays), `src/op_parser.cpp:3594-3640` (`mkSelect`, `mkStore`).

Fix one array sort.  `I` is the type of the nodes of its index sort, `V` of its element sort and `B` of the nodes of the array
sort itself that are neither stores nor constant arrays (variables, selects, conditionals, applications).  Nodes are hash-consed,
so node equality is equality.  The operands have the right sorts; the caches only store the result of an earlier call on the same
node and are left out.
-/

namespace SMT.Arr

/-- an array node -/
inductive A (I V B : Type) where
  | base (b : B)
  | const (v : V)
  | store (a : A I V B) (i : I) (v : V)
  deriving DecidableEq

/-- the node at the bottom of a chain of stores -/
inductive Root (V B : Type) where
  | base (b : B)
  | const (v : V)
  deriving DecidableEq

variable {I V B : Type} [DecidableEq I] [DecidableEq V] [DecidableEq B]

/-- the root as an array node -/
def Root.node : Root V B → A I V B
  | .base b => .base b
  | .const v => .const v

/-- the loop over `getStoreArray` (`src/simp_parser.cpp:1851-1854`): the updates, newest first -/
def collect : A I V B → List (I × V)
  | .store a i v => (i, v) :: collect a
  | _ => []

/-- where that loop ends (`src/simp_parser.cpp:1856`) -/
def root : A I V B → Root V B
  | .store a _ _ => root a
  | .base b => .base b
  | .const v => .const v

/-- result of `mkSelect`: a value node, or a select node -/
inductive Sel (I V B : Type) where
  | val (v : V)
  | sel (a : A I V B) (i : I)
  deriving DecidableEq

/-- the scan of `rewriteSelect` (`src/simp_parser.cpp:1881-1893`); `areDefinitelyEqual` (`1959-1976`) is node equality -/
def scan (j : I) : A I V B → Sel I V B
  | .store a i v => if j = i then .val v else scan j a
  | a => .sel a j

/-- `mkSelect` (`src/op_parser.cpp:3598-3613`) and `rewriteSelect` (`src/simp_parser.cpp:1862-1905`) -/
def mkSelect (a : A I V B) (j : I) : Sel I V B :=
  match a with
  | .store .. => scan j a
  | a => .sel a j

/-- `overwrite[kv.first] = kv.second` -/
def put (m : List (I × V)) (i : I) (v : V) : List (I × V) :=
  match m with
  | [] => [(i, v)]
  | p :: m => if p.1 = i then (i, v) :: m else p :: put m i v

/-- What the array functions take from the run-time system: the order of the addresses of nodes, the order of node hashes and
the hash of a canonical form. -/
structure Cfg (I V B : Type) where
  /-- `std::sort` by address (`src/simp_parser.cpp:1934-1936`) -/
  sortK : List I → List I
  permK : ∀ l, (sortK l).Perm l
  /-- `std::sort` by hash, then by address (`src/simp_parser.cpp:2048-2060`) -/
  sortW : List (I × V) → List (I × V)
  permW : ∀ l, (sortW l).Perm l
  /-- the nodes sorted are pairwise different, so the comparison is a strict total order on them -/
  canonW : ∀ l l', l.Perm l' → (l.map Prod.fst).Nodup → sortW l = sortW l'
  /-- `computeHash` (`include/parser.h:215-227`) -/
  hashC : Root V B → List (I × V) → Nat

/-- `mkOper(..., NT_STORE, res, idx, overwrite[idx])` (`src/simp_parser.cpp:1942`); the index is always in the map -/
def writeBack (overwrite : List (I × V)) (r : A I V B) (k : I) : A I V B :=
  match overwrite.lookup k with
  | some v => .store r k v
  | none => r

/-- `normalizeStoreChain` (`src/simp_parser.cpp:1907-1948`) -/
def normalize (c : Cfg I V B) (a : A I V B) : A I V B :=
  match a with
  | .store .. =>
    let overwrite := (collect a).reverse.foldl (fun m p => put m p.1 p.2) []
    (c.sortK (overwrite.map Prod.fst)).foldl (writeBack overwrite) (root a).node
  | a => a

/-- `mkStore` (`src/op_parser.cpp:3617-3637`) -/
def mkStore (c : Cfg I V B) (a : A I V B) (i : I) (v : V) : A I V B := normalize c (.store a i v)

/-- the writes recorded by `canonicalizeArray` (`src/simp_parser.cpp:2010-2032`): the first one met for each index -/
def lastWrites : List (I × V) → List (I × V)
  | [] => []
  | p :: l => p :: (lastWrites l).filter fun q => decide (q.1 ≠ p.1)

/-- `canonicalizeArray` (`src/simp_parser.cpp:1985-2065`): base and writes -/
def canon (c : Cfg I V B) (a : A I V B) : Root V B × List (I × V) :=
  let w := lastWrites (collect a)
  match root a with
  | .const v => (.const v, c.sortW (w.filter fun q => decide (q.2 ≠ v)))
  | .base b => (.base b, c.sortW w)

/-- the search for matching writes (`src/simp_parser.cpp:2141-2161`) -/
def matchAll : List (I × V) → List (I × V) → Bool
  | [], _ => true
  | p :: l, l' => if p ∈ l' then matchAll l (l'.erase p) else false

/-- `areArraysEqual` on two bases: equal addresses; otherwise their canonical forms are the bases themselves, and after equal
hashes the function calls itself with the same arguments (`src/simp_parser.cpp:2075-2132`) -/
def baseEq (c : Cfg I V B) (x y : B) : Res Bool :=
  if x = y then .ok true
  else if c.hashC (.base x) [] ≠ c.hashC (.base y) [] then .ok false
  else .diverge

/-- the comparison of the writes (`src/simp_parser.cpp:2135-2163`) -/
def writesEq (l l' : List (I × V)) : Bool := if l.length ≠ l'.length then false else matchAll l l'

/-- `areArraysEqual` (`src/simp_parser.cpp:2067-2164`).  If exactly one of the canonical forms has a constant base, the other
base is not a constant array and the answer is false whatever the writes are (`2087-2109`). -/
def arraysEqual (c : Cfg I V B) (a b : A I V B) : Res Bool :=
  if a = b then .ok true
  else
    let p := canon c a
    let q := canon c b
    if c.hashC p.1 p.2 ≠ c.hashC q.1 q.2 then .ok false
    else
      match p.1, q.1 with
      | .const v, .const w => if v ≠ w then .ok false else .ok (writesEq p.2 q.2)
      | .base x, .base y => (baseEq c x y).bind fun r => if r then .ok (writesEq p.2 q.2) else .ok false
      | _, _ => .ok false

/-- which nodes are variables (`isVar`) -/
structure Vars (I V B : Type) where
  i : I → Bool
  v : V → Bool
  b : B → Bool

/-- `arrayContainsVar` (`src/simp_parser.cpp:2166-2212`) -/
def containsVar (vs : Vars I V B) : A I V B → Bool
  | .store a i v => vs.i i || vs.v v || containsVar vs a
  | .const v => vs.v v
  | .base b => vs.b b

/-- outcome of folding: a truth value, or `mkUnknown` (no folding) -/
inductive Out where | tt | ff | keep
  deriving DecidableEq

/-- `simp_oper(NT_EQ, l, r)` on arrays (`src/simp_parser.cpp:836-851`) -/
def simpEq (c : Cfg I V B) (vs : Vars I V B) (l r : A I V B) : Res Out :=
  (arraysEqual c l r).bind fun e =>
    if e then .ok .tt else if containsVar vs l || containsVar vs r then .ok .keep else .ok .ff

/-- `simp_oper(NT_EQ, l, m, r)` on arrays (`src/simp_parser.cpp:1594-1602`) -/
def simpEq3 (c : Cfg I V B) (l m r : A I V B) : Res Out :=
  (arraysEqual c l m).bind fun e =>
    if e then (arraysEqual c m r).bind fun e' => if e' then .ok .tt else .ok .ff else .ok .ff

end SMT.Arr
