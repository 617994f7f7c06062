import Verif.Conv.Spec
/-!
# Model of the formula conversions (`src/conv_parser.cpp`)

`let` nodes are not part of the term model (they are expanded first, see `Verif.Subst`).
-/
namespace SMT

open Term

/-! ### classification of nodes -/

/-- `DAGNode::isVBool` (`include/dag.h:314`) -/
def isVBool : Term → Bool
  | .var _ s _ => s == .bool
  | _ => false

/-- `DAGNode::isCBool` (`include/dag.h:292`) -/
def isCBool (t : Term) : Bool := t.isTrue || t.isFalse

/-- `DAGNode::isLiteral` (`include/dag.h:315`) -/
def isLiteral (t : Term) : Bool :=
  isVBool t || (match t with | .app .not _ (u :: _) => isVBool u | _ => false) || isCBool t

/-- `DAGNode::isTempVar` (`include/dag.h:322`) -/
def isTempVar : Term → Bool | .var .temp _ _ => true | _ => false

/-- `DAGNode::isBVTerm` (`include/dag.h:509-515`) -/
def isBVTerm : Term → Bool
  | .var _ (.bv _) _ => true
  | .clit (.bv _) _ => true
  | .app (.bvOp _) _ _ => true
  | .app .ite (.bv _) _ => true
  | .app (.uf _) (.bv _) _ => true
  | _ => false

/-- `DAGNode::isFPTerm` (`include/dag.h:568-574`).  Class 0 of the opaque sorts is the floating point
sort. -/
def isFPTerm : Term → Bool
  | .var _ (.other 0 _) _ => true
  | .clit (.other 0 _) _ => true
  | .app (.misc _) (.other 0 _) _ => true
  | .app .ite (.other 0 _) _ => true
  | .app (.uf _) (.other 0 _) _ => true
  | _ => false

/-- `DAGNode::isAtom` (`include/dag.h:654-657` with `isArithAtom`, `isBVAtom`, `isFPAtom`,
`isStrAtom`): equations of Booleans, arrays and user sorts are not atoms, nor is `distinct` of
strings. -/
def isAtom : Term → Bool
  | .app .le _ _ => true
  | .app .lt _ _ => true
  | .app .ge _ _ => true
  | .app .gt _ _ => true
  | .app (.atom _) _ _ => true
  | .app (.uf _) s _ => s == .bool
  | .app .eq _ (t :: ts) =>
    t.isArithTerm || isBVTerm t || isFPTerm t || (!ts.isEmpty && t.isStrTerm)
  | .app .distinct _ (t :: _) => t.isArithTerm || isBVTerm t || isFPTerm t
  | _ => false

/-! ### negation normal form -/

mutual
/-- `Parser::toNNF(expr, is_not)` (`src/conv_parser.cpp:1489-1582`); an `implies` node uses its first
two operands only.  `nnf_map` (lines 1585-1592) caches results of this very function. -/
def nnf (c : Cfg) (neg : Bool) : Term → Term
  | .app .not _ (t :: _) => nnf c (!neg) t
  | .app .and _ ts => if neg then mkOr c (nnfL c neg ts) else mkAnd c (nnfL c neg ts)
  | .app .or _ ts => if neg then mkAnd c (nnfL c neg ts) else mkOr c (nnfL c neg ts)
  | .app .implies _ (a :: b :: _) =>
    if neg then mkAnd c [nnf c false a, nnf c true b] else mkOr c [nnf c true a, nnf c false b]
  | .app .ite s (a :: b :: d :: l) =>
    if b.sort == .bool then
      mkOr c [mkAnd c [nnf c false a, nnf c neg b], mkAnd c [nnf c true a, nnf c neg d]]
    else if neg then mkNot c (.app .ite s (a :: b :: d :: l)) else .app .ite s (a :: b :: d :: l)
  | t => if neg then mkNot c t else t
/-- the operand loop -/
def nnfL (c : Cfg) (neg : Bool) : List Term → List Term
  | [] => []
  | t :: ts => nnf c neg t :: nnfL c neg ts
end

/-- `Parser::toNNF(expr)` (`src/conv_parser.cpp:1585-1592`) -/
def toNNF (c : Cfg) (t : Term) : Term := nnf c false t

/-- `Parser::toNNF(list)` (`src/conv_parser.cpp:1481-1486`) -/
def toNNFL (c : Cfg) (ts : List Term) : Term := toNNF c (mkAnd c ts)

/-! ### disjunctive normal form -/

/-- the map `visited` -/
abbrev VMap := List (Term × Term)

/-- lookup in `visited` -/
def VMap.find (m : VMap) (t : Term) : Option Term :=
  match m with
  | [] => none
  | (k, v) :: m => if k = t then some v else VMap.find m t

/-- `toDNFEliminateXOR` (`src/conv_parser.cpp:1403-1431`), the operands given in reverse order.
One operand: `mkXor` never builds such a node, the recursive call of line 1408 is not modelled. -/
def elimXorR (c : Cfg) : List Term → Term
  | [] => .ff
  | [a] => a
  | b :: r =>
    mkOr c [mkAnd c [elimXorR c r, mkNot c b], mkAnd c [mkNot c (elimXorR c r), b]]

/-- `toDNFEliminateXOR` -/
def elimXor (c : Cfg) (ts : List Term) : Term := elimXorR c ts.reverse

/-- the two-operand case of `toDNFEliminateEq` (`src/conv_parser.cpp:1438-1446`) -/
def elimEq2 (c : Cfg) (a b : Term) : Term :=
  mkOr c [mkAnd c [a, b], mkAnd c [mkNot c a, mkNot c b]]

/-- consecutive pairs -/
def pairsWith (f : Term → Term → Term) : List Term → List Term
  | a :: b :: l => f a b :: pairsWith f (b :: l)
  | _ => []

/-- `toDNFEliminateEq` (`src/conv_parser.cpp:1434-1456`) -/
def elimEq (c : Cfg) (ts : List Term) : Term :=
  match ts with
  | [] => .tt
  | [_] => .tt
  | [a, b] => elimEq2 c a b
  | ts => mkAnd c (pairsWith (elimEq2 c) ts)

/-- `toDNFEliminateDistinct` (`src/conv_parser.cpp:1459-1478`) -/
def elimDistinct (c : Cfg) (ts : List Term) : Term :=
  match ts with
  | [] => .tt
  | [_] => .tt
  | [a, b] => mkOr c [mkAnd c [a, mkNot c b], mkAnd c [mkNot c a, b]]
  | _ => .ff

/-- `visited` and the in-out flag `is_changed` -/
structure ESt where
  vis : VMap
  ch : Bool

mutual
/-- `toDNFEliminateAll(expr, visited, is_changed)` (`src/conv_parser.cpp:1009-1169`) -/
def elim (c : Cfg) : Term → ESt → Term × ESt
  | .app k s ts, st =>
    if isLiteral (.app k s ts) || isAtom (.app k s ts) then (.app k s ts, st)
    else match st.vis.find (.app k s ts) with
      | some r => (r, st)
      | none =>
        match k with
        | .not =>
          let p := elimL c true 1 ts st
          let r := mkNot c (p.1.headD .unknown)
          (r, ⟨(.app k s ts, r) :: p.2.vis, p.2.ch⟩)
        | .and =>
          let p := elimL c true ts.length ts st
          let r := if p.2.ch then mkAnd c p.1 else .app k s ts
          (r, ⟨(.app k s ts, r) :: p.2.vis, p.2.ch⟩)
        | .or =>
          let p := elimL c true ts.length ts st
          let r := if p.2.ch then mkOr c p.1 else .app k s ts
          (r, ⟨(.app k s ts, r) :: p.2.vis, p.2.ch⟩)
        | .implies =>
          let p := elimL c false 2 ts st
          let r := mkOr c [mkNot c (p.1.getD 0 .unknown), p.1.getD 1 .unknown]
          (r, ⟨(.app k s ts, r) :: p.2.vis, true⟩)
        | .ite =>
          let p := elimL c false 3 ts st
          let a := p.1.getD 0 .unknown
          let r := mkAnd c [mkOr c [mkNot c a, p.1.getD 1 .unknown], mkOr c [a, p.1.getD 2 .unknown]]
          (r, ⟨(.app k s ts, r) :: p.2.vis, true⟩)
        | .xor =>
          let p := elimL c false ts.length ts st
          let r := elimXor c p.1
          (r, ⟨(.app k s ts, r) :: p.2.vis, true⟩)
        | .eq =>
          if ts.all (fun t => t.sort == .bool) then
            let p := elimL c true ts.length ts st
            let r := elimEq c p.1
            (r, ⟨(.app k s ts, r) :: p.2.vis, true⟩)
          else (.ff, st)
        | .distinct =>
          if ts.all (fun t => t.sort == .bool) then
            let p := elimL c true ts.length ts st
            let r := if p.1.length > 2 then .ff else elimDistinct c p.1
            (r, ⟨(.app k s ts, r) :: p.2.vis, true⟩)
          else (.ff, st)
        | _ => (.ff, st)
  | t, st => if isLiteral t || isTempVar t then (t, st) else (.ff, st)
/-- The operand loops: the first `n` operands in order; `own` says whether every operand gets a flag
of its own that is then or-ed into the caller's. -/
def elimL (c : Cfg) (own : Bool) : Nat → List Term → ESt → List Term × ESt
  | n + 1, t :: ts, st =>
    let p := elim c t (if own then ⟨st.vis, false⟩ else st)
    let q := elimL c own n ts ⟨p.2.vis, if own then st.ch || p.2.ch else p.2.ch⟩
    (p.1 :: q.1, q.2)
  | _, _, st => ([], st)
end

/-- The loop of `toDNFEliminateAll(expr)` (`src/conv_parser.cpp:999-1007`), at most `n` rounds; `none`
if it needs more. -/
def elimLoop (c : Cfg) : Nat → Term → VMap → Option Term
  | 0, _, _ => none
  | n + 1, t, m =>
    let p := elim c t ⟨m, false⟩
    if p.2.ch then elimLoop c n p.1 p.2.vis else some p.1

/-- `isOr` -/
def isOr : Term → Bool | .app .or _ _ => true | _ => false
/-- `isAnd` -/
def isAnd : Term → Bool | .app .and _ _ => true | _ => false

/-- "copy previous AND terms": the operands of a conjunction, or the term itself -/
def conj (t : Term) : List Term := if isAnd t then t.children else [t]

/-- one distribution step (`src/conv_parser.cpp:1332-1364`): whatever node the two arguments are, their
children are combined pairwise -/
def distProd (c : Cfg) (d o : Term) : Term :=
  mkOr c (d.children.flatMap fun x => o.children.map fun y => mkAnd c (conj x ++ conj y))

/-- merging the other conjuncts (`src/conv_parser.cpp:1367-1388`) -/
def distMerge (c : Cfg) (d : Term) (ands : List Term) : Term :=
  mkOr c (d.children.map fun x => mkAnd c (conj x ++ ands))

mutual
/-- `applyDNFDistributiveLawRec` (`src/conv_parser.cpp:1252-1400`).  `visited` only caches results of
this function and is not modelled. -/
def distrib (c : Cfg) : Term → Term
  | .app k s ts =>
    if isLiteral (.app k s ts) || isAtom (.app k s ts) then .app k s ts
    else match k with
      | .or => mkOr c ((distribL c ts).flatMap fun t => if isOr t then t.children else [t])
      | .and =>
        let ands := (distribL c ts).filter fun t => !isOr t
        match (distribL c ts).filter isOr with
        | [] => mkAnd c ands
        | o :: os =>
          let d := os.foldl (distProd c) o
          if ands.isEmpty then d else distMerge c d ands
      | _ => .app k s ts
  | t => t
/-- the operand loop -/
def distribL (c : Cfg) : List Term → List Term
  | [] => []
  | t :: ts => distrib c t :: distribL c ts
end

mutual
/-- `flattenDNF` (`src/conv_parser.cpp:1180-1249`): one level of nesting is removed at every node. -/
def flattenDNF (c : Cfg) : Term → Term
  | .app .or _ ts =>
    match dedup (flatOr c ts) with
    | [p] => p
    | l => mkOr c l
  | .app .and _ ts =>
    match dedup (flatAnd c ts) with
    | [p] => p
    | l => mkAnd c l
  | t => t
/-- the operands of an OR, nested ORs opened -/
def flatOr (c : Cfg) : List Term → List Term
  | [] => []
  | .app .or _ us :: ts => flatEach c us ++ flatOr c ts
  | t :: ts => flattenDNF c t :: flatOr c ts
/-- the operands of an AND, nested ANDs opened -/
def flatAnd (c : Cfg) : List Term → List Term
  | [] => []
  | .app .and _ us :: ts => flatEach c us ++ flatAnd c ts
  | t :: ts => flattenDNF c t :: flatAnd c ts
/-- `flattenDNF` of every operand -/
def flatEach (c : Cfg) : List Term → List Term
  | [] => []
  | t :: ts => flattenDNF c t :: flatEach c ts
end

/-- `toDNF(expr)` (`src/conv_parser.cpp:986-993`) when the elimination loop ends within `n` rounds -/
def toDNF (c : Cfg) (n : Nat) (t : Term) : Option Term :=
  (elimLoop c n t []).map fun e => flattenDNF c (distrib c (toNNF c e))

/-! ### conjunctive normal form -/

/-- name of the `n`-th temporary variable (`src/op_parser.cpp:700-709`) -/
def tempName (n : Nat) : String := "temp_" ++ toString n

/-- `mkTempVar(BOOL)` (`src/op_parser.cpp:700-709`) when the counter is `n` -/
def tempVar (n : Nat) : Term := .var .temp .bool (tempName n)

/-- counter of temporaries, `visited`, `clauses` (in reverse order of creation) -/
structure TSt where
  n : Nat
  vis : VMap
  cls : List Term

/-- `toTseitinXor` (`src/conv_parser.cpp:299-331`) -/
def tsXor (c : Cfg) (a b : Term) (st : TSt) : Term × TSt :=
  let x := tempVar st.n
  (x, ⟨st.n + 1, st.vis,
    mkOr c [x, a, mkNot c b] :: mkOr c [x, mkNot c a, b] :: mkOr c [mkNot c x, a, b] ::
      mkOr c [mkNot c x, mkNot c a, mkNot c b] :: st.cls⟩)

/-- `toTseitinEq` (`src/conv_parser.cpp:334-352`) -/
def tsEq (c : Cfg) (a b : Term) (st : TSt) : Term × TSt :=
  let x := tempVar st.n
  (x, ⟨st.n + 1, st.vis,
    mkOr c [x, mkNot c a, mkNot c b] :: mkOr c [x, a, b] :: mkOr c [mkNot c x, mkNot c a, b] ::
      mkOr c [mkNot c x, a, mkNot c b] :: st.cls⟩)

/-- `toTseitinDistinct` (`src/conv_parser.cpp:355-374`) -/
def tsDistinct (c : Cfg) (a b : Term) (st : TSt) : Term × TSt :=
  let x := tempVar st.n
  (x, ⟨st.n + 1, st.vis,
    mkOr c [x, a, mkNot c b] :: mkOr c [x, mkNot c a, b] ::
      mkOr c [mkNot c x, mkNot c a, mkNot c b] :: mkOr c [mkNot c x, a, b] :: st.cls⟩)

/-- the `ite` clauses (`src/conv_parser.cpp:611-629`) -/
def tsIte (c : Cfg) (a b d : Term) (st : TSt) : Term × TSt :=
  let x := tempVar st.n
  (x, ⟨st.n + 1, st.vis,
    mkOr c [x, a, mkNot c d] :: mkOr c [x, mkNot c a, mkNot c b] :: mkOr c [mkNot c x, a, d] ::
      mkOr c [mkNot c x, mkNot c a, b] :: st.cls⟩)

/-- the AND clauses over the operand literals (`src/conv_parser.cpp:421-431`) -/
def tsAnd (c : Cfg) (ls : List Term) (st : TSt) : Term × TSt :=
  let x := tempVar st.n
  (x, ⟨st.n + 1, st.vis,
    mkOr c (ls.map (mkNot c) ++ [x]) :: ((ls.map fun l => mkOr c [mkNot c x, l]).reverse ++ st.cls)⟩)

/-- the OR clauses over the operand literals (`src/conv_parser.cpp:450-460`) -/
def tsOr (c : Cfg) (ls : List Term) (st : TSt) : Term × TSt :=
  let x := tempVar st.n
  (x, ⟨st.n + 1, st.vis,
    mkOr c (ls ++ [mkNot c x]) :: ((ls.map fun l => mkOr c [mkNot c l, x]).reverse ++ st.cls)⟩)

/-- the IMPLIES clauses (`src/conv_parser.cpp:477-493`): the second clause negates every operand, the
last one included -/
def tsImplies (c : Cfg) (ls : List Term) (st : TSt) : Term × TSt :=
  let x := tempVar st.n
  (x, ⟨st.n + 1, st.vis,
    mkOr c (ls.map (mkNot c) ++ [x]) ::
      mkOr c (mkNot c x :: (ls.dropLast.map (mkNot c) ++ [ls.getLastD .unknown])) :: st.cls⟩)

/-- the left fold of XOR (`src/conv_parser.cpp:508-511`) -/
def tsXorFold (c : Cfg) : Term → List Term → TSt → Term × TSt
  | a, [], st => (a, st)
  | a, b :: bs, st => let p := tsXor c a b st; tsXorFold c p.1 bs p.2

/-- remember a result in `visited` -/
def TSt.memo (t : Term) (p : Term × TSt) : Term × TSt := (p.1, { p.2 with vis := (t, p.1) :: p.2.vis })

mutual
/-- `toTseitinCNF(expr, visited, clauses)` (`src/conv_parser.cpp:375-640`); `am` is `cnf_map`
restricted to atoms.  A missing atom (line 378) dereferences a null pointer in the program and is an
error node here. -/
def tseitin (c : Cfg) (am : VMap) : Term → TSt → Term × TSt
  | .app k s ts, st =>
    if isAtom (.app k s ts) then ((am.find (.app k s ts)).getD .err, st)
    else if isLiteral (.app k s ts) then (.app k s ts, st)
    else match st.vis.find (.app k s ts) with
      | some r => (r, st)
      | none =>
        match k with
        | .not =>
          let u := ts.headD .unknown
          let x := tempVar st.n
          (x, ⟨st.n + 1, (.app k s ts, x) :: st.vis,
            mkOr c [u, x] :: mkOr c [mkNot c x, mkNot c u] :: st.cls⟩)
        | .and =>
          let p := tseitinL c am ts st
          if p.1.length = 1 then (p.1.headD .unknown, p.2)
          else TSt.memo (.app k s ts) (tsAnd c p.1 p.2)
        | .or =>
          let p := tseitinL c am ts st
          if p.1.length = 1 then (p.1.headD .unknown, p.2)
          else TSt.memo (.app k s ts) (tsOr c p.1 p.2)
        | .implies =>
          let p := tseitinL c am ts st
          if p.1.length = 1 then (p.1.headD .unknown, p.2)
          else TSt.memo (.app k s ts) (tsImplies c p.1 p.2)
        | .xor =>
          let p := tseitinL c am ts st
          TSt.memo (.app k s ts) (tsXorFold c (p.1.headD .unknown) p.1.tail p.2)
        | .eq =>
          if ts.all (fun t => t.sort == .bool) then
            match ts with
            | [a] => TSt.memo (.app k s ts) (tseitin c am a st)
            | [a, b] =>
              let p := tseitin c am a st
              let q := tseitin c am b p.2
              TSt.memo (.app k s ts) (tsEq c p.1 q.1 q.2)
            | a :: r =>
              let p := tseitin c am a st
              let q := tseitinEqs c am p.1 r p.2
              TSt.memo (.app k s ts) (tsAnd c q.1 q.2)
            | [] => (.app k s ts, st)
          else (.app k s ts, st)
        | .distinct =>
          if ts.all (fun t => t.sort == .bool) then
            match ts with
            | [a, b] =>
              let p := tseitin c am a st
              let q := tseitin c am b p.2
              TSt.memo (.app k s ts) (tsDistinct c p.1 q.1 q.2)
            | _ => (.ff, st)
          else (.app k s ts, st)
        | .ite =>
          match ts with
          | a :: b :: d :: _ =>
            if b.sort == .bool && d.sort == .bool then
              let p := tseitin c am a st
              let q := tseitin c am b p.2
              let r := tseitin c am d q.2
              TSt.memo (.app k s ts) (tsIte c p.1 q.1 r.1 r.2)
            else (.ff, st)
          | _ => (.ff, st)
        | _ => (.ff, st)
  | t, st => if isLiteral t || isTempVar t then (t, st) else (.ff, st)
/-- the operand loop -/
def tseitinL (c : Cfg) (am : VMap) : List Term → TSt → List Term × TSt
  | [], st => ([], st)
  | t :: ts, st =>
    let p := tseitin c am t st
    let q := tseitinL c am ts p.2
    (p.1 :: q.1, q.2)
/-- the loop of an equation with three or more operands (`src/conv_parser.cpp:546-549`) -/
def tseitinEqs (c : Cfg) (am : VMap) (a : Term) : List Term → TSt → List Term × TSt
  | [], st => ([], st)
  | t :: ts, st =>
    let p := tseitin c am t st
    let e := tsEq c a p.1 p.2
    let q := tseitinEqs c am a ts e.2
    (e.1 :: q.1, q.2)
end

/-- `isCNF(list)` (`src/conv_parser.cpp:663-688`) -/
def isCNFL (ts : List Term) : Bool :=
  ts.all fun t => match t with
    | .app .or _ us => us.all isLiteral
    | t => isLiteral t

/-- `isCNF(expr)` (`src/conv_parser.cpp:642-661`) -/
def isCNF (t : Term) : Bool :=
  match t with
  | .app .and _ ts => isCNFL ts
  | .app .or _ us => us.all isLiteral
  | t => isLiteral t

end SMT
