import Verif.Conv.Replace
/-!
# C33, C34, C51: splitting, binarising, flattening, removing (model)
-/
namespace SMT

open Term

mutual
/-- The walk shared by `splitOp` (`src/conv_parser.cpp:1603-1665`) and `binarizeOp`
(`src/conv_parser.cpp:1716-1855`): a node found in `visited` is returned without touching the flag
`is_changed`; `act` gives the result and the flag for the nodes that are not descended into, and `keep`
says whether such results are entered in `visited`; other nodes are rebuilt by `mkOper` if the flag of
some operand is set. -/
def walk (c : Cfg) (act : Term → Option (Term × Bool)) (keep : Bool) : Term → VMap → Term × Bool × VMap
  | .app k s ts, vis =>
    match vis.find (.app k s ts) with
    | some r => (r, false, vis)
    | none =>
      match act (.app k s ts) with
      | some (r, ch) => (r, ch, if keep then (.app k s ts, r) :: vis else vis)
      | none =>
        let p := walkL c act keep ts vis
        if p.2.1 then
          let r := mkOper c s k p.1
          (r, true, (.app k s ts, r) :: p.2.2)
        else (.app k s ts, false, (.app k s ts, .app k s ts) :: p.2.2)
  | t, vis =>
    match vis.find t with
    | some r => (r, false, vis)
    | none => (t, false, (t, t) :: vis)
/-- the operand loop -/
def walkL (c : Cfg) (act : Term → Option (Term × Bool)) (keep : Bool) :
    List Term → VMap → List Term × Bool × VMap
  | [], vis => ([], false, vis)
  | t :: ts, vis =>
    let p := walk c act keep t vis
    let q := walkL c act keep ts p.2.2
    (p.1 :: q.1, p.2.1 || q.2.1, q.2.2)
end

/-- What `splitOp` does with a node whose kind is in the set (`src/conv_parser.cpp:1607-1654`): `>=`,
`<=` and `distinct` become disjunctions over the first two operands, all others stay. -/
def splitAct (c : Cfg) (ops : Kind → Bool) : Term → Option (Term × Bool)
  | .app k s ts =>
    if ops k then
      match k, ts with
      | .ge, l :: r :: _ => some (mkOr c [mkGt2 c l r, mkEq2 c l r], true)
      | .le, l :: r :: _ => some (mkOr c [mkLt2 c l r, mkEq2 c l r], true)
      | .distinct, l :: r :: _ => some (mkOr c [mkLt2 c l r, mkGt2 c l r], true)
      | _, _ => some (.app k s ts, false)
    else none
  | _ => none

/-- `splitOp(expr, op_set)` (`src/conv_parser.cpp:1596-1601`) -/
def splitOp (c : Cfg) (ops : Kind → Bool) (t : Term) : Term :=
  (walk c (splitAct c ops) false t []).1

/-- the lemma `splitOp` records for a split node (`src/conv_parser.cpp:1618-1621,1633-1636,1646-1649`) -/
def splitLemma (c : Cfg) : Term → Option Term
  | .app .ge _ (l :: r :: _) => some (mkOr c [mkNot c (mkGt2 c l r), mkNot c (mkEq2 c l r)])
  | .app .le _ (l :: r :: _) => some (mkOr c [mkNot c (mkLt2 c l r), mkNot c (mkEq2 c l r)])
  | .app .distinct _ (l :: r :: _) => some (mkOr c [mkNot c (mkLt2 c l r), mkNot c (mkGt2 c l r)])
  | _ => none

/-- `mk` on consecutive operands (`src/conv_parser.cpp:1727-1729`) -/
def consec (mk : Term → Term → Term) : List Term → List Term
  | a :: b :: l => mk a b :: consec mk (b :: l)
  | _ => []

/-- `mk` on all pairs (`src/conv_parser.cpp:1744-1748`) -/
def allPairs (mk : Term → Term → Term) : List Term → List Term
  | a :: l => l.map (mk a) ++ allPairs mk l
  | [] => []

/-- What `binarizeOp` does with a node whose kind is in the set (`src/conv_parser.cpp:1720-1838`): a
relation with three or more operands becomes a conjunction of binary ones, a binary one stays (its
operands are not visited), every other kind is descended into. -/
def binAct (c : Cfg) (ops : Kind → Bool) : Term → Option (Term × Bool)
  | .app k s ts =>
    if ops k then
      let mk : Option (List Term) := match k with
        | .eq => some (consec (fun a b => mkEqV c [a, b]) ts)
        | .distinct => some (allPairs (fun a b => mkDistinctV c [a, b]) ts)
        | .ge => some (consec (fun a b => mkGeV c [a, b]) ts)
        | .le => some (consec (fun a b => mkLeV c [a, b]) ts)
        | .gt => some (consec (fun a b => mkGtV c [a, b]) ts)
        | .lt => some (consec (fun a b => mkLtV c [a, b]) ts)
        | _ => none
      match mk with
      | some l => if ts.length > 2 then some (mkAnd c l, true) else some (.app k s ts, false)
      | none => none
    else none
  | _ => none

/-- `binarizeOp(expr, op_set)` (`src/conv_parser.cpp:1705-1710`) -/
def binarizeOp (c : Cfg) (ops : Kind → Bool) (t : Term) : Term :=
  (walk c (binAct c ops) true t []).1

mutual
/-- `remove(expr, nodes, visited)` (`src/conv_parser.cpp:1677-1703`); `none` is the null node.  Only a
null operand makes the node be rebuilt. -/
def removeV (c : Cfg) (nodes : List Term) : Term → List (Term × Term) → Option Term × VMap
  | .app k s ts, vis =>
    match VMap.find vis (.app k s ts) with
    | some r => (some r, vis)
    | none =>
      if .app k s ts ∈ nodes then (none, vis)
      else
        let p := removeVL c nodes ts vis
        if p.2.1 then
          let r := mkOper c s k p.1
          (some r, (.app k s ts, r) :: p.2.2)
        else (some (.app k s ts), (.app k s ts, .app k s ts) :: p.2.2)
  | t, vis =>
    match VMap.find vis t with
    | some r => (some r, vis)
    | none => if t ∈ nodes then (none, vis) else (some t, (t, t) :: vis)
/-- the operand loop -/
def removeVL (c : Cfg) (nodes : List Term) : List Term → VMap → List Term × Bool × VMap
  | [], vis => ([], false, vis)
  | t :: ts, vis =>
    let p := removeV c nodes t vis
    let q := removeVL c nodes ts p.2
    match p.1 with
    | some r => (r :: q.1, q.2)
    | none => (q.1, true, q.2.2)
end

/-- `remove(expr, nodes)` (`src/conv_parser.cpp:1672-1675`) -/
def remove (c : Cfg) (nodes : List Term) (t : Term) : Option Term := (removeV c nodes t []).1

/-! ### flattening -/

theorem sizeL_append (a b : List Term) : sizeL (a ++ b) = sizeL a + sizeL b := by
  induction a with
  | nil => simp [sizeL]
  | cons t a ih => simp [sizeL, ih]; omega

theorem sizeL_reverse (a : List Term) : sizeL a.reverse = sizeL a := by
  induction a with
  | nil => rfl
  | cons t a ih => simp [sizeL, sizeL_append, ih]; omega

set_option wf.preprocess false in
/-- the stack loop of `eliminateTopContinuousAnd` (`src/conv_parser.cpp:695-710`), top of the stack
first -/
def drainAnd : List Term → List Term
  | [] => []
  | t :: st =>
    match t with
    | .app .and _ ts => drainAnd (ts.reverse ++ st)
    | t => t :: drainAnd st
termination_by l => sizeL l
decreasing_by
  all_goals simp only [sizeL_append, sizeL_reverse, sizeL, size]
  · omega
  · have : 0 < t.size := by cases t <;> simp [size] <;> omega
    omega

set_option wf.preprocess false in
/-- the stack loop of `eliminateContinuousOr` (`src/conv_parser.cpp:732-748`), with its flag -/
def drainOr : List Term → Bool → List Term × Bool
  | [], ch => ([], ch)
  | t :: st, ch =>
    match t with
    | .app .or _ ts => drainOr (ts.reverse ++ st) true
    | t => let p := drainOr st ch; (t :: p.1, p.2)
termination_by l => sizeL l
decreasing_by
  all_goals simp only [sizeL_append, sizeL_reverse, sizeL, size]
  · omega
  · have : 0 < t.size := by cases t <;> simp [size] <;> omega
    omega

/-- `eliminateTopContinuousAnd(exprs, new_exprs)` (`src/conv_parser.cpp:689-717`) -/
def elimTopAnd : List Term → List Term × Bool
  | [] => ([], false)
  | t :: ts =>
    let q := elimTopAnd ts
    match t with
    | .app .and s us => (drainAnd [.app .and s us] ++ q.1, true)
    | t => (t :: q.1, q.2)

/-- `eliminateContinuousOr(exprs, new_exprs)` (`src/conv_parser.cpp:719-766`); the flag is never reset
between the expressions of the list. -/
def elimOr (c : Cfg) : List Term → Bool → List Term × Bool
  | [], ch => ([], ch)
  | t :: ts, ch =>
    match t with
    | .app .or s us =>
      let p := drainOr us.reverse ch
      let q := elimOr c ts p.2
      ((if p.2 then mkOr c p.1 else .app .or s us) :: q.1, q.2)
    | t => let q := elimOr c ts ch; (t :: q.1, q.2)

/-- `eliminateTopRedandancy(exprs, new_exprs)` (`src/conv_parser.cpp:768-790`) when the loop ends within
`n` rounds -/
def elimTop (c : Cfg) : Nat → List Term → Option (List Term)
  | 0, _ => none
  | n + 1, ts =>
    let p := elimTopAnd ts
    let q := elimOr c p.1 false
    if p.2 || q.2 then elimTop c n q.1 else some q.1

end SMT
