import Verif.Kind.Model

/-!
# `expandLet` (`src/eval_parser.cpp:1917-2004`)

Nodes are interned (C19), so two nodes are the same pointer exactly if they are the same term; the hash maps keyed by node pointer are
association lists keyed by term.
-/

namespace SMT.LetExp
open SMT.Kinds

/-- a node: kind, name, sort, children (`include/dag.h:80-95`); a sort is named by a number -/
inductive T where
  | node (k : K) (name : String) (sort : Nat) (cs : List T)

namespace T
/-- `getKind` -/
def kind : T → K | node k _ _ _ => k
/-- `getName` -/
def name : T → String | node _ n _ _ => n
/-- `getSort` -/
def sort : T → Nat | node _ _ s _ => s
/-- `getChildren` -/
def cs : T → List T | node _ _ _ cs => cs
end T

mutual
/-- equality of nodes (of pointers, in the code) -/
def decT : (a b : T) → Decidable (a = b)
  | .node k n s cs, .node k' n' s' cs' =>
    if h : k = k' ∧ n = n' ∧ s = s' then
      match decTs cs cs' with
      | .isTrue e => .isTrue (by obtain ⟨rfl, rfl, rfl⟩ := h; rw [e])
      | .isFalse e => .isFalse (fun q => e (by cases q; rfl))
    else .isFalse (fun q => h (by cases q; exact ⟨rfl, rfl, rfl⟩))
/-- equality of lists of nodes -/
def decTs : (a b : List T) → Decidable (a = b)
  | [], [] => .isTrue rfl
  | [], _ :: _ => .isFalse (fun h => by cases h)
  | _ :: _, [] => .isFalse (fun h => by cases h)
  | a :: as, b :: bs =>
    match decT a b, decTs as bs with
    | .isTrue e, .isTrue f => .isTrue (by rw [e, f])
    | .isFalse e, _ => .isFalse (fun q => e (by cases q; rfl))
    | _, .isFalse f => .isFalse (fun q => f (by cases q; rfl))
end
instance : DecidableEq T := decT

/-- the node used where the code would dereference nothing (a let variable without a definition) -/
def errT : T := .node .ERROR "" 0 []

/-- `resultMap` and `hasChangedMap` together (`src/eval_parser.cpp:1932-1933`): both get an entry at the same time -/
abbrev Map := List (T × (T × Bool))

/-- how a node is rebuilt: `mkOper(sort, kind, children)` (`src/op_parser.cpp:203-234`).  The name of the old node is not passed. -/
abbrev Mk := Nat → K → List T → T

/-- the result for a node from the results for its children (`src/eval_parser.cpp:1975-1990`) -/
def build (mk : Mk) (t : T) (rs : List (T × Bool)) : T × Bool :=
  if t.kind = .LET_BIND_VAR then ((rs.headD (errT, true)).1, true)
  else if rs.any fun r => r.2 then (mk t.sort t.kind (rs.map Prod.fst), true)
  else (t, false)

/-- the loop over the children (`src/eval_parser.cpp:1955-1971`): the first child without result, or all results -/
def scan (m : Map) : List T → T ⊕ List (T × Bool)
  | [] => .inr []
  | c :: cs => match m.lookup c with
    | none => .inl c
    | some r => match scan m cs with
      | .inl d => .inl d
      | .inr rs => .inr (r :: rs)

/-- one round of the loop (`src/eval_parser.cpp:1940-1994`) -/
def round (mk : Mk) : List T × Map → List T × Map
  | ([], m) => ([], m)
  | (t :: st, m) =>
    if (m.lookup t).isSome then (st, m)
    else match scan m t.cs with
      | .inl c => (c :: t :: st, m)
      | .inr rs => (st, (t, build mk t rs) :: m)

/-- the loop, with a bound on the number of rounds: `none` if it is reached -/
def loop (mk : Mk) : Nat → List T × Map → Option Map
  | _, ([], m) => some m
  | 0, (_ :: _, _) => none
  | n + 1, (t :: st, m) => loop mk n (round mk (t :: st, m))

/-- `expandLet` (`src/eval_parser.cpp:1917-2004`): the body of a let, which is the first child of a `NT_LET` and the last of a
`NT_LET_CHAIN`, expanded -/
def expandLet (mk : Mk) (preserve : Bool) (fuel : Nat) (e : T) : Option T :=
  if preserve ∧ (e.kind = .LET ∨ e.kind = .LET_CHAIN) then
    let body := if e.kind = .LET then e.cs.headD errT else e.cs.getLastD errT
    (loop mk fuel ([body], [])).map fun m => ((m.lookup body).getD (errT, false)).1
  else some e

/-- `mkInternalOper` (`src/op_parser.cpp:226-234`) for an operator that is not commutative and that `simp_oper` does not simplify, such as
the application of an uninterpreted function: the name is the one of the kind -/
def mkInternal : Mk := fun s k cs => .node k (kindToString k) s cs

end SMT.LetExp
