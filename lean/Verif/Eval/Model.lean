import Verif.Term.Props
import Verif.Api.Mdl

/-!
# Evaluation under a model (C35)

`src/eval_parser.cpp:36-571` (`evaluate`), `573-905` (`evaluateSimpleOp`), `907-1193` (Boolean operators, `=`, `distinct`,
`ite`), `1206-1257` (`div`).

The functions return the result and whether something changed.  A null result node is the error node.  Evaluation of a
child has no effect besides its result, so the early exits of the loops over the children only save work.
-/

namespace SMT.Eval
open SMT SMT.Term

/-- What evaluation takes from outside the modelled operators. -/
structure Opt where
  /-- The operators that are opaque in `SMT.Kind`: `some n` if `evaluateSimpleOp` evaluates the first `n` operands and rebuilds
  (`src/eval_parser.cpp:577-721`), `none` if `evaluate` returns the expression itself (uninterpreted functions, quantifiers and
  everything not listed, `src/eval_parser.cpp:565-570`).  Operators with another rule are in `Verif.Eval.Fold`. -/
  arity : Kind → Option Nat
  /-- floating-point sorts -/
  isFp : Srt → Bool
  /-- iteration order of the set of constants in `evaluateDistinct` -/
  order : List Term → List Term
  perm : ∀ l, (order l).Perm l

/-- result, changed -/
abbrev R := Term × Bool

/-- the children that are constants -/
def consts (us : List Term) : List Term := us.filter fun t => t.isConst
/-- the other children -/
def others (us : List Term) : List Term := us.filter fun t => !t.isConst

/-- `evaluateAnd` (`src/eval_parser.cpp:907-937`) -/
def evAnd (c : Cfg) (e : Term) (rs : List R) : R :=
  if rs.any fun r => r.1.isFalse then (.ff, true)
  else if !(rs.any fun r => r.2) then (e, false)
  else match others (rs.map Prod.fst) with
    | [] => (.tt, true)
    | [t] => (t, true)
    | l => (mkAnd c l, true)

/-- `evaluateOr` (`src/eval_parser.cpp:938-967`) -/
def evOr (c : Cfg) (e : Term) (rs : List R) : R :=
  if rs.any fun r => r.1.isTrue then (.tt, true)
  else if !(rs.any fun r => r.2) then (e, false)
  else match others (rs.map Prod.fst) with
    | [] => (.ff, true)
    | [t] => (t, true)
    | l => (mkOr c l, true)

/-- `evaluateXor` (`src/eval_parser.cpp:974-1038`) -/
def evXor (c : Cfg) (e : Term) (rs : List R) : R :=
  if !(rs.any fun r => r.2) then (e, false)
  else
    let odd : Bool := ((rs.map Prod.fst).filter fun t => t.isTrue).length % 2 == 1
    match others (rs.map Prod.fst) with
    | [] => (if odd then .tt else .ff, true)
    | [t] => (if odd then mkNot c t else t, true)
    | l => (if odd then mkNot c (mkXor c l) else mkXor c l, true)

/-- the comparison of two constants in `evaluateEq` (`src/eval_parser.cpp:1063-1108`): true if it finds them different.  Two
constants of a sort not listed only fail an assertion, which is not there in the default build. -/
def constNe (c : Cfg) (o : Opt) (a b : Term) : Bool :=
  if a.isCInt && b.isCInt then a.intVal != b.intVal
  else if a.isCReal && b.isCReal then toReal c a != toReal c b
  else if (a.isTrue || a.isFalse) && (b.isTrue || b.isFalse) then a.isTrue != b.isTrue
  else if a.isCStr && b.isCStr then a.text != b.text
  else if a.isCBV && b.isCBV then a.text != b.text
  else if o.isFp a.sort && o.isFp b.sort then a.text != b.text
  else false

/-- `evaluateEq` (`src/eval_parser.cpp:1039-1130`) -/
def evEq (c : Cfg) (o : Opt) (e : Term) (rs : List R) : R :=
  if !(rs.any fun r => r.2) then (e, false)
  else
    let us := rs.map Prod.fst
    match consts us with
    | [] => (mkEqV c (others us), true)
    | k :: ks =>
      if ks.any fun b => constNe c o k b then (.ff, true)
      else if (others us).isEmpty then (.tt, true)
      else (mkEqV c (others us ++ [k]), true)

/-- `evaluateDistinct` (`src/eval_parser.cpp:1131-1170`) -/
def evDistinct (c : Cfg) (o : Opt) (e : Term) (rs : List R) : R :=
  let us := rs.map Prod.fst
  if (dedup (consts us)).length ≠ (consts us).length then (.ff, true)
  else if !(rs.any fun r => r.2) then (e, false)
  else if (consts us).isEmpty then (mkDistinctV c (others us), true)
  else if (others us).isEmpty then (.tt, true)
  else (mkDistinctV c (others us ++ o.order (consts us)), true)

/-- `evaluateIte` (`src/eval_parser.cpp:1171-1193`) -/
def evIte (c : Cfg) (e : Term) (rs : List R) : R :=
  match rs with
  | [x, a, b] =>
    if !(x.2 || a.2 || b.2) then (e, false)
    else if x.1.isConst then (if x.1.isTrue then a.1 else b.1, true)
    else (mkIte c x.1 a.1 b.1, true)
  | _ => (.err, false)

/-- the unary, binary and ternary groups of `evaluateSimpleOp` (`src/eval_parser.cpp:577-721`): only the first `n` operands are
looked at -/
def evFix (c : Cfg) (k : Kind) (s : Srt) (n : Nat) (e : Term) (rs : List R) : R :=
  if !((rs.take n).any fun r => r.2) then (e, false) else (mkOper c s k ((rs.take n).map Prod.fst), true)

/-- folding a list of constants from the left with `mkOper` -/
def foldK (c : Cfg) (k : Kind) (s : Srt) (k0 : Term) (ks : List Term) : Term := ks.foldl (fun acc t => mkOper c s k [acc, t]) k0

/-- the last step of the n-ary groups: a single operand is the result -/
def finish (c : Cfg) (k : Kind) (s : Srt) (l : List Term) : Term :=
  match l with
  | [t] => t
  | l => mkOper c s k l

/-- the n-ary group of `evaluateSimpleOp` (`src/eval_parser.cpp:722-784`) -/
def evNary (c : Cfg) (k : Kind) (s : Srt) (e : Term) (rs : List R) : R :=
  if !(rs.any fun r => r.2) then (e, false)
  else
    let us := rs.map Prod.fst
    match consts us with
    | [] => (finish c k s (others us), true)
    | k0 :: ks => (finish c k s (others us ++ [foldK c k s k0 ks]), true)

/-- the group whose first operand is special (`src/eval_parser.cpp:785-852`); `flip` is `getFlipKind` -/
def evFirst (c : Cfg) (k flip : Kind) (s : Srt) (e : Term) (rs : List R) : R :=
  if !(rs.any fun r => r.2) then (e, false)
  else
    let us := rs.map Prod.fst
    match consts us with
    | [] => (finish c k s (others us), true)
    | k0 :: ks =>
      if (us.headD .err).isConst then (finish c k s (foldK c k s k0 ks :: others us), true)
      else (finish c k s (others us ++ [foldK c flip s k0 ks]), true)

/-- dispatch on the kind (`src/eval_parser.cpp:75-570`) -/
def step (c : Cfg) (o : Opt) (k : Kind) (s : Srt) (e : Term) (rs : List R) : R :=
  match k with
  | .and => evAnd c e rs
  | .or => evOr c e rs
  | .xor => evXor c e rs
  | .eq => evEq c o e rs
  | .distinct => evDistinct c o e rs
  | .ite => evIte c e rs
  | .not | .neg => evFix c k s 1 e rs
  | .implies | .le | .lt | .ge | .gt => evFix c k s 2 e rs
  | .add | .mul => evNary c k s e rs
  | .sub => evFirst c .sub .add s e rs
  | k => match o.arity k with
    | some n => evFix c k s n e rs
    | none => (e, false)

mutual
/-- `evaluate(expr, model, result)` for a model that is not empty (`src/eval_parser.cpp:49-571`) -/
def ev (c : Cfg) (o : Opt) (m : Mdl.M) : Term → R
  | .unknown => (.err, false)
  | .err => (.err, false)
  | .var vk s x => if (Mdl.get m x).isUnknown then (.var vk s x, false) else (Mdl.get m x, true)
  | .app k s ts => step c o k s (.app k s ts) (evL c o m ts)
  | t => (t, false)
/-- the children -/
def evL (c : Cfg) (o : Opt) (m : Mdl.M) : List Term → List R
  | [] => []
  | t :: ts => ev c o m t :: evL c o m ts
end

/-- `evaluate(expr, model)` (`src/eval_parser.cpp:36-53`) -/
def evaluate (c : Cfg) (o : Opt) (m : Mdl.M) (e : Term) : Term := if Mdl.isEmpty m then e else (ev c o m e).1

end SMT.Eval
