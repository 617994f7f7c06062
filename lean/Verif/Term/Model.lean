import Verif.Term.Spec
/-!
# Model of the term constructors

`src/op_parser.cpp` (`mkNot` ... `mkGt`, `mkOper`, `negateComp`) and the parts of
`src/simp_parser.cpp` (`simp_oper`) they reach.
-/

namespace SMT

namespace Term

mutual
/-- Node identity: nodes are hash-consed, so `l == r` on pointers is structural equality
(`include/dag.h:1014-1053`). -/
def beq : Term → Term → Bool
  | .tt, .tt => true
  | .ff, .ff => true
  | .cint i, .cint j => i == j
  | .creal a q, .creal b r => a == b && q == r
  | .clit s a, .clit t b => s == t && a == b
  | .var k s a, .var l t b => k == l && s == t && a == b
  | .app k s ts, .app l t us => k == l && s == t && beqL ts us
  | .unknown, .unknown => true
  | .err, .err => true
  | _, _ => false
/-- `beq` on lists of children. -/
def beqL : List Term → List Term → Bool
  | [], [] => true
  | t :: ts, u :: us => beq t u && beqL ts us
  | _, _ => false
end

mutual
theorem beq_refl : (t : Term) → beq t t = true
  | .tt | .ff | .unknown | .err => by simp [beq]
  | .cint _ | .creal _ _ | .clit _ _ | .var _ _ _ => by simp [beq]
  | .app _ _ ts => by simp [beq, beqL_refl ts]
theorem beqL_refl : (ts : List Term) → beqL ts ts = true
  | [] => by simp [beqL]
  | t :: ts => by simp [beqL, beq_refl t, beqL_refl ts]
end

mutual
theorem eq_of_beq : (t u : Term) → beq t u = true → t = u
  | .app k s ts, .app l t us, h => by
    simp [beq] at h; obtain ⟨⟨h1, h2⟩, h3⟩ := h
    rw [h1, h2, eqL_of_beqL ts us h3]
  | .tt, u, h => by cases u <;> simp_all [beq]
  | .ff, u, h => by cases u <;> simp_all [beq]
  | .unknown, u, h => by cases u <;> simp_all [beq]
  | .err, u, h => by cases u <;> simp_all [beq]
  | .cint i, u, h => by cases u <;> simp_all [beq]
  | .creal _ _, u, h => by cases u <;> simp_all [beq]
  | .clit _ _, u, h => by cases u <;> simp_all [beq]
  | .var _ _ _, u, h => by cases u <;> simp_all [beq]
  | .app _ _ _, .tt, h | .app _ _ _, .ff, h | .app _ _ _, .unknown, h | .app _ _ _, .err, h
  | .app _ _ _, .cint _, h | .app _ _ _, .creal _ _, h | .app _ _ _, .clit _ _, h
  | .app _ _ _, .var _ _ _, h => by simp [beq] at h
theorem eqL_of_beqL : (ts us : List Term) → beqL ts us = true → ts = us
  | [], [], _ => rfl
  | [], _ :: _, h => by simp [beqL] at h
  | _ :: _, [], h => by simp [beqL] at h
  | t :: ts, u :: us, h => by
    simp [beqL] at h
    rw [eq_of_beq t u h.1, eqL_of_beqL ts us h.2]
end

instance : DecidableEq Term := fun t u =>
  if h : beq t u = true then isTrue (eq_of_beq t u h)
  else isFalse (fun e => h (by rw [e]; exact beq_refl u))

mutual
/-- number of nodes of the term as a tree (termination measure only) -/
def size : Term → Nat
  | .app _ _ ts => 1 + sizeL ts
  | _ => 1
/-- sum of `size` -/
def sizeL : List Term → Nat
  | [] => 0
  | t :: ts => size t + sizeL ts
end

/-- `DAGNode::getSort` (`include/dag.h:689-690`); static nodes: `include/dag.h:1078-1090`. -/
def sort : Term → Srt
  | .tt => .bool
  | .ff => .bool
  | .cint _ => .ior
  | .creal _ _ => .real
  | .clit s _ => s
  | .var _ s _ => s
  | .app _ s _ => s
  | .unknown => .unk
  | .err => .null

/-- `DAGNode::isTrue` (`include/dag.h:293`) -/
def isTrue : Term → Bool | .tt => true | _ => false
/-- `DAGNode::isFalse` (`include/dag.h:294`) -/
def isFalse : Term → Bool | .ff => true | _ => false
/-- `DAGNode::isUnknown` (`include/dag.h:289`) -/
def isUnknown : Term → Bool | .unknown => true | _ => false
/-- `DAGNode::isErr` (`include/dag.h:287`) -/
def isErr : Term → Bool | .err => true | _ => false
/-- `DAGNode::isConst` (`include/dag.h:295-301`); the special constants (`pi`, infinities, ...)
are not modelled -/
def isConst : Term → Bool
  | .tt => true | .ff => true | .cint _ => true | .creal _ _ => true | .clit _ _ => true
  | _ => false
/-- `DAGNode::isCInt` (`include/dag.h:303`): constant of sort `Int` or the literal sort.  Opaque
literals of sort `Int`/`Real` do not exist: `mkConstInt`/`mkConstReal` make `cint`/`creal`. -/
def isCInt : Term → Bool | .cint _ => true | _ => false
/-- `DAGNode::isCReal` (`include/dag.h:304`): sort `Real` or the literal sort. -/
def isCReal : Term → Bool | .cint _ => true | .creal _ _ => true | _ => false
/-- `DAGNode::isCBV` (`include/dag.h:305`) -/
def isCBV : Term → Bool | .clit (.bv _) _ => true | _ => false
/-- `DAGNode::isCStr` (`include/dag.h:311`) -/
def isCStr : Term → Bool | .clit .str _ => true | _ => false
/-- `DAGNode::isNot` (`include/dag.h:343`) -/
def isNot : Term → Bool | .app .not _ _ => true | _ => false
/-- `DAGNode::getChildren` -/
def children : Term → List Term | .app _ _ ts => ts | _ => []
/-- `DAGNode::isVar` (`include/dag.h:326`) -/
def isVar : Term → Bool | .var _ _ _ => true | _ => false
/-- the text of a literal (`toString`, `include/dag.h:681`) -/
def text : Term → String | .clit _ x => x | _ => ""
/-- `Parser::toInt` (`src/base_parser.cpp:308-318`) -/
def intVal : Term → Int | .cint i => i | _ => 0

/-- `DAGNode::isArithTerm` (`include/dag.h:415-419`); `ITE`, `MAX`, `MIN` and UF applications count
when their sort is numeric (`MAX`/`MIN` are `arith` kinds here). -/
def isArithTerm : Term → Bool
  | .cint _ => true
  | .creal _ _ => true
  | .var _ s _ => s == .int || s == .real
  | .app k s _ =>
    match k with
    | .add | .mul | .sub | .neg | .arith _ => true
    | .ite | .uf _ => s.isNum
    | _ => false
  | _ => false

/-- the condition inside `isStrEq` (`include/dag.h:620`): string variable, literal or operator -/
def isStrTerm : Term → Bool
  | .var _ s _ => s == .str
  | .clit s _ => s == .str
  | .app (.strOp _) _ _ => true
  | _ => false

end Term

open Term

/-- `Sort::operator==` / `isEqTo` (`include/sort.h:102-125,204-210`): `Int` and `Real` both equal the
literal sort, bit-vector widths and component sorts are ignored. -/
def Srt.eqTo : Srt → Srt → Bool
  | .int, .ior => true
  | .ior, .int => true
  | .real, .ior => true
  | .ior, .real => true
  | .bv _, .bv _ => true
  | .other c _, .other d _ => c == d
  | a, b => a == b

/-- `canExempt` (`src/op_parser.cpp:73-81`) -/
def canExempt (l r : Srt) : Bool :=
  (l == .int || l == .real) && (r == .int || r == .real)

/-- the type check repeated in every constructor: `!l->isEqTo(r)` and not exempted -/
def mismatch (l r : Srt) : Bool := !l.eqTo r && !canExempt l r

/-- Parser state the constructors depend on.  `sort` is `sortParams` (its own model and proofs are
in `Verif.Order`): all that is used here is that it permutes.  `rnd` is the rounding of the
multi-precision reals (`Real`, MPFR) at the configured precision, `realName` their printed form. -/
structure Cfg where
  sort : List Term → List Term
  perm : ∀ l, (sort l).Perm l
  /-- `options->isIntTheory()` (`include/options.h:185-187`) -/
  intTheory : Bool
  /-- `options->isRealTheory()` (`include/options.h:188-190`) -/
  realTheory : Bool
  /-- `getEvaluateUseFloating()` -/
  floating : Bool
  rnd : Rat → Rat
  realName : Rat → String

/-- `mkConstReal(Real)` (`src/op_parser.cpp:639-642`).  Simplification: the node keeps the value; in the code it keeps its text only,
and very small and very large values are lost (`Verif/RealText`, C74). -/
def mkConstReal (c : Cfg) (q : Rat) : Term := .creal (c.realName q) q

/-- `Parser::toReal` (`src/base_parser.cpp:290-307`) of a numeric literal: the value at the
configured precision. -/
def toReal (c : Cfg) : Term → Rat
  | .cint i => c.rnd i
  | .creal _ q => c.rnd q
  | _ => 0

/-- `Parser::isZero` (`src/base_parser.cpp:319-327`) -/
def isZero (c : Cfg) (t : Term) : Bool :=
  if t.isCReal then toReal c t == 0 else if t.isCInt then t.intVal == 0 else false

/-- `Parser::isOne` (`src/base_parser.cpp:328-332`) -/
def isOne (c : Cfg) (t : Term) : Bool :=
  if t.isCReal then toReal c t == 1 else if t.isCInt then t.intVal == 1 else false

/-- `mkTrue`/`mkFalse` chosen by a C++ `if` -/
def ofBool (b : Bool) : Term := if b then .tt else .ff

/-- `isCommutative` (`src/op_parser.cpp:50-71`), on the interpreted kinds.  Opaque commutative kinds
(`bvadd`, `max`, ...) are not reordered in the model. -/
def isComm : Kind → Bool
  | .add | .mul | .and | .or | .xor | .eq | .distinct => true
  | _ => false

/-- `simp_oper(t, p)` (`src/simp_parser.cpp:45-781`), interpreted kinds. -/
def simp1 (c : Cfg) (k : Kind) (p : Term) : Term :=
  match k with
  | .not => if p.isTrue then .ff else if p.isFalse then .tt else .unknown
  | .neg =>
    if p.isCInt then .cint (-p.intVal)
    else if p.isCReal then mkConstReal c (-(toReal c p))
    else .unknown
  | .and | .or | .implies | .xor | .add | .mul | .sub => p
  | _ => .unknown

/-- `mkOper` with one operand (`src/op_parser.cpp:172-181,203-225`): fold, else build the node. -/
def mkOper1 (c : Cfg) (s : Srt) (k : Kind) (p : Term) : Term :=
  if !(simp1 c k p).isUnknown then simp1 c k p else .app k s [p]

/-- `mkNeg` (`src/op_parser.cpp:1384-1387`) -/
def mkNeg (c : Cfg) (t : Term) : Term := mkOper1 c t.sort .neg t

/-- `simp_oper(t, l, r)` (`src/simp_parser.cpp:783-1510`), interpreted kinds; array operands of `=`
(lines 832-846) are treated in `Verif.Arr`. -/
def simp2 (c : Cfg) (k : Kind) (l r : Term) : Term :=
  match k with
  | .eq =>
    if l.isCInt && r.isCInt then ofBool (l.intVal == r.intVal)
    else if (l.isCReal && r.isCReal) || (l.isCInt && r.isCReal) || (l.isCReal && r.isCInt) then
      ofBool (toReal c l == toReal c r)
    else if l.isCBV && r.isCBV then ofBool (l.text == r.text)
    else if l.isCStr && r.isCStr then ofBool (l.text == r.text)
    else .unknown
  | .le =>
    if l.isCInt && r.isCInt then ofBool (decide (l.intVal ≤ r.intVal))
    else if (l.isCReal && r.isCReal) || (l.isCInt && r.isCReal) || (l.isCReal && r.isCInt) then
      ofBool (decide (toReal c l ≤ toReal c r))
    else .unknown
  | .lt =>
    if l.isCInt && r.isCInt then ofBool (decide (l.intVal < r.intVal))
    else if (l.isCReal && r.isCReal) || (l.isCInt && r.isCReal) || (l.isCReal && r.isCInt) then
      if c.floating then ofBool (decide (toReal c l < toReal c r)) else .unknown
    else .unknown
  | .ge =>
    if l.isCInt && r.isCInt then ofBool (decide (l.intVal ≥ r.intVal))
    else if (l.isCReal && r.isCReal) || (l.isCInt && r.isCReal) || (l.isCReal && r.isCInt) then
      if c.floating then ofBool (decide (toReal c l ≥ toReal c r)) else .unknown
    else .unknown
  | .gt =>
    if l.isCInt && r.isCInt then ofBool (decide (l.intVal > r.intVal))
    else if l.isCReal && r.isCReal then
      if c.floating then ofBool (decide (toReal c l > toReal c r)) else .unknown
    else .unknown
  | .distinct =>
    if l.isCInt && r.isCInt then ofBool (!(l.intVal == r.intVal))
    else if l.isCReal && r.isCReal then ofBool (!(toReal c l == toReal c r))
    else if l.isCBV && r.isCBV then ofBool (!(l.text == r.text))
    else if l.isCStr && r.isCStr then ofBool (!(l.text == r.text))
    else .unknown
  | .and =>
    if l.isFalse || r.isFalse then .ff else if l.isTrue && r.isTrue then .tt else .unknown
  | .or =>
    if l.isTrue || r.isTrue then .tt else if l.isFalse && r.isFalse then .ff else .unknown
  | .implies =>
    if l.isTrue && r.isFalse then .ff else if l.isFalse || r.isTrue then .tt else .unknown
  | .xor =>
    if l.isTrue && r.isTrue then .ff
    else if l.isFalse && r.isFalse then .ff
    else if l.isTrue && r.isFalse then .tt
    else if l.isFalse && r.isTrue then .tt
    else .unknown
  | .add =>
    if l.isCInt && r.isCInt then .cint (l.intVal + r.intVal)
    else if l.isCReal && r.isCReal then mkConstReal c (c.rnd (toReal c l + toReal c r))
    else .unknown
  | .mul =>
    if l.isCInt && r.isCInt then .cint (l.intVal * r.intVal)
    else if l.isCReal && r.isCReal then mkConstReal c (c.rnd (toReal c l * toReal c r))
    else .unknown
  | .sub =>
    if l.isCInt && r.isCInt then .cint (l.intVal - r.intVal)
    else if l.isCReal && r.isCReal then mkConstReal c (c.rnd (toReal c l - toReal c r))
    else if isZero c l then mkNeg c r
    else if isZero c r then l
    else .unknown
  | _ => .unknown

/-- `simp_oper(t, l, m, r)` (`src/simp_parser.cpp:1512-1670`), interpreted kinds.  The left-assoc
group feeds the (possibly `unknown`) result of the first pair into the second. -/
def simp3 (c : Cfg) (k : Kind) (l m r : Term) : Term :=
  match k with
  | .ite => if l.isTrue then m else if l.isFalse then r else .unknown
  | .eq =>
    if l.isCInt && m.isCInt && r.isCInt then
      ofBool (l.intVal == m.intVal && m.intVal == r.intVal)
    else if l.isCReal && m.isCReal && r.isCReal then
      ofBool (toReal c l == toReal c m && toReal c m == toReal c r)
    else if (simp2 c .eq l m).isTrue && (simp2 c .eq m r).isTrue then .tt
    else .unknown
  | .distinct =>
    if l.isCInt && m.isCInt && r.isCInt then
      ofBool (!(l.intVal == m.intVal) && !(l.intVal == r.intVal) && !(m.intVal == r.intVal))
    else if l.isCReal && m.isCReal && r.isCReal then
      ofBool (!(toReal c l == toReal c m) && !(toReal c l == toReal c r)
        && !(toReal c m == toReal c r))
    else if (simp2 c .distinct l m).isTrue && (simp2 c .distinct l r).isTrue
        && (simp2 c .distinct m r).isTrue then .tt
    else .unknown
  | .and | .or | .implies | .xor | .add | .mul | .sub => simp2 c k (simp2 c k l m) r
  | _ => .unknown

/-- The left fold of the n-ary case (`src/simp_parser.cpp:1790-1823`): stops at `unknown`. -/
def simpFold (c : Cfg) (k : Kind) (acc : Term) : List Term → Term
  | [] => acc
  | t :: ts =>
    if (simp2 c k acc t).isUnknown then .unknown else simpFold c k (simp2 c k acc t) ts

/-- The loop over the other operands in the n-ary `=` case (`src/simp_parser.cpp:1703-1719`): `none`
when a pair folds to false, else the operands whose comparison with the constant is unknown. -/
def eqRest (c : Cfg) (k0 : Term) : List Term → Option (List Term)
  | [] => some []
  | t :: ts =>
    if (simp2 c .eq k0 t).isUnknown then (eqRest c k0 ts).map (t :: ·)
    else if (simp2 c .eq k0 t).isTrue then eqRest c k0 ts
    else if (simp2 c .eq k0 t).isFalse then none
    else eqRest c k0 ts

/-- index of the first constant (`src/simp_parser.cpp:1689-1695`) -/
def firstConst : List Term → Option Nat
  | [] => none
  | t :: ts => if t.isConst then some 0 else (firstConst ts).map (· + 1)

theorem eqRest_length (c : Cfg) (k0 : Term) : ∀ (ts ps : List Term), eqRest c k0 ts = some ps →
    ps.length ≤ ts.length := by
  intro ts
  induction ts with
  | nil => intro ps h; simp [eqRest] at h; subst h; simp
  | cons t ts ih =>
    intro ps h
    simp only [eqRest] at h
    split at h
    · cases h2 : eqRest c k0 ts with
      | none => rw [h2] at h; simp at h
      | some qs =>
        rw [h2] at h; simp at h; subst h
        have := ih qs h2; simp; omega
    · split at h
      · have := ih ps h; simp; omega
      · split at h
        · simp at h
        · have := ih ps h; simp; omega

theorem firstConst_lt : ∀ (ts : List Term) (i : Nat), firstConst ts = some i → i < ts.length := by
  intro ts
  induction ts with
  | nil => simp [firstConst]
  | cons t ts ih =>
    intro i h
    simp only [firstConst] at h
    split at h
    · simp at h; simp [← h]
    · cases h2 : firstConst ts with
      | none => rw [h2] at h; simp at h
      | some j => rw [h2] at h; simp at h; have := ih j h2; simp; omega

/-- n-ary `=` (`src/simp_parser.cpp:1684-1737`): compare everything with the first constant; when
several operands were constants, go again with one of them. -/
def simpEqN (c : Cfg) (ps : List Term) : Term :=
  match _hi : firstConst ps with
  | none => .unknown
  | some i =>
    match _hr : eqRest c (ps.getD i .unknown) (ps.eraseIdx i) with
    | none => .ff
    | some [] => .tt
    | some [q] => simp2 c .eq q (ps.getD i .unknown)
    | some (q1 :: q2 :: qs) =>
      if _hlen : (q1 :: q2 :: qs).length = ps.length - 1 then .unknown
      else simpEqN c (q1 :: q2 :: qs ++ [ps.getD i .unknown])
termination_by ps.length
decreasing_by
  have h1 := firstConst_lt ps i _hi
  have h2 := eqRest_length c _ _ _ _hr
  rw [List.length_eraseIdx_of_lt h1] at h2
  simp_all; omega

/-- The pair loops of the n-ary `distinct` case (`src/simp_parser.cpp:1741-1753`), one row: `none`
when a pair folds to false, else whether some pair was unknown. -/
def distRow (c : Cfg) (x : Term) : List Term → Option Bool
  | [] => some false
  | t :: ts =>
    if (simp2 c .distinct x t).isUnknown then (distRow c x ts).map fun _ => true
    else if (simp2 c .distinct x t).isFalse then none
    else distRow c x ts

/-- all rows -/
def distRows (c : Cfg) : List Term → Option Bool
  | [] => some false
  | t :: ts =>
    match distRow c t ts with
    | none => none
    | some u => (distRows c ts).map (u || ·)

/-- n-ary `=>` (`src/simp_parser.cpp:1761-1788`): `none` = decided true, else "still constant". -/
def simpImpN : List Term → Term
  | [] => .ff
  | [t] => if t.isTrue then .tt else if t.isFalse then .ff else .unknown
  | t :: u :: ts =>
    if t.isFalse then .tt
    else if (simpImpN (u :: ts)).isTrue then .tt
    else if t.isTrue then simpImpN (u :: ts)
    else .unknown

/-- `simp_oper(t, params)` for four or more operands (`src/simp_parser.cpp:1672-1839`). -/
def simpN (c : Cfg) (k : Kind) (ps : List Term) : Term :=
  match k with
  | .eq => simpEqN c ps
  | .distinct => match distRows c ps with
      | none => .ff
      | some true => .unknown
      | some false => .tt
  | .implies => simpImpN ps
  | .and | .or | .xor | .add | .mul | .sub => match ps with
      | [] => .unknown
      | p :: ps => simpFold c k p ps
  | _ => .unknown

/-- dispatch on the number of operands (`src/op_parser.cpp:208-220`) -/
def simp (c : Cfg) (k : Kind) : List Term → Term
  | [] => .unknown
  | [p] => simp1 c k p
  | [l, r] => simp2 c k l r
  | [l, m, r] => simp3 c k l m r
  | ps => simpN c k ps

/-- `mkOper(sort, t, params)` (`src/op_parser.cpp:203-234`): fold, else sort the operands of a
commutative operator and build the node. -/
def mkOper (c : Cfg) (s : Srt) (k : Kind) (ps : List Term) : Term :=
  if ps.isEmpty then .unknown
  else if !(simp c k ps).isUnknown then simp c k ps
  else .app k s (if isComm k then c.sort ps else ps)

/-- `getSort(params)` (`src/op_parser.cpp:82-108`): `Real` if some operand is `Real`, else `Int` when
the first is numeric; else the sort of the first non-constant (`none` = `nullptr`). -/
def getSort (ps : List Term) : Option Srt :=
  match ps with
  | [] => none
  | p :: _ =>
    if p.sort.isNum then
      some (if ps.any (fun t => t.sort == .real) then .real else .int)
    else (ps.find? (fun t => !t.isConst)).map Term.sort

/-- the type check against `getSort` inside the operand loops -/
def badSort (s : Option Srt) (t : Term) : Bool :=
  match s with
  | none => false
  | some s => mismatch t.sort s

/-- The operand loops: walk the operands in order, stopping with a result (`Sum.inl`) or collecting
the operands to keep (`Sum.inr`).  `f` returns `some (inl r)` to stop with `r`, `some (inr ())` to
drop the operand and `none` to keep it. -/
def scan (f : Term → Option (Term ⊕ Unit)) : List Term → Term ⊕ List Term
  | [] => .inr []
  | t :: ts =>
    match f t with
    | some (.inl r) => .inl r
    | some (.inr _) => scan f ts
    | none => match scan f ts with
      | .inl r => .inl r
      | .inr l => .inr (t :: l)

/-- keep the first copy of every operand (`src/op_parser.cpp:907-917`) -/
def dedup : List Term → List Term
  | [] => []
  | t :: ts => t :: (dedup ts).filter (· != t)

/-- `mkAnd` (`src/op_parser.cpp:866-930`) -/
def mkAnd (c : Cfg) (ps : List Term) : Term :=
  match ps with
  | [] => .tt
  | [p] => p
  | ps =>
    match scan (fun t =>
        if t.sort != .bool then some (.inl .unknown)
        else if t.isErr then some (.inl t)
        else if t.isTrue then some (.inr ())
        else if t.isFalse then some (.inl .ff)
        else none) ps with
    | .inl r => r
    | .inr l =>
      match dedup l with
      | [] => .tt
      | [p] => p
      | l => mkOper c .bool .and l

/-- `mkOr` (`src/op_parser.cpp:935-995`) -/
def mkOr (c : Cfg) (ps : List Term) : Term :=
  match ps with
  | [] => .ff
  | [p] => p
  | ps =>
    match scan (fun t =>
        if t.sort != .bool then some (.inl .unknown)
        else if t.isErr then some (.inl t)
        else if t.isFalse then some (.inr ())
        else if t.isTrue then some (.inl .tt)
        else none) ps with
    | .inl r => r
    | .inr l =>
      match dedup l with
      | [] => .ff
      | [p] => p
      | l => mkOper c .bool .or l

/-- `mkImplies` (`src/op_parser.cpp:1001-1038`) -/
def mkImplies (c : Cfg) (ps : List Term) : Term :=
  if ps.length < 2 then .unknown
  else
    match scan (fun t =>
        if t.isErr then some (.inl t)
        else if t.isFalse then some (.inl .tt)
        else if t.isTrue then some (.inr ())
        else none) ps.dropLast with
    | .inl r => r
    | .inr l =>
      let last := ps.getLastD .unknown
      if last.isErr then last
      else if l.isEmpty then last
      else mkOper c .bool .implies (l ++ [last])

/-- `mkXor` (`src/op_parser.cpp:1044-1075`) -/
def mkXor (c : Cfg) (ps : List Term) : Term :=
  match ps with
  | [] => .ff
  | [p] => p
  | ps =>
    match scan (fun t =>
        if t.isErr then some (.inl t)
        else if t.isFalse then some (.inr ())
        else none) ps with
    | .inl r => r
    | .inr [] => .ff
    | .inr [p] => p
    | .inr l => mkOper c .bool .xor l

/-- `mkIte` (`src/op_parser.cpp:1080-1085`) -/
def mkIte (c : Cfg) (cond l r : Term) : Term :=
  if cond.isErr then cond
  else if l.isErr then l
  else if r.isErr then r
  else mkOper c l.sort .ite [cond, l, r]

/-- `mkDistinct(vector)` (`src/op_parser.cpp:522-567`); more than 100 operands skip folding and
sorting. -/
def mkDistinctV (c : Cfg) (ps : List Term) : Term :=
  if ps.length < 2 then .unknown
  else
    match scan (fun t =>
        if t.isErr then some (.inl t)
        else if badSort (getSort ps) t then some (.inl .unknown)
        else if t.isFalse then some (.inr ())
        else none) ps with
    | .inl r => r
    | .inr [] => .ff
    | .inr [p] => p
    | .inr l =>
      if l.length > 100 then .app .distinct .bool l else mkOper c .bool .distinct l

/-- Binary comparison constructors (`src/op_parser.cpp:1744-1806`): `refl` is the result for two
identical operands of equal sort. -/
def mkCmp2 (c : Cfg) (k : Kind) (refl l r : Term) : Term :=
  if !l.sort.eqTo r.sort then
    if canExempt l.sort r.sort then mkOper c .bool k [l, r] else .unknown
  else if l = r then refl
  else mkOper c .bool k [l, r]

/-- `mkLe(l, r)` (`src/op_parser.cpp:1744-1758`) -/
def mkLe2 (c : Cfg) (l r : Term) : Term := mkCmp2 c .le .tt l r
/-- `mkLt(l, r)` (`src/op_parser.cpp:1759-1773`) -/
def mkLt2 (c : Cfg) (l r : Term) : Term := mkCmp2 c .lt .ff l r
/-- `mkGe(l, r)` (`src/op_parser.cpp:1774-1788`) -/
def mkGe2 (c : Cfg) (l r : Term) : Term := mkCmp2 c .ge .tt l r
/-- `mkGt(l, r)` (`src/op_parser.cpp:1789-1803`) -/
def mkGt2 (c : Cfg) (l r : Term) : Term := mkCmp2 c .gt .ff l r

/-- the atoms `mkNot` hands to `negateComp`: `isArithComp || isBVComp || isStrComp`
(`include/dag.h:420-422,463,621`).  `NT_BV_COMP` nodes are not Boolean, so never get here; the
strict/weak string comparisons are opaque atoms in this model and stay under `not`. -/
def negatable : Term → Bool
  | .app .eq _ (t :: ts) => t.isArithTerm || (!ts.isEmpty && t.isStrTerm)
  | .app .distinct _ (t :: _) => t.isArithTerm
  | .app .le _ _ => true
  | .app .lt _ _ => true
  | .app .ge _ _ => true
  | .app .gt _ _ => true
  | _ => false

mutual
/-- `mkNot` (`src/op_parser.cpp:821-858`) with the comparison cases of `negateComp`
(`src/op_parser.cpp:4353-4390`) in line. -/
def mkNot (c : Cfg) (t : Term) : Term :=
  if t.sort != .bool then .unknown
  else match t with
    | .app .not _ ts => ts.headD .unknown
    | .tt => .ff
    | .ff => .tt
    | .app .eq s ts =>
      if negatable (.app .eq s ts) then mkDistinctV c ts else mkOper c .bool .not [.app .eq s ts]
    | .app .distinct s ts =>
      if negatable (.app .distinct s ts) then mkEqV c ts
      else mkOper c .bool .not [.app .distinct s ts]
    | .app .lt _ ts => mkGe2 c (ts.getD 0 .unknown) (ts.getD 1 .unknown)
    | .app .le _ ts => mkGt2 c (ts.getD 0 .unknown) (ts.getD 1 .unknown)
    | .app .gt _ ts => mkLe2 c (ts.getD 0 .unknown) (ts.getD 1 .unknown)
    | .app .ge _ ts => mkLt2 c (ts.getD 0 .unknown) (ts.getD 1 .unknown)
    | t => mkOper c .bool .not [t]
termination_by (t.size, 0)
decreasing_by simp [size, Prod.lex_def]

/-- `mkEq(l, r)` (`src/op_parser.cpp:372-415`) -/
def mkEq2 (c : Cfg) (l r : Term) : Term :=
  if mismatch l.sort r.sort then .unknown
  else match l, r with
    | .tt, .tt => .tt
    | .ff, .ff => .tt
    | .tt, .ff => .ff
    | .ff, .tt => .ff
    | .tt, r => r
    | .ff, r => mkNot c r
    | l, .tt => l
    | l, .ff => mkNot c l
    | .app .not _ (a :: _), .app .not _ (b :: _) => mkEq2 c a b
    | l, r => mkOper c .bool .eq [l, r]
termination_by (l.size + r.size, 0)
decreasing_by
  all_goals simp [size, sizeL, Prod.lex_def]
  all_goals omega

/-- `mkEq(vector)` (`src/op_parser.cpp:417-464`) -/
def mkEqV (c : Cfg) (ps : List Term) : Term :=
  match ps with
  | [] => .unknown
  | [_] => .unknown
  | [l, r] => mkEq2 c l r
  | ps =>
    match scan (fun t =>
        if badSort (getSort ps) t then some (.inl .unknown)
        else if t.isTrue then some (.inr ())
        else none) ps with
    | .inl r => r
    | .inr [] => .tt
    | .inr [p] => p
    | .inr l =>
      if l.length > 100 then .app .eq .bool l else mkOper c .bool .eq l
termination_by (sizeL ps, 1)
decreasing_by simp [sizeL, Prod.lex_def]
end

/-- `mkDistinct(l, r)` (`src/op_parser.cpp:470-520`) -/
def mkDistinct2 (c : Cfg) (l r : Term) : Term :=
  if mismatch l.sort r.sort then .unknown
  else match l, r with
    | .tt, .tt => .ff
    | .ff, .ff => .ff
    | .tt, .ff => .tt
    | .ff, .tt => .tt
    | .tt, r => mkNot c r
    | .ff, r => r
    | l, .tt => mkNot c l
    | l, .ff => l
    | .app .not _ (a :: _), .app .not _ (b :: _) => mkDistinct2 c a b
    | .app .not _ (a :: _), r => mkDistinct2 c a r
    | l, .app .not _ (b :: _) => mkDistinct2 c l b
    | l, r => mkOper c .bool .distinct [l, r]
termination_by l.size + r.size
decreasing_by
  all_goals simp [size, sizeL]
  all_goals omega

/-- default sort by theory (`src/op_parser.cpp:1158-1168`) -/
def theorySort (c : Cfg) (s : Option Srt) : Option Srt :=
  match s with
  | some s => some s
  | none => if c.realTheory then some .real else if c.intTheory then some .int else none

/-- `mkAdd` (`src/op_parser.cpp:1104-1170`) -/
def mkAdd (c : Cfg) (ps : List Term) : Term :=
  match ps with
  | [] => .unknown
  | [p] => p
  | ps =>
    match scan (fun t =>
        if t.isErr then some (.inl t)
        else if badSort (getSort ps) t then some (.inl .unknown)
        else if isZero c t then some (.inr ())
        else none) ps with
    | .inl r => r
    | .inr [] =>
      if c.realTheory then mkConstReal c 0 else if c.intTheory then .cint 0 else .unknown
    | .inr [p] => p
    | .inr l =>
      match theorySort c (getSort ps) with
      | none => .unknown
      | some s => mkOper c s .add l

/-- `mkMul` (`src/op_parser.cpp:1179-1258`) -/
def mkMul (c : Cfg) (ps : List Term) : Term :=
  match ps with
  | [] => .unknown
  | [p] => p
  | ps =>
    match scan (fun t =>
        if t.isErr then some (.inl t)
        else if badSort (getSort ps) t then some (.inl .unknown)
        else if isZero c t then
          if c.intTheory then some (.inl (.cint 0))
          else if c.realTheory then some (.inl (mkConstReal c 0))
          else some (.inr ())
        else if isOne c t then some (.inr ())
        else none) ps with
    | .inl r => r
    | .inr [] =>
      if c.intTheory then .cint 1 else if c.realTheory then mkConstReal c 1 else .unknown
    | .inr [p] => p
    | .inr l =>
      match theorySort c (getSort ps) with
      | none => .unknown
      | some s =>
        match l with
        | [a, b] =>
          if a.isCInt && b.isCInt then .cint (a.intVal * b.intVal)
          else if a.isCReal && b.isCReal then mkConstReal c (c.rnd (toReal c a * toReal c b))
          else mkOper c s .mul l
        | l => mkOper c s .mul l

/-- `mkSub` (`src/op_parser.cpp:1325-1380`) -/
def mkSub (c : Cfg) (ps : List Term) : Term :=
  match ps with
  | [] => .unknown
  | [p] => mkNeg c p
  | ps =>
    match scan (fun t =>
        if t.isErr then some (.inl t)
        else if badSort (getSort ps) t then some (.inl .unknown)
        else none) ps with
    | .inl r => r
    | .inr l =>
      match theorySort c (getSort ps) with
      | none => .unknown
      | some s =>
        match l with
        | [a, b] =>
          if (s == .int || s == .ior) && a.isCInt && b.isCInt then .cint (a.intVal - b.intVal)
          else if s == .real && a.isCReal && b.isCReal then
            mkConstReal c (c.rnd (toReal c a - toReal c b))
          else if isZero c a then mkNeg c b
          else if isZero c b then a
          else mkOper c s .sub l
        | l => mkOper c s .sub l

/-- The loop of the n-ary comparisons (`src/op_parser.cpp:1818-1835` and the three copies): consecutive
pairs; the last operand is not checked against the common sort. -/
def cmpPairs (mk : Term → Term → Term) (s : Option Srt) : List Term → Term ⊕ List Term
  | [] => .inr []
  | [_] => .inr []
  | t :: u :: ts =>
    if t.isErr then .inl t
    else if badSort s t then .inl .unknown
    else if (mk t u).isErr then .inl (mk t u)
    else match cmpPairs mk s (u :: ts) with
      | .inl r => .inl r
      | .inr l => .inr (mk t u :: l)

/-- `mkLe/mkLt/mkGe/mkGt(vector)` (`src/op_parser.cpp:1804-1936`) -/
def mkCmpV (c : Cfg) (mk : Term → Term → Term) (ps : List Term) : Term :=
  match ps with
  | [] => .unknown
  | [_] => .unknown
  | [l, r] => mk l r
  | ps =>
    match cmpPairs mk (getSort ps) ps with
    | .inl r => r
    | .inr l => mkAnd c l

/-- `mkLe(vector)` (`src/op_parser.cpp:1804-1836`) -/
def mkLeV (c : Cfg) : List Term → Term := mkCmpV c (mkLe2 c)
/-- `mkLt(vector)` (`src/op_parser.cpp:1837-1869`) -/
def mkLtV (c : Cfg) : List Term → Term := mkCmpV c (mkLt2 c)
/-- `mkGe(vector)` (`src/op_parser.cpp:1870-1902`) -/
def mkGeV (c : Cfg) : List Term → Term := mkCmpV c (mkGe2 c)
/-- `mkGt(vector)` (`src/op_parser.cpp:1903-1935`) -/
def mkGtV (c : Cfg) : List Term → Term := mkCmpV c (mkGt2 c)

end SMT
