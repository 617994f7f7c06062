import Verif.Term.Model
import Verif.BV.Model
import Verif.Kind.Model

/-!
# The constructors of bit-vector nodes (C80)

`src/op_parser.cpp:2150-2880` and the part of `simp_oper` for them (`src/simp_parser.cpp:619-630`, `1073-1187`, `1389-1460`, `1567-1573`,
`1640-1658`, `1789-1823`).  The arithmetic of constants is in `Verif.BV.Model`; here are the nodes.
-/

namespace SMT.Mean
open SMT SMT.Term SMT.Kinds

/-- the kinds of nodes (`include/kind.h`), as the opaque kinds of `Verif.Term` -/
def bvKind : K → Kind
  | .BV_NOT => .bvOp 0 | .BV_NEG => .bvOp 1 | .BV_AND => .bvOp 2 | .BV_OR => .bvOp 3 | .BV_XOR => .bvOp 4 | .BV_NAND => .bvOp 5
  | .BV_NOR => .bvOp 6 | .BV_XNOR => .bvOp 7 | .BV_ADD => .bvOp 8 | .BV_SUB => .bvOp 9 | .BV_MUL => .bvOp 10 | .BV_UDIV => .bvOp 11
  | .BV_UREM => .bvOp 12 | .BV_SDIV => .bvOp 13 | .BV_SREM => .bvOp 14 | .BV_SMOD => .bvOp 15 | .BV_SHL => .bvOp 16 | .BV_LSHR => .bvOp 17
  | .BV_ASHR => .bvOp 18 | .BV_CONCAT => .bvOp 19 | .BV_EXTRACT => .bvOp 20 | .BV_REPEAT => .bvOp 21 | .BV_ROTATE_LEFT => .bvOp 22
  | .BV_ROTATE_RIGHT => .bvOp 23 | .BV_COMP => .bvOp 24 | .BV_ZERO_EXT => .bvOp 25 | .BV_SIGN_EXT => .bvOp 26
  | .BV_ULT => .atom 0 | .BV_ULE => .atom 1 | .BV_UGT => .atom 2 | .BV_UGE => .atom 3
  | .BV_SLT => .atom 4 | .BV_SLE => .atom 5 | .BV_SGT => .atom 6 | .BV_SGE => .atom 7
  | _ => .misc 0

/-- `isBvParam` (`src/op_parser.cpp:39`) -/
def isBvParam (t : SMT.Term) : Bool := match t.sort with
  | .bv _ => true
  | _ => false

/-- `isIntParam` (`src/op_parser.cpp:36`) -/
def isIntParam (t : SMT.Term) : Bool := t.sort == .int || t.sort == .ior

/-- `getBitWidth` of the sort (`include/sort.h`) -/
def bitWidth (t : SMT.Term) : Nat := match t.sort with
  | .bv w => w
  | _ => 0

/-- a bit-vector constant (`isCBV`, `include/dag.h:305`): its text and its width -/
def cbv : SMT.Term → Option BV.Const
  | .clit (.bv w) x => some ⟨x.toList, w⟩
  | _ => none

/-- the node that `mkConstBv` makes (`src/op_parser.cpp:661-673`) -/
def ofConst (k : BV.Const) : SMT.Term := .clit (.bv k.width) (String.ofList k.text)

/-- the operators on two constants -/
def kindOf : BV.BinOp → K
  | .and => .BV_AND | .or => .BV_OR | .xor => .BV_XOR | .nand => .BV_NAND | .nor => .BV_NOR | .xnor => .BV_XNOR | .add => .BV_ADD
  | .sub => .BV_SUB | .mul => .BV_MUL | .udiv => .BV_UDIV | .urem => .BV_UREM | .sdiv => .BV_SDIV | .srem => .BV_SREM | .smod => .BV_SMOD
  | .shl => .BV_SHL | .lshr => .BV_LSHR | .ashr => .BV_ASHR

/-- `isCommutative` (`src/op_parser.cpp:50-71`), bit-vector kinds -/
def bvComm : K → Bool
  | .BV_ADD | .BV_MUL | .BV_AND | .BV_OR | .BV_XOR => true
  | _ => false

/-- `mkInternalOper` (`src/op_parser.cpp:226-235`): the operands of a commutative kind are sorted -/
def internal (c : SMT.Cfg) (s : SMT.Srt) (k : K) (ps : List SMT.Term) : SMT.Term :=
  .app (bvKind k) s (if bvComm k then c.sort ps else ps)

/-- `simp_oper(t, l, r)` (`src/simp_parser.cpp:1073-1174`, `1389-1448`) -/
def bvSimp2 (o : BV.BinOp) (l r : SMT.Term) : Res SMT.Term :=
  match cbv l, cbv r with
  | some a, some b => (BV.foldBin o a b).bind fun k => .ok (ofConst k)
  | _, _ => .ok .unknown

/-- the loop of the n-ary case (`src/simp_parser.cpp:1811-1822`) -/
def bvSimpN (o : BV.BinOp) (acc : SMT.Term) : List SMT.Term → Res SMT.Term
  | [] => .ok acc
  | t :: ts => (bvSimp2 o acc t).bind fun x => if x.isUnknown then .ok .unknown else bvSimpN o x ts

/-- `simp_oper` of a list: two and three operands have their own functions (`src/simp_parser.cpp:1634-1658` for three) -/
def bvSimp (o : BV.BinOp) : List SMT.Term → Res SMT.Term
  | [l, r] => bvSimp2 o l r
  | [l, m, r] => (bvSimp2 o l m).bind fun x => bvSimp2 o x r
  | l :: ps => bvSimpN o l ps
  | [] => .abort

/-- `mkOper` (`src/op_parser.cpp:182-224`) -/
def bvOper (c : SMT.Cfg) (s : SMT.Srt) (o : BV.BinOp) (ps : List SMT.Term) : Res SMT.Term :=
  (bvSimp o ps).bind fun x => if x.isUnknown then .ok (internal c s (kindOf o) ps) else .ok x

/-- `mkBvAnd(l, r)` and the others with two operands (`src/op_parser.cpp:2165-2650`) -/
def mkBvBin (c : SMT.Cfg) (o : BV.BinOp) (l r : SMT.Term) : Res SMT.Term :=
  if !isBvParam l || !isBvParam r then .abort else bvOper c l.sort o [l, r]

/-- the loop over the operands: an error node is returned, other sorts than bit-vectors end the process -/
def bvScan (s : Option SMT.Srt) : List SMT.Term → Res (Option SMT.Term)
  | [] => .ok none
  | t :: ts => if t.isErr then .ok (some t) else if s.isSome && !isBvParam t then .abort else bvScan s ts

/-- `mkBvAnd(params)` and the other n-ary ones (`src/op_parser.cpp:2174-2202`, `2448-2475`, ...); `none` is the node without operands.
Simplification: `getSort` is the one of `Verif.Term`, which treats lists of bit-vectors alike. -/
def mkBvMany (c : SMT.Cfg) (o : BV.BinOp) (zero : Res SMT.Term) (ps : List SMT.Term) : Res SMT.Term :=
  match ps with
  | [] => zero
  | [p] => .ok p
  | [l, r] => mkBvBin c o l r
  | p :: ps => (bvScan (getSort (p :: ps)) (p :: ps)).bind fun e => match e with
    | some t => .ok t
    | none => bvOper c ((getSort (p :: ps)).getD p.sort) o (p :: ps)

/-- `mkBvNot` (`src/op_parser.cpp:2154-2161`), `simp_oper` (`src/simp_parser.cpp:619-624`) -/
def mkBvNot (t : SMT.Term) : Res SMT.Term :=
  if !isBvParam t then .abort
  else match cbv t with
    | some a => (BV.foldNot a).bind fun k => .ok (ofConst k)
    | none => .ok (.app (bvKind .BV_NOT) t.sort [t])

/-- `mkBvNeg` (`src/op_parser.cpp:2432-2435`), `simp_oper` (`src/simp_parser.cpp:625-630`) -/
def mkBvNeg (t : SMT.Term) : Res SMT.Term :=
  match cbv t with
  | some a => (BV.foldNeg a).bind fun k => .ok (ofConst k)
  | none => .ok (.app (bvKind .BV_NEG) t.sort [t])

/-- the comparisons: their kind in `bvComp`, and the result for the same node twice (`src/op_parser.cpp:2768-2880`) -/
def cmpOf : K → BV.Cmp × Bool
  | .BV_ULT => (.ult, false) | .BV_ULE => (.ule, true) | .BV_UGT => (.ugt, false) | .BV_UGE => (.uge, true)
  | .BV_SLT => (.slt, false) | .BV_SLE => (.sle, true) | .BV_SGT => (.sgt, false) | .BV_SGE => (.sge, true)
  | _ => (.other, false)

/-- `mkBvUlt` ... `mkBvSge` (`src/op_parser.cpp:2768-2920`), `simp_oper` (`src/simp_parser.cpp:1175-1187`).  `mkBvUlt` looks for the same
node first, the others after the constants; on two constants with the same text both give the same. -/
def mkBvCmp (k : K) (l r : SMT.Term) : Res SMT.Term :=
  if !isBvParam l || !isBvParam r then .abort
  else match cbv l, cbv r with
    | some a, some b => (BV.foldCmp (cmpOf k).1 a b).bind fun x => .ok (ofBool x)
    | _, _ => if l = r then .ok (ofBool (cmpOf k).2) else .ok (.app (bvKind k) .bool [l, r])

/-- `mkBvComp` (`src/op_parser.cpp:2418-2427`), `simp_oper` (`src/simp_parser.cpp:1425-1430`) -/
def mkBvComp (l r : SMT.Term) : Res SMT.Term :=
  if !isBvParam l || !isBvParam r then .abort
  else match cbv l, cbv r with
    | some a, some b => (BV.foldCmp .other a b).bind fun x => .ok (ofBool x)
    | _, _ => .ok (.app (bvKind .BV_COMP) (.bv 1) [l, r])

/-- the loop of `mkBvConcat`: the sum of the widths (`size_t`) -/
def concatWidth : List SMT.Term → Res (SMT.Term ⊕ Nat)
  | [] => .ok (.inr 0)
  | t :: ts => if t.isErr then .ok (.inl t) else if !isBvParam t then .abort else (concatWidth ts).bind fun r => match r with
    | .inl e => .ok (.inl e)
    | .inr w => .ok (.inr ((bitWidth t + w) % BV.ulim))

/-- `simp_oper(NT_BV_CONCAT, l, r)` (`src/simp_parser.cpp:1455-1460`) -/
def concat2 (l r : SMT.Term) : Res SMT.Term :=
  match cbv l, cbv r with
  | some a, some b => (BV.foldConcat a b).bind fun k => .ok (ofConst k)
  | _, _ => .ok .unknown

/-- the loop of the n-ary case -/
def concatN (acc : SMT.Term) : List SMT.Term → Res SMT.Term
  | [] => .ok acc
  | t :: ts => (concat2 acc t).bind fun x => if x.isUnknown then .ok .unknown else concatN x ts

/-- `mkBvConcat` (`src/op_parser.cpp:2655-2682`) -/
def mkBvConcat (ps : List SMT.Term) : Res SMT.Term :=
  match ps with
  | [] => .abort
  | [p] => .ok p
  | p :: ps => (concatWidth (p :: ps)).bind fun r => match r with
    | .inl e => .ok e
    | .inr w => (concatN p ps).bind fun x => if x.isUnknown then .ok (.app (bvKind .BV_CONCAT) (.bv w) (p :: ps)) else .ok x

/-- `mkBvExtract` (`src/op_parser.cpp:2686-2696`), `simp_oper` (`src/simp_parser.cpp:1567-1573`) -/
def mkBvExtract (l r s : SMT.Term) : Res SMT.Term :=
  if l.isErr || r.isErr || s.isErr then .ok (if l.isErr then l else r)
  else if !isBvParam l || !isIntParam r || !isIntParam s then .abort
  else match r, s with
    | .cint i, .cint j => do
      let iu ← BV.toULong i
      let ju ← BV.toULong j
      match cbv l with
      | some a => (BV.foldExtract a i j).bind fun k => .ok (ofConst k)
      | none => .ok (.app (bvKind .BV_EXTRACT) (.bv ((BV.usub iu ju + 1) % BV.ulim)) [l, r, s])
    | _, _ => .abort

/-- `mkBvRepeat`, `mkBvZeroExt`, `mkBvSignExt`, `mkBvRotateLeft`, `mkBvRotateRight` (`src/op_parser.cpp:2700-2767`): there is no folding.
The width of the extensions is the number of added bits. -/
def mkBvIx (k : K) (l r : SMT.Term) : Res SMT.Term :=
  if !isBvParam l || !isIntParam r then .abort
  else match k with
    | .BV_ROTATE_LEFT => .ok (.app (bvKind k) (.bv (bitWidth l)) [l, r])
    | .BV_ROTATE_RIGHT => .ok (.app (bvKind k) (.bv (bitWidth l)) [l, r])
    | _ => match r with
      | .cint i => do
        let n ← BV.toULong i
        .ok (.app (bvKind k) (.bv (if k = .BV_REPEAT then bitWidth l * n % BV.ulim else n)) [l, r])
      | _ => .abort

/-- a constructor with one operand -/
def on1 (f : SMT.Term → Res SMT.Term) : List SMT.Term → Res SMT.Term
  | [a] => f a
  | _ => .ub
/-- a constructor with two operands -/
def on2 (f : SMT.Term → SMT.Term → Res SMT.Term) : List SMT.Term → Res SMT.Term
  | [a, b] => f a b
  | _ => .ub
/-- a constructor with three operands -/
def on3 (f : SMT.Term → SMT.Term → SMT.Term → Res SMT.Term) : List SMT.Term → Res SMT.Term
  | [a, b, d] => f a b d
  | _ => .ub

/-- the constructors by their kind -/
def bvCtor (c : SMT.Cfg) : K → Option (List SMT.Term → Res SMT.Term)
  | .BV_NOT => some (on1 mkBvNot)
  | .BV_NEG => some (on1 mkBvNeg)
  | .BV_AND => some (mkBvMany c .and (.ok .tt))
  | .BV_OR => some (mkBvMany c .or (.ok .ff))
  | .BV_XOR => some (mkBvMany c .xor (.ok .ff))
  | .BV_NAND => some (mkBvMany c .nand (.ok .ff))
  | .BV_NOR => some (mkBvMany c .nor (.ok .tt))
  | .BV_XNOR => some (mkBvMany c .xnor (.ok .ff))
  | .BV_ADD => some (mkBvMany c .add .abort)
  | .BV_SUB => some (mkBvMany c .sub .abort)
  | .BV_MUL => some (mkBvMany c .mul .abort)
  | .BV_UDIV => some (on2 (mkBvBin c .udiv))
  | .BV_UREM => some (on2 (mkBvBin c .urem))
  | .BV_SDIV => some (on2 (mkBvBin c .sdiv))
  | .BV_SREM => some (on2 (mkBvBin c .srem))
  | .BV_SMOD => some (on2 (mkBvBin c .smod))
  | .BV_SHL => some (on2 (mkBvBin c .shl))
  | .BV_LSHR => some (on2 (mkBvBin c .lshr))
  | .BV_ASHR => some (on2 (mkBvBin c .ashr))
  | .BV_COMP => some (on2 mkBvComp)
  | .BV_ULT => some (on2 (mkBvCmp .BV_ULT))
  | .BV_ULE => some (on2 (mkBvCmp .BV_ULE))
  | .BV_UGT => some (on2 (mkBvCmp .BV_UGT))
  | .BV_UGE => some (on2 (mkBvCmp .BV_UGE))
  | .BV_SLT => some (on2 (mkBvCmp .BV_SLT))
  | .BV_SLE => some (on2 (mkBvCmp .BV_SLE))
  | .BV_SGT => some (on2 (mkBvCmp .BV_SGT))
  | .BV_SGE => some (on2 (mkBvCmp .BV_SGE))
  | .BV_CONCAT => some mkBvConcat
  | .BV_EXTRACT => some (on3 mkBvExtract)
  | .BV_REPEAT => some (on2 (mkBvIx .BV_REPEAT))
  | .BV_ZERO_EXT => some (on2 (mkBvIx .BV_ZERO_EXT))
  | .BV_SIGN_EXT => some (on2 (mkBvIx .BV_SIGN_EXT))
  | .BV_ROTATE_LEFT => some (on2 (mkBvIx .BV_ROTATE_LEFT))
  | .BV_ROTATE_RIGHT => some (on2 (mkBvIx .BV_ROTATE_RIGHT))
  | _ => none

end SMT.Mean
