import Verif.Mean.ArModel
import Verif.Parse.Model

/-!
# The constructors of the nodes on strings (C84)

`src/op_parser.cpp:3642-3675`, `3680-3800`, `3978-4073` and the part of `simp_oper` for them (`src/simp_parser.cpp:648-718`, `1210-1226`,
`1256-1261`, `1461-1472`, `1528-1557`, `1652-1663`, `1807-1819`); the functions on texts are those of `Verif.Text.Str` (C11).
-/

namespace SMT.Mean
open SMT SMT.Term SMT.Kinds

/-- the kinds of nodes (`include/kind.h`), as the opaque kinds of `Verif.Term`; those of `isStrOp` (`include/dag.h:613`) are `strOp`, those of
`isStrProp` are atoms and those of `isStrConv` are neither -/
def strKind : K → Kind
  | .STR_LEN => .strOp 0 | .STR_CONCAT => .strOp 1 | .STR_SUBSTR => .strOp 2 | .STR_PREFIXOF => .strOp 3 | .STR_SUFFIXOF => .strOp 4
  | .STR_INDEXOF => .strOp 5 | .STR_CHARAT => .strOp 6 | .STR_REPLACE => .strOp 7 | .STR_REPLACE_ALL => .strOp 8
  | .STR_CONTAINS => .atom 9 | .STR_IS_DIGIT => .atom 10
  | .STR_FROM_INT => .misc 10 | .STR_TO_INT => .misc 11 | .STR_TO_CODE => .misc 12 | .STR_FROM_CODE => .misc 13
  | _ => .misc 0

/-- `isStrParam` (`src/op_parser.cpp:41`) -/
def isStrParam (t : SMT.Term) : Bool := t.sort == .str

/-- `toString` of a node that `isCStr` -/
def strText : SMT.Term → Option (List Char)
  | .clit .str n => some n.toList
  | _ => none

/-- `toInt` of a node that `isCInt` -/
def intText : SMT.Term → Option Int
  | .cint i => some i
  | _ => none

/-- the node of a result (`mkConstStr`, `mkConstInt`, `mkTrue`, `mkFalse`) -/
def outTerm : Str.Out → SMT.Term
  | .str n => .clit .str (String.ofList n)
  | .int z => .cint z
  | .bool b => ofBool b

/-- the node of the result that `simp_oper` gives -/
def outRes (x : Res Str.Out) : Res SMT.Term := x.bind fun o => .ok (outTerm o)

/-- `simp_oper(t, p)` for operators on a string (`src/simp_parser.cpp:648-677`, `684-706`) -/
def simpStr1 (k : K) (t : SMT.Term) : Res SMT.Term :=
  match strText t with
  | none => .ok .unknown
  | some s => match k with
    | .STR_LEN => outRes (Str.simp1 .len s)
    | .STR_IS_DIGIT => outRes (Str.simp1 .isDigit s)
    | .STR_TO_CODE => outRes (Str.simp1 .toCode s)
    | .STR_TO_INT => if Str.isIntTok s then (Parse.stoi s).bind fun z => .ok (.cint z) else .abort
    | _ => .ok .unknown

/-- `simp_oper(t, p)` for `str.from_int` and `str.from_code` (`src/simp_parser.cpp:678-683`, `707-718`) -/
def simpInt1 (k : K) (t : SMT.Term) : Res SMT.Term :=
  match intText t with
  | none => .ok .unknown
  | some i => match k with
    | .STR_FROM_INT => .ok (.clit .str (String.ofList (Str.mkConstStr (Tok.showInt i))))
    | .STR_FROM_CODE => outRes (Str.fromCode i)
    | _ => .ok .unknown

/-- `simp_oper(t, l, r)` for operators on two strings (`src/simp_parser.cpp:1210-1221`, `1256-1261`, `1461-1472`) -/
def simpStr2 (k : K) (l r : SMT.Term) : Res SMT.Term :=
  match strText l, strText r with
  | some s, some t => match k with
    | .STR_PREFIXOF => outRes (Str.simp2 .prefixof s t)
    | .STR_SUFFIXOF => outRes (Str.simp2 .suffixof s t)
    | .STR_CONTAINS => outRes (Str.simp2 .contains s t)
    | .STR_CONCAT => outRes (Str.simp2 .concat s t)
    | _ => .ok .unknown
  | _, _ => .ok .unknown

/-- `simp_oper(NT_STR_CONCAT, p)` (`src/simp_parser.cpp:1652-1663`, `1807-1819`) -/
def catFold : SMT.Term → List SMT.Term → Res SMT.Term
  | a, [] => .ok a
  | a, t :: ts => (simpStr2 .STR_CONCAT a t).bind fun x => if x.isUnknown then .ok .unknown else catFold x ts

/-- `simp_oper(NT_STR_CHARAT, l, r)` (`src/simp_parser.cpp:1222-1227`) -/
def simpAt (l r : SMT.Term) : Res SMT.Term :=
  match strText l, intText r with
  | some s, some i => outRes (Str.simpAt s i)
  | _, _ => .ok .unknown

/-- `strReplaceAll` (`src/util.cpp:1183-1197`): with an empty pattern the loop does not end, otherwise there are at most as many rounds as
characters -/
def replaceAllText (s t u : List Char) : Res (List Char) :=
  match Str.replLoop (Str.strip t) (Str.strip u) (s.length + 2) (Str.strip s) (Str.find (Str.strip t) (Str.strip s)) with
  | some r => .ok (Str.quote r)
  | none => .diverge

/-- `simp_oper(t, l, m, r)` (`src/simp_parser.cpp:1528-1539`, `1546-1557`) -/
def simpStr3 (k : K) (l m r : SMT.Term) : Res SMT.Term :=
  match k with
  | .STR_SUBSTR => match strText l, intText m, intText r with
    | some s, some i, some n => outRes (Str.simpSubstr s i n)
    | _, _, _ => .ok .unknown
  | .STR_INDEXOF => match strText l, strText m, intText r with
    | some s, some t, some i => outRes (Str.simpIndexof s t i)
    | _, _, _ => .ok .unknown
  | .STR_REPLACE => match strText l, strText m, strText r with
    | some s, some t, some u => outRes (Str.simpReplace s t u)
    | _, _, _ => .ok .unknown
  | .STR_REPLACE_ALL => match strText l, strText m, strText r with
    | some s, some t, some u => (replaceAllText s t u).bind fun x => .ok (.clit .str (String.ofList (Str.mkConstStr x)))
    | _, _, _ => .ok .unknown
  | _ => .ok .unknown

/-- the end of `mkOper` (`src/op_parser.cpp:172-224`): the node, unless `simp_oper` knows better -/
def strNode (s : SMT.Srt) (k : K) (ts : List SMT.Term) (x : Res SMT.Term) : Res SMT.Term :=
  x.bind fun t => .ok (if t.isUnknown then .app (strKind k) s ts else t)

/-- `mkStrLen`, `mkStrIsDigit`, `mkStrToInt`, `mkStrToCode` (`src/op_parser.cpp:3642-3650`, `4001-4009`, `4025-4033`, `4049-4057`) -/
def mkStr1 (k : K) (s : SMT.Srt) (t : SMT.Term) : Res SMT.Term :=
  if !isStrParam t then .abort else strNode s k [t] (simpStr1 k t)

/-- `mkStrFromInt`, `mkStrFromCode` (`src/op_parser.cpp:4012-4021`, `4061-4069`) -/
def mkInt1 (k : K) (t : SMT.Term) : Res SMT.Term :=
  if !isIntParam t then .abort else strNode .str k [t] (simpInt1 k t)

/-- `mkStrPrefixof`, `mkStrSuffixof`, `mkStrContains` (`src/op_parser.cpp:3692-3712`, `3989-3997`) -/
def mkStr2 (k : K) (l r : SMT.Term) : Res SMT.Term :=
  if !isStrParam l || !isStrParam r then .abort else strNode .bool k [l, r] (simpStr2 k l r)

/-- `mkStrCharat` (`src/op_parser.cpp:3728-3736`) -/
def mkStrCharat (l r : SMT.Term) : Res SMT.Term :=
  if !isStrParam l || !isIntParam r then .abort else strNode .str .STR_CHARAT [l, r] (simpAt l r)

/-- the loop of `mkStrConcat` (`src/op_parser.cpp:3664-3671`): the result if it is left early -/
def catScan : List SMT.Term → Option (Res SMT.Term)
  | [] => none
  | t :: ts => if t.isErr then some (.ok t) else if !isStrParam t then some .abort else catScan ts

/-- `mkStrConcat` (`src/op_parser.cpp:3654-3676`) -/
def mkStrConcat : List SMT.Term → Res SMT.Term
  | [] => .abort
  | [p] => .ok p
  | p :: ps => match catScan (p :: ps) with
    | some x => x
    | none => strNode .str .STR_CONCAT (p :: ps) (catFold p ps)

/-- `l->isErr() || r->isErr() || s->isErr()` (`src/op_parser.cpp:3681`, `3717`, `3755`): the node that is returned -/
def err3 (l m r : SMT.Term) : Option SMT.Term :=
  if l.isErr || m.isErr || r.isErr then some (if l.isErr then l else m) else none

/-- `mkStrSubstr` (`src/op_parser.cpp:3680-3688`) -/
def mkStrSubstr (l m r : SMT.Term) : Res SMT.Term :=
  match err3 l m r with
  | some e => .ok e
  | none => if !isStrParam l || !isIntParam m || !isIntParam r then .abort else strNode l.sort .STR_SUBSTR [l, m, r] (simpStr3 .STR_SUBSTR l m r)

/-- `mkStrIndexof` (`src/op_parser.cpp:3716-3724`) -/
def mkStrIndexof (l m r : SMT.Term) : Res SMT.Term :=
  match err3 l m r with
  | some e => .ok e
  | none => if !isStrParam l || !isStrParam m || !isIntParam r then .abort else strNode .int .STR_INDEXOF [l, m, r] (simpStr3 .STR_INDEXOF l m r)

/-- `mkStrReplace` (`src/op_parser.cpp:3754-3762`) -/
def mkStrReplace (l m r : SMT.Term) : Res SMT.Term :=
  match err3 l m r with
  | some e => .ok e
  | none => if !isStrParam l || !isStrParam m || !isStrParam r then .abort else strNode l.sort .STR_REPLACE [l, m, r] (simpStr3 .STR_REPLACE l m r)

/-- `mkStrReplaceAll` (`src/op_parser.cpp:3766-3780`) -/
def mkStrReplaceAll (l m r : SMT.Term) : Res SMT.Term :=
  if !isStrParam l || !isStrParam m || !isStrParam r then .abort else strNode l.sort .STR_REPLACE_ALL [l, m, r] (simpStr3 .STR_REPLACE_ALL l m r)

/-- the constructors by their kind -/
def strCtor : K → Option (List SMT.Term → Res SMT.Term)
  | .STR_LEN => some (on1 (mkStr1 .STR_LEN .int))
  | .STR_IS_DIGIT => some (on1 (mkStr1 .STR_IS_DIGIT .bool))
  | .STR_TO_INT => some (on1 (mkStr1 .STR_TO_INT .int))
  | .STR_TO_CODE => some (on1 (mkStr1 .STR_TO_CODE .int))
  | .STR_FROM_INT => some (on1 (mkInt1 .STR_FROM_INT))
  | .STR_FROM_CODE => some (on1 (mkInt1 .STR_FROM_CODE))
  | .STR_PREFIXOF => some (on2 (mkStr2 .STR_PREFIXOF))
  | .STR_SUFFIXOF => some (on2 (mkStr2 .STR_SUFFIXOF))
  | .STR_CONTAINS => some (on2 (mkStr2 .STR_CONTAINS))
  | .STR_CHARAT => some (on2 mkStrCharat)
  | .STR_CONCAT => some mkStrConcat
  | .STR_SUBSTR => some (on3 mkStrSubstr)
  | .STR_INDEXOF => some (on3 mkStrIndexof)
  | .STR_REPLACE => some (on3 mkStrReplace)
  | .STR_REPLACE_ALL => some (on3 mkStrReplaceAll)
  | _ => none

end SMT.Mean
