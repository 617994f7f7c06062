import Verif.Kind.Model
import Verif.Sort.Model

/-!
# Sort checking in the node constructors (`src/op_parser.cpp`) (C55)

For each constructor: the tests on the sorts of the operands, and the sort that the new node gets.  Where a constructor returns one of its
operands or a Boolean constant instead, the sort of that node.  Folding of constants inside `mkOper` is not part of this model.

Simplification: no operand is an `ERROR` node (every error ends the process, `src/base_parser.cpp:2691-2720`); `.abort` stands for an error
message followed by `exit`; an operand list that no overload of the constructor accepts is `.ub`.
-/

namespace SMT.Typing
open SMT SMT.Kinds SMT.Sorts

/-- what the constructors ask about an operand -/
structure A where
  /-- `getSort()` -/
  srt : Srt
  /-- `isConst()` (`include/dag.h:295-302`) -/
  cst : Bool
  /-- `isTrue()` -/
  tru : Bool
  /-- `isFalse()` -/
  fls : Bool
  /-- `isZero(x)` (`src/base_parser.cpp:319-327`) -/
  zero : Bool
  /-- `isOne(x)` (`src/base_parser.cpp:328-332`) -/
  one : Bool
  /-- `toInt(x).toULong()` (`src/base_parser.cpp:308-318`), 0 if the operand is not a number -/
  int : Nat

/-- the flags of the logic: `isIntTheory`, `isRealTheory` (`include/options.h:185-190`) -/
structure Logic where
  int : Bool
  real : Bool

/-- `isIntParam` (`src/op_parser.cpp:36`) -/
def isInt (a : A) : Bool := a.srt.kind == .INT || a.srt.kind == .INTOREAL
/-- `isRealParam` (`src/op_parser.cpp:37`) -/
def isReal (a : A) : Bool := a.srt.kind == .REAL || a.srt.kind == .INTOREAL
/-- `isBoolParam` (`src/op_parser.cpp:38`) -/
def isBool (a : A) : Bool := a.srt.kind == .BOOL
/-- `isBvParam` (`src/op_parser.cpp:39`) -/
def isBv (a : A) : Bool := a.srt.kind == .BV
/-- `isFpParam` (`src/op_parser.cpp:40`) -/
def isFp (a : A) : Bool := a.srt.kind == .FP
/-- `isStrParam` (`src/op_parser.cpp:41`) -/
def isStr (a : A) : Bool := a.srt.kind == .STR
/-- `isRegParam` (`src/op_parser.cpp:42`) -/
def isReg (a : A) : Bool := a.srt.kind == .REG
/-- `isArrayParam` (`src/op_parser.cpp:43`) -/
def isArray (a : A) : Bool := a.srt.kind == .ARRAY
/-- `getSort()->isRoundingMode()` -/
def isRm (a : A) : Bool := a.srt.kind == .ROUNDING_MODE
/-- `getSort()->getBitWidth()` (`include/sort.h:177-179`) -/
def width (a : A) : Nat := childArity a.srt 0

/-- `canExempt` (`src/op_parser.cpp:73-81`) -/
def canExempt (l r : Srt) : Bool := (l.kind == .INT || l.kind == .REAL) && (r.kind == .INT || r.kind == .REAL)

/-- the test of comparable sorts: `isEqTo`, or `canExempt` -/
def comparable (l r : Srt) : Bool := eqS l r || canExempt l r

/-- `getSort(params)` (`src/op_parser.cpp:82-108`); `none` is `nullptr` -/
def getSort (as : List A) : Option Srt :=
  match as with
  | [] => none
  | a :: _ =>
    if a.srt.kind == .INT || a.srt.kind == .REAL || a.srt.kind == .INTOREAL then
      if as.any (fun x => x.srt.kind == .REAL) then some REAL_SORT else some INT_SORT
    else (as.find? (fun x => !x.cst)).map A.srt

/-- an error unless the test holds -/
def req (b : Bool) (s : Srt) : Res Srt := if b then .ok s else .abort

/-- `size_t` arithmetic -/
def wrap (n : Nat) : Nat := n % 2 ^ 64

/-- constructors of one operand (the ranges are those of the functions in `src/op_parser.cpp`) -/
def chk1 (k : K) (a : A) : Res Srt :=
  match k with
  -- `mkNot` (821-855)
  | .NOT => req (isBool a) BOOL_SORT
  -- `mkPow2` (1309-1312), `mkNeg` (1385-1388), `mkBvNeg` (2431-2434): no test
  | .POW2 | .NEG | .BV_NEG => .ok a.srt
  -- `mkAbs` (1468), `mkSqrt` (1479), `mkSafeSqrt` (1490), `mkCeil` (1500-1507)
  | .ABS | .SQRT | .SAFESQRT | .CEIL => req (isInt a || isReal a) a.srt
  -- `mkFloor` (1510-1514), `mkRound` (1517-1521): no test
  | .FLOOR | .ROUND => .ok INT_SORT
  -- `mkExp` to `mkLg` (1525-1550), `mkSin` to `mkAcoth` (1568-1733): no test
  | .EXP | .LN | .LB | .LG | .SIN | .COS | .TAN | .COT | .SEC | .CSC | .ASIN | .ACOS | .ATAN | .ACOT | .ASEC | .ACSC
  | .SINH | .COSH | .TANH | .COTH | .SECH | .CSCH | .ASINH | .ACOSH | .ATANH | .ACOTH | .ASECH | .ACSCH => .ok REAL_SORT
  -- `mkToInt` (1940), `mkToReal` (1951), `mkIsInt` (1963-1970)
  | .TO_INT => req (isReal a) INT_SORT
  | .TO_REAL => req (isInt a) REAL_SORT
  | .IS_INT => req (isReal a) BOOL_SORT
  -- `mkIsPrime`, `mkIsEven`, `mkIsOdd` (1985-2014), `mkFact` (2142-2149)
  | .IS_PRIME | .IS_EVEN | .IS_ODD => req (isInt a) BOOL_SORT
  | .FACT => req (isInt a) INT_SORT
  -- `mkBvNot` (2154-2162)
  | .BV_NOT => req (isBv a) a.srt
  -- `mkBvToNat` (2928), `mkBvToInt` (2952-2959)
  | .BV_TO_NAT | .BV_TO_INT => req (isBv a) INT_SORT
  -- `mkFpAbs`, `mkFpNeg` (3101-3121), `mkFpSqrt`, `mkFpRoundToIntegral` with one operand (3185-3194, 3210-3219)
  | .FP_ABS | .FP_NEG | .FP_SQRT | .FP_ROUND_TO_INTEGRAL => req (isFp a) a.srt
  -- `mkFpToReal` (3379-3386)
  | .FP_TO_REAL => req (isFp a) REAL_SORT
  -- `mkFpIsNormal` to `mkFpIsPos` (3515-3594)
  | .FP_IS_NORMAL | .FP_IS_SUBNORMAL | .FP_IS_ZERO | .FP_IS_INF | .FP_IS_NAN | .FP_IS_NEG | .FP_IS_POS => req (isFp a) BOOL_SORT
  -- `mkStrLen` (3642-3649)
  | .STR_LEN => req (isStr a) INT_SORT
  -- `mkStrToLower`, `mkStrToUpper`, `mkStrRev` (3818-3849)
  | .STR_TO_LOWER | .STR_TO_UPPER | .STR_REV => req (isStr a) STR_SORT
  -- `mkStrIsDigit` to `mkStrFromCode` (4003-4068)
  | .STR_IS_DIGIT => req (isStr a) BOOL_SORT
  | .STR_FROM_INT => req (isInt a) STR_SORT
  | .STR_TO_INT => req (isStr a) INT_SORT
  | .STR_TO_REG => req (isStr a) REG_SORT
  | .STR_TO_CODE => req (isStr a) INT_SORT
  | .STR_FROM_CODE => req (isInt a) STR_SORT
  -- `mkRegStar`, `mkRegPlus`, `mkRegOpt` (4172-4203), `mkRegComplement` (4245-4252)
  | .REG_STAR | .REG_PLUS | .REG_OPT | .REG_COMPLEMENT => req (isReg a) REG_SORT
  | _ => .ub

/-- constructors of two operands -/
def chk2 (k : K) (l r : A) : Res Srt :=
  match k with
  -- `mkPow` (1313-1316): no test
  | .POW => .ok l.srt
  -- `mkDivInt` (1392-1402), `mkDivReal` (1427-1437)
  | .DIV_INT => req ((isInt l && isInt r) || canExempt l.srt r.srt) INT_SORT
  | .DIV_REAL => req ((isReal l && isReal r) || canExempt l.srt r.srt) REAL_SORT
  -- `mkMod` (1456-1463)
  | .MOD => req (isInt l && isInt r) INT_SORT
  -- `mkLog` (1553-1563), `mkAtan2` (1736-1740): no test
  | .LOG => req (comparable l.srt r.srt) REAL_SORT
  | .ATAN2 => .ok REAL_SORT
  -- `mkLe`, `mkLt`, `mkGe`, `mkGt` (1744-1807)
  | .LE | .LT | .GE | .GT => req (comparable l.srt r.srt) BOOL_SORT
  -- `mkIsDivisible` (1974), `mkGcd`, `mkLcm` (2120-2139)
  | .IS_DIVISIBLE => req (isInt l && isInt r) BOOL_SORT
  | .GCD | .LCM => req (isInt l && isInt r) INT_SORT
  -- `mkBvComp` (2418-2427)
  | .BV_COMP => req (isBv l && isBv r) (bvSort 1)
  -- `mkBvAnd` and so on with two operands (2165, 2207, 2250, 2292, 2334, 2376, 2438, 2479, 2520), `mkBvUdiv` to `mkBvAshr` (2561-2656)
  | .BV_AND | .BV_OR | .BV_XOR | .BV_NAND | .BV_NOR | .BV_XNOR | .BV_ADD | .BV_SUB | .BV_MUL
  | .BV_UDIV | .BV_UREM | .BV_UMOD | .BV_SDIV | .BV_SREM | .BV_SMOD | .BV_SHL | .BV_LSHR | .BV_ASHR => req (isBv l && isBv r) l.srt
  -- `mkBvRepeat` (2702-2713)
  | .BV_REPEAT => req (isBv l && isInt r) (bvSort (wrap (width l * r.int)))
  -- `mkBvZeroExt`, `mkBvSignExt` (2716-2740): the width of the operand is not added
  | .BV_ZERO_EXT | .BV_SIGN_EXT => req (isBv l && isInt r) (bvSort r.int)
  -- `mkBvRotateLeft`, `mkBvRotateRight` (2743-2769)
  | .BV_ROTATE_LEFT | .BV_ROTATE_RIGHT => req (isBv l && isInt r) (bvSort (width l))
  -- `mkBvUlt` to `mkBvSge` (2773-2925)
  | .BV_ULT | .BV_ULE | .BV_UGT | .BV_UGE | .BV_SLT | .BV_SLE | .BV_SGT | .BV_SGE => req (isBv l && isBv r) BOOL_SORT
  -- `mkNatToBv` (2940), `mkIntToBv` (2963-2971)
  | .NAT_TO_BV | .INT_TO_BV => req (isInt l && isInt r) (bvSort r.int)
  -- `mkFpRem` (3125-3133)
  | .FP_REM => req (isFp l && isFp r) l.srt
  -- `mkFpSqrt`, `mkFpRoundToIntegral` (3172-3182, 3197-3207): the rounding mode is not tested
  | .FP_SQRT | .FP_ROUND_TO_INTEGRAL => req (isFp r) r.srt
  -- `mkFpLe` to `mkFpEq` (3281-3345)
  | .FP_LE | .FP_LT | .FP_GE | .FP_GT | .FP_EQ => req (isFp l && isFp r) BOOL_SORT
  -- `mkSelect` (3598-3614); an array sort has two components
  | .SELECT =>
    match l.srt.children with
    | [i, e] => req (isArray l && eqS r.srt i) e
    | _ => .abort
  -- `mkStrPrefixof`, `mkStrSuffixof` (3692-3711), `mkStrLt` to `mkStrGe` (3916-3974), `mkStrContains` (3991-3999)
  | .STR_PREFIXOF | .STR_SUFFIXOF | .STR_LT | .STR_LE | .STR_GT | .STR_GE | .STR_CONTAINS => req (isStr l && isStr r) BOOL_SORT
  -- `mkStrCharat` (3728-3735)
  | .STR_CHARAT => req (isStr l && isInt r) STR_SORT
  -- `mkStrIndexofReg` (3806-3813), `mkStrNumSplitsRe` (3905-3911)
  | .STR_INDEXOF_REG | .STR_NUM_SPLITS_RE => req (isStr l && isReg r) INT_SORT
  -- `mkStrSplit` (3854-3859), `mkStrNumSplits` (3875-3881)
  | .STR_SPLIT => req (isStr l && isStr r) (arraySort INT_SORT STR_SORT)
  | .STR_NUM_SPLITS => req (isStr l && isStr r) INT_SORT
  -- `mkStrInReg` (3977-3987)
  | .STR_IN_REG => req (isStr l && isReg r) BOOL_SORT
  -- `mkRegRange` (4208-4215), `mkRegRepeat` (4220-4228)
  | .REG_RANGE => req (isStr l && isStr r) REG_SORT
  | .REG_REPEAT => req (isReg l && isInt r) REG_SORT
  | _ => .ub

/-- constructors of three operands -/
def chk3 (k : K) (l r v : A) : Res Srt :=
  match k with
  -- `mkBvExtract` (2688-2699)
  | .BV_EXTRACT => req (isBv l && isInt r && isInt v) (bvSort (wrap (r.int + 2 ^ 64 - v.int + 1)))
  -- `mkFpToUbv`, `mkFpToSbv` (3349-3376)
  | .FP_TO_UBV | .FP_TO_SBV => req (isRm l && isFp r && isInt v) (bvSort v.int)
  -- `mkToFp` without rounding mode (3429-3451)
  | .FP_TO_FP => req (l.cst && r.cst && isBv v) (fpSort cs!"FP" l.int r.int)
  -- `mkFpConst` (3490-3512)
  | .CONST => req (isBv l && isBv r && isBv v && width l == 1) (fpSort cs!"FP" (width r) (wrap (width v + 1)))
  -- `mkStore` (3617-3639)
  | .STORE =>
    match l.srt.children with
    | [i, e] => req (isArray l && eqS r.srt i && eqS v.srt e) l.srt
    | _ => .abort
  -- `mkStrSubstr` (3680-3688), `mkStrIndexof` (3716-3724), `mkStrUpdate` (3740-3748)
  | .STR_SUBSTR => req (isStr l && isInt r && isInt v) l.srt
  | .STR_INDEXOF => req (isStr l && isStr r && isInt v) INT_SORT
  | .STR_UPDATE => req (isStr l && isInt r && isStr v) l.srt
  -- `mkStrReplace`, `mkStrReplaceAll` (3752-3779)
  | .STR_REPLACE | .STR_REPLACE_ALL => req (isStr l && isStr r && isStr v) l.srt
  -- `mkStrReplaceReg`, `mkStrReplaceRegAll` (3782-3802)
  | .STR_REPLACE_REG | .STR_REPLACE_REG_ALL => req (isStr l && isReg r && isStr v) l.srt
  -- `mkStrSplitAt`, `mkStrSplitRest` (3861-3873), `mkStrSplitAtRe`, `mkStrSplitRestRe` (3885-3903)
  | .STR_SPLIT_AT | .STR_SPLIT_REST => req (isStr l && isStr r && isInt v) STR_SORT
  | .STR_SPLIT_AT_RE | .STR_SPLIT_REST_RE => req (isStr l && isReg r && isInt v) STR_SORT
  -- `mkRegLoop` (4233-4241)
  | .REG_LOOP => req (isReg l && isInt r && isInt v) REG_SORT
  | _ => .ub

/-- constructors of four operands -/
def chk4 (k : K) (e s m x : A) : Res Srt :=
  match k with
  -- `mkToFp` (3395-3427)
  | .FP_TO_FP => req (e.cst && s.cst && isRm m && (isReal x || isBv x || isFp x)) (fpSort cs!"FP" e.int s.int)
  -- `mkToFpUnsigned` (3458-3486)
  | .FP_TO_FP_UNSIGNED => req (e.cst && s.cst && isRm m && isBv x) (fpSort cs!"FP" e.int s.int)
  | _ => .ub

/-- every operand comparable with the common sort (`mkAdd`, `mkEq` and others); no test if there is none -/
def allComparable (o : Option Srt) (as : List A) : Bool :=
  match o with
  | some s => as.all (fun a => comparable a.srt s)
  | none => true

/-- every operand of a family, if there is a common sort (`mkBvAnd`, `mkFpMin` and others) -/
def allOf (p : A → Bool) (o : Option Srt) (as : List A) : Bool :=
  match o with
  | some _ => as.all p
  | none => true

/-- the common sort, or the sort of the logic (`mkAdd` 1156-1167 and so on) -/
def orLogic (L : Logic) (o : Option Srt) : Res Srt :=
  match o with
  | some s => .ok s
  | none => if L.real then .ok REAL_SORT else if L.int then .ok INT_SORT else .abort

/-- sort of a constant of the logic, asking for reals first (`mkAdd` 1128-1138) -/
def zeroSort (L : Logic) : Res Srt := if L.real then .ok REAL_SORT else if L.int then .ok INTOREAL_SORT else .abort

/-- sort of a constant of the logic, asking for integers first (`mkMul` 1214-1224) -/
def oneSort (L : Logic) : Res Srt := if L.int then .ok INTOREAL_SORT else if L.real then .ok REAL_SORT else .abort

/-- the end of `mkAdd` (1126-1167): no operand left, one, or more -/
def rest (c : Res Srt) (d : Res Srt) : List A → Res Srt
  | [] => c
  | [a] => .ok a.srt
  | _ => d

/-- the end of `mkEq`, `mkDistinct` and `mkXor`: a Boolean node, or the only operand left (444-457, 554-567, 1066-1075) -/
def kept : List A → Res Srt
  | [a] => .ok a.srt
  | _ => .ok BOOL_SORT

/-- `isCInt()` (`include/dag.h:303`) -/
def isCInt (a : A) : Bool := a.cst && isInt a
/-- `isCReal()` (`include/dag.h:304`) -/
def isCReal (a : A) : Bool := a.cst && isReal a

/-- the loop and the end of `mkMul` (1185-1260), with the operands kept so far.  A zero decides, but in a logic without integers and reals
it is left out. -/
def mulGo (L : Logic) (o : Option Srt) : List A → List A → Res Srt
  | a :: l, acc =>
    if allComparable o [a] then
      if a.zero then
        if L.int then .ok INTOREAL_SORT else if L.real then .ok REAL_SORT else mulGo L o l acc
      else if a.one then mulGo L o l acc
      else mulGo L o l (acc ++ [a])
    else .abort
  | [], [] => oneSort L
  | [], [a] => .ok a.srt
  | [], [a, b] =>
    if isCInt a && isCInt b then do
      let _ ← orLogic L o
      return INTOREAL_SORT
    else if isCReal a && isCReal b then do
      let _ ← orLogic L o
      return REAL_SORT
    else orLogic L o
  | [], _ => orLogic L o

/-- `mkOr` and `mkAnd`: the operands before the one that decides are tested -/
def junct (decides : A → Bool) : List A → Res Srt
  | [] => .ok BOOL_SORT
  | a :: l => if isBool a then (if decides a then .ok BOOL_SORT else junct decides l) else .abort

/-- `mkLe`, ... on a list (1808-1935): neighbours -/
def neighbours : List A → Bool
  | a :: b :: l => comparable a.srt b.srt && neighbours (b :: l)
  | _ => true

/-- the bit-vector and floating-point operators of any number of operands (2173-2204 and so on, 3222-3278) -/
def family (p : A → Bool) (two : A → A → Res Srt) : List A → Res Srt → Res Srt
  | [], e => e
  | [a], _ => .ok a.srt
  | [a, b], _ => two a b
  | a :: as, _ => if allOf p (getSort (a :: as)) (a :: as) then .ok ((getSort (a :: as)).getD a.srt) else .abort

/-- the string and regular-expression operators of any number of operands -/
def uniform (p : A → Bool) (s : Srt) : List A → Res Srt
  | [] => .abort
  | [a] => .ok a.srt
  | as => req (as.all p) s

/-- the constructors of a list of operands; `none` for the other kinds -/
def chkN (L : Logic) (k : K) (as : List A) : Option (Res Srt) :=
  match k with
  -- `mkEq` (372-457): with two operands of comparable sorts the result is a Boolean node
  | .EQ => some (
    match as with
    | [] | [_] => .abort
    | [a, b] => req (comparable a.srt b.srt) BOOL_SORT
    | _ => if allComparable (getSort as) as then kept (as.filter (fun x => !x.tru)) else .abort)
  -- `mkDistinct` (522-567)
  | .DISTINCT => some (
    match as with
    | [] | [_] => .abort
    | _ => if allComparable (getSort as) as then kept (as.filter (fun x => !x.fls)) else .abort)
  -- `mkAnd`, `mkOr` (860-995)
  | .AND => some (match as with | [] => .ok BOOL_SORT | [a] => .ok a.srt | _ => junct A.fls as)
  | .OR => some (match as with | [] => .ok BOOL_SORT | [a] => .ok a.srt | _ => junct A.tru as)
  -- `mkImplies` (998-1030): no test
  | .IMPLIES => some (
    match as.reverse with
    | [] | [_] => .abort
    | z :: ps => if ps.all A.tru then .ok z.srt else .ok BOOL_SORT)
  -- `mkXor` (1038-1075): no test
  | .XOR => some (
    match as with
    | [] => .ok BOOL_SORT
    | [a] => .ok a.srt
    | _ => kept (as.filter (fun x => !x.fls)))
  -- `mkIte` (1080-1092): no test
  | .ITE => some (match as with | [_, a, _] => .ok a.srt | _ => .abort)
  -- `mkAdd` (1104-1167)
  | .ADD => some (
    match as with
    | [] => .abort
    | [a] => .ok a.srt
    | _ => if allComparable (getSort as) as then
        rest (zeroSort L) (orLogic L (getSort as)) (as.filter (fun x => !x.zero))
      else .abort)
  -- `mkMul` (1179-1260); without a theory a zero is left out
  | .MUL => some (
    match as with
    | [] => .ub
    | [a] => .ok a.srt
    | _ => mulGo L (getSort as) as [])
  -- `mkSub` (1325-1382): zero minus an operand is its negation, an operand minus zero the operand
  | .SUB => some (
    match as with
    | [] => .abort
    | [a] => chk1 .NEG a
    | [a, b] => if allComparable (getSort as) as then do
          let s ← orLogic L (getSort as)
          if (s.kind == .INT || s.kind == .INTOREAL) && isCInt a && isCInt b then .ok INTOREAL_SORT
          else if s.kind == .REAL && isCReal a && isCReal b then .ok REAL_SORT
          else if a.zero then chk1 .NEG b
          else if b.zero then .ok a.srt
          else .ok s
        else .abort
    | _ => if allComparable (getSort as) as then orLogic L (getSort as) else .abort)
  -- `mkIand` (1264-1306)
  | .IAND => some (
    match as with
    | [] => .ub
    | [a] => .ok a.srt
    | _ => if allComparable (getSort as) as then orLogic L (getSort as) else .abort)
  -- `mkLe` to `mkGt` on a list (1808-1935)
  | .LE | .LT | .GE | .GT => some (
    match as with
    | [] | [_] => .abort
    | [a, b] => chk2 k a b
    | _ => if allComparable (getSort as) as.dropLast && neighbours as then .ok BOOL_SORT else .abort)
  -- `mkMax`, `mkMin` (4293-4350): the last operand is neither tested nor used; the sort may be missing
  | .MAX | .MIN => some (
    match as with
    | [] => .abort
    | [a] => .ok a.srt
    | _ => if allComparable (getSort as) as.dropLast then (match getSort as with | some s => .ok s | none => .ub) else .abort)
  -- 2173-2204, 2218-2247
  | .BV_AND | .BV_OR | .BV_XOR | .BV_NAND | .BV_NOR | .BV_XNOR => some (family isBv (chk2 k) as (.ok BOOL_SORT))
  -- 2446-2475, 2487-2516, 2528-2557
  | .BV_ADD | .BV_SUB | .BV_MUL => some (family isBv (chk2 k) as .abort)
  -- `mkBvConcat` (2660-2685)
  | .BV_CONCAT => some (
    match as with
    | [] => .abort
    | [a] => .ok a.srt
    | _ => req (as.all isBv) (bvSort (wrap ((as.map width).foldl (· + ·) 0))))
  -- `mkFpAdd` to `mkFpDiv` (2977-3098)
  | .FP_ADD | .FP_SUB | .FP_MUL | .FP_DIV => some (
    match as with
    | [m, l, r] => req (isRm m && isFp l && isFp r && eqS l.srt r.srt) l.srt
    | _ => .abort)
  -- `mkFpFma` (3137-3169)
  | .FP_FMA => some (
    match as with
    | [m, a, b, c] => req (isRm m && isFp a && isFp b && isFp c && eqS b.srt a.srt && eqS c.srt a.srt) a.srt
    | _ => .abort)
  -- `mkFpMin`, `mkFpMax` (3222-3278)
  | .FP_MIN | .FP_MAX => some (
    family isFp (fun a b => if allOf isFp (getSort [a, b]) [a, b] then .ok ((getSort [a, b]).getD a.srt) else .abort) as .abort)
  -- `mkStrConcat` (3654-3677)
  | .STR_CONCAT => some (uniform isStr STR_SORT as)
  -- `mkRegConcat`, `mkRegUnion`, `mkRegInter` (4084-4153)
  | .REG_CONCAT | .REG_UNION | .REG_INTER => some (uniform isReg REG_SORT as)
  -- `mkRegDiff` (4156-4167)
  | .REG_DIFF => some (match as with | [a, b] => req (isReg a && isReg b) REG_SORT | _ => .abort)
  | _ => none

/-- the constructor of kind `k` called with the operands -/
def typ (L : Logic) (k : K) (as : List A) : Res Srt :=
  match chkN L k as with
  | some r => r
  | none =>
    match as with
    | [a] => chk1 k a
    | [a, b] => chk2 k a b
    | [a, b, c] => chk3 k a b c
    | [a, b, c, d] => chk4 k a b c d
    | _ => .ub

/-- the operands that `mkMax` and `mkMin` keep (`src/op_parser.cpp:4303-4317`, `4332-4346`) -/
def maxOperands (as : List A) : List A :=
  match as with
  | [a] => [a]
  | _ => as.dropLast

end SMT.Typing
