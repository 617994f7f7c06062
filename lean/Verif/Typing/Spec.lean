import Verif.Typing.Model

/-!
# The sorts of the operators, after SMT-LIB

Written from the theory declarations of SMT-LIB 2.6 (Core, Ints, Reals, FixedSizeBitVectors, FloatingPoint, ArraysEx, Strings) and, for
the operators that SMT-LIB does not have, from the signatures in the comments of the API (`src/op_parser.cpp`, above each constructor).
-/

namespace SMT.Typing
open SMT SMT.Kinds SMT.Sorts

/-- the sorts of SMT-LIB -/
inductive Ty where
  | bool | int | real | str | re | rm
  | bv (w : Nat)
  | fp (e s : Nat)
  | arr (i e : Ty)
  | user (name : List Char) (arity : Nat)

/-- an operand: a term of some sort, or a numeral as an index -/
inductive Arg where
  | t (ty : Ty)
  | n (i : Nat)

/-- operators with one signature -/
def sig : K → Option (List Ty × Ty)
  | .NOT => some ([.bool], .bool)
  | .DIV_INT | .MOD | .GCD | .LCM => some ([.int, .int], .int)
  | .DIV_REAL | .LOG | .ATAN2 => some ([.real, .real], .real)
  | .TO_REAL => some ([.int], .real)
  | .TO_INT | .FLOOR | .ROUND | .CEIL => some ([.real], .int)
  | .IS_INT => some ([.real], .bool)
  | .IS_DIVISIBLE => some ([.int, .int], .bool)
  | .IS_PRIME | .IS_EVEN | .IS_ODD => some ([.int], .bool)
  | .FACT | .POW2 => some ([.int], .int)
  | .SQRT | .SAFESQRT | .EXP | .LN | .LB | .LG | .SIN | .COS | .TAN | .COT | .SEC | .CSC | .ASIN | .ACOS | .ATAN | .ACOT | .ASEC | .ACSC
  | .SINH | .COSH | .TANH | .COTH | .SECH | .CSCH | .ASINH | .ACOSH | .ATANH | .ACOTH | .ASECH | .ACSCH => some ([.real], .real)
  | .STR_LEN | .STR_TO_INT | .STR_TO_CODE => some ([.str], .int)
  | .STR_TO_LOWER | .STR_TO_UPPER | .STR_REV => some ([.str], .str)
  | .STR_IS_DIGIT => some ([.str], .bool)
  | .STR_FROM_INT | .STR_FROM_CODE => some ([.int], .str)
  | .STR_TO_REG => some ([.str], .re)
  | .STR_PREFIXOF | .STR_SUFFIXOF | .STR_CONTAINS | .STR_LT | .STR_LE | .STR_GT | .STR_GE => some ([.str, .str], .bool)
  | .STR_CHARAT => some ([.str, .int], .str)
  | .STR_SUBSTR => some ([.str, .int, .int], .str)
  | .STR_INDEXOF => some ([.str, .str, .int], .int)
  | .STR_UPDATE => some ([.str, .int, .str], .str)
  | .STR_REPLACE | .STR_REPLACE_ALL => some ([.str, .str, .str], .str)
  | .STR_REPLACE_REG | .STR_REPLACE_REG_ALL => some ([.str, .re, .str], .str)
  | .STR_INDEXOF_REG | .STR_NUM_SPLITS_RE => some ([.str, .re], .int)
  | .STR_SPLIT => some ([.str, .str], .arr .int .str)
  | .STR_SPLIT_AT | .STR_SPLIT_REST => some ([.str, .str, .int], .str)
  | .STR_NUM_SPLITS => some ([.str, .str], .int)
  | .STR_SPLIT_AT_RE | .STR_SPLIT_REST_RE => some ([.str, .re, .int], .str)
  | .STR_IN_REG => some ([.str, .re], .bool)
  | .REG_DIFF => some ([.re, .re], .re)
  | .REG_STAR | .REG_PLUS | .REG_OPT | .REG_COMPLEMENT => some ([.re], .re)
  | .REG_RANGE => some ([.str, .str], .re)
  | _ => none

/-- operators of two or more operands of one sort, and that sort and the result -/
def many : K → Option (Ty × Ty)
  | .AND | .OR | .XOR | .IMPLIES => some (.bool, .bool)
  | .STR_CONCAT => some (.str, .str)
  | .REG_CONCAT | .REG_UNION | .REG_INTER => some (.re, .re)
  | .IAND => some (.int, .int)
  | _ => none

/-- bit-vector operators of two operands of the same width, with a result of that width -/
def bvBin : K → Bool
  | .BV_UDIV | .BV_UREM | .BV_UMOD | .BV_SDIV | .BV_SREM | .BV_SMOD | .BV_SHL | .BV_LSHR | .BV_ASHR => true
  | _ => false

/-- bit-vector operators of two or more operands of the same width -/
def bvMany : K → Bool
  | .BV_AND | .BV_OR | .BV_XOR | .BV_NAND | .BV_NOR | .BV_XNOR | .BV_ADD | .BV_SUB | .BV_MUL => true
  | _ => false

/-- bit-vector comparisons -/
def bvCmp : K → Bool
  | .BV_ULT | .BV_ULE | .BV_UGT | .BV_UGE | .BV_SLT | .BV_SLE | .BV_SGT | .BV_SGE => true
  | _ => false

/-- floating-point tests and comparisons -/
def fpTest : K → Bool
  | .FP_IS_NORMAL | .FP_IS_SUBNORMAL | .FP_IS_ZERO | .FP_IS_INF | .FP_IS_NAN | .FP_IS_NEG | .FP_IS_POS => true
  | _ => false
def fpCmp : K → Bool
  | .FP_LE | .FP_LT | .FP_GE | .FP_GT | .FP_EQ => true
  | _ => false

/-- Operator `k` takes these operands and gives this sort. -/
inductive HasSort : K → List Arg → Ty → Prop
  | one {k ts t} : sig k = some (ts, t) → HasSort k (ts.map .t) t
  | many {k s t n} : many k = some (s, t) → 2 ≤ n → HasSort k (List.replicate n (.t s)) t
  | eq {k t n} : k = .EQ ∨ k = .DISTINCT → 2 ≤ n → HasSort k (List.replicate n (.t t)) .bool
  | ite {t} : HasSort .ITE [.t .bool, .t t, .t t] t
  | arith {k t n} : k = .ADD ∨ k = .MUL ∨ k = .SUB ∨ k = .MAX ∨ k = .MIN → t = .int ∨ t = .real → 2 ≤ n →
      HasSort k (List.replicate n (.t t)) t
  | neg {k t} : k = .NEG ∨ k = .SUB ∨ k = .ABS → t = .int ∨ t = .real → HasSort k [.t t] t
  | pow {t} : t = .int ∨ t = .real → HasSort .POW [.t t, .t t] t
  | cmp {k t n} : k = .LE ∨ k = .LT ∨ k = .GE ∨ k = .GT → t = .int ∨ t = .real → 2 ≤ n →
      HasSort k (List.replicate n (.t t)) .bool
  | bvUn {k w} : k = .BV_NOT ∨ k = .BV_NEG → HasSort k [.t (.bv w)] (.bv w)
  | bvBin {k w} : bvBin k = true → HasSort k [.t (.bv w), .t (.bv w)] (.bv w)
  | bvMany {k w n} : bvMany k = true → 2 ≤ n → HasSort k (List.replicate n (.t (.bv w))) (.bv w)
  | bvCmp {k w} : bvCmp k = true → HasSort k [.t (.bv w), .t (.bv w)] .bool
  | bvComp {w} : HasSort .BV_COMP [.t (.bv w), .t (.bv w)] (.bv 1)
  | concat {ws : List Nat} : 2 ≤ ws.length → HasSort .BV_CONCAT (ws.map fun w => .t (.bv w)) (.bv ws.sum)
  | extract {w i j} : j ≤ i → i < w → HasSort .BV_EXTRACT [.t (.bv w), .n i, .n j] (.bv (i - j + 1))
  | repeat {w i} : 1 ≤ i → HasSort .BV_REPEAT [.t (.bv w), .n i] (.bv (w * i))
  | ext {k w i} : k = .BV_ZERO_EXT ∨ k = .BV_SIGN_EXT → HasSort k [.t (.bv w), .n i] (.bv (w + i))
  | rotate {k w i} : k = .BV_ROTATE_LEFT ∨ k = .BV_ROTATE_RIGHT → HasSort k [.t (.bv w), .n i] (.bv w)
  | toNat {k w} : k = .BV_TO_NAT ∨ k = .BV_TO_INT → HasSort k [.t (.bv w)] .int
  | toBv {k i} : k = .NAT_TO_BV ∨ k = .INT_TO_BV → HasSort k [.t .int, .n i] (.bv i)
  | fpUn {k e s} : k = .FP_ABS ∨ k = .FP_NEG → HasSort k [.t (.fp e s)] (.fp e s)
  | fpRm {k e s} : k = .FP_SQRT ∨ k = .FP_ROUND_TO_INTEGRAL → HasSort k [.t .rm, .t (.fp e s)] (.fp e s)
  | fpBin {k e s} : k = .FP_REM ∨ k = .FP_MIN ∨ k = .FP_MAX → HasSort k [.t (.fp e s), .t (.fp e s)] (.fp e s)
  | fpRm2 {k e s} : k = .FP_ADD ∨ k = .FP_SUB ∨ k = .FP_MUL ∨ k = .FP_DIV →
      HasSort k [.t .rm, .t (.fp e s), .t (.fp e s)] (.fp e s)
  | fma {e s} : HasSort .FP_FMA [.t .rm, .t (.fp e s), .t (.fp e s), .t (.fp e s)] (.fp e s)
  | fpTest {k e s} : fpTest k = true → HasSort k [.t (.fp e s)] .bool
  | fpCmp {k e s} : fpCmp k = true → HasSort k [.t (.fp e s), .t (.fp e s)] .bool
  | fpReal {e s} : HasSort .FP_TO_REAL [.t (.fp e s)] .real
  | fpBv {k e s i} : k = .FP_TO_UBV ∨ k = .FP_TO_SBV → HasSort k [.t .rm, .t (.fp e s), .n i] (.bv i)
  | toFpBits {e s} : HasSort .FP_TO_FP [.n e, .n s, .t (.bv (e + s))] (.fp e s)
  | toFp {e s t} : t = .real ∨ (∃ w, t = .bv w) ∨ (∃ e' s', t = .fp e' s') → HasSort .FP_TO_FP [.n e, .n s, .t .rm, .t t] (.fp e s)
  | toFpU {e s w} : HasSort .FP_TO_FP_UNSIGNED [.n e, .n s, .t .rm, .t (.bv w)] (.fp e s)
  | fpLit {e m} : HasSort .CONST [.t (.bv 1), .t (.bv e), .t (.bv m)] (.fp e (m + 1))
  | select {i e} : HasSort .SELECT [.t (.arr i e), .t i] e
  | store {i e} : HasSort .STORE [.t (.arr i e), .t i, .t e] (.arr i e)
  | reRepeat {i} : HasSort .REG_REPEAT [.t .re, .n i] .re
  | reLoop {i j} : HasSort .REG_LOOP [.t .re, .n i, .n j] .re

/-- The sort object stands for the sort.  A numeral has the sort object `IntOrReal`: it stands for `Int`, and with `r` also for `Real`. -/
inductive Rep (r : Bool) : Srt → Ty → Prop
  | bool : Rep r BOOL_SORT .bool
  | int : Rep r INT_SORT .int
  | numeral : Rep r INTOREAL_SORT .int
  | numeralReal : r = true → Rep r INTOREAL_SORT .real
  | real : Rep r REAL_SORT .real
  | str : Rep r STR_SORT .str
  | re : Rep r REG_SORT .re
  | rm : Rep r ROUNDING_MODE_SORT .rm
  | bv (w : Nat) : Rep r (bvSort w) (.bv w)
  | fp (n : List Char) (e s : Nat) : Rep r (fpSort n e s) (.fp e s)
  | arr {i e ti te} : Rep r i ti → Rep r e te → Rep r (arraySort i e) (.arr ti te)
  | user (n : List Char) (a : Nat) : Rep r (decSort n a) (.user n a)

/-- The operand of the code is the operand of the specification.  Only Booleans are `true` or `false`, only numbers zero or one. -/
inductive RepA (r : Bool) (a : A) : Arg → Prop
  | t {ty} : Rep r a.srt ty → (a.tru = true ∨ a.fls = true → ty = .bool) → (a.zero = true ∨ a.one = true → ty = .int ∨ ty = .real) →
      RepA r a (.t ty)
  | n {i} : a.srt = INTOREAL_SORT → a.cst = true → a.int = i → i < 2 ^ 64 → a.tru = false → a.fls = false → RepA r a (.n i)

/-- the same, for lists -/
inductive RepL (r : Bool) : List A → List Arg → Prop
  | nil : RepL r [] []
  | cons {a g as gs} : RepA r a g → RepL r as gs → RepL r (a :: as) (g :: gs)

end SMT.Typing
