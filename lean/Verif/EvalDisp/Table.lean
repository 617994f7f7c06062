import Verif.LetExp.Model

/-!
# The dispatch of `evaluate` over all operator kinds (`src/eval_parser.cpp:49-571`, `573-915`, `1196-2020`)

`rule` is composed from three tables of the source: the chain of tests in `evaluate` (which function is called for a kind), the kind each of
those functions passes to `evaluateSimpleOp`, and the group that kind has there.
-/

namespace SMT.EvalDisp
open SMT SMT.Kinds SMT.LetExp

/-- what `evaluate` does with a node -/
inductive Rule where
  /-- the result is not set (`src/eval_parser.cpp:54-59`) -/
  | unset
  /-- a constant is its own value (60-63) -/
  | const
  /-- a variable is looked up (64-73) -/
  | var
  /-- the first `n` operands are evaluated and an operator `op` is built of them (`evaluateSimpleOp`, 577-721) -/
  | fix (n : Nat) (op : K)
  /-- the n-ary groups (722-905) -/
  | nary (op : K)
  | first (op : K)
  | concat (op : K)
  /-- its own function (907-1257, 1701-1765, 1912-1915) -/
  | special
  /-- not evaluated: the expression itself is returned (569-570, and the functions that only warn) -/
  | self
  deriving DecidableEq

/-- the rule of each kind (`src/eval_parser.cpp:54-570`, `1196-2020` for the kind passed on, `575-721` for the group) -/
def rule : K → Rule
  | .UNKNOWN => .unset
  | .ERROR => .unset
  | .CONST => .const
  | .VAR => .var
  | .CONST_TRUE => .const
  | .CONST_FALSE => .const
  | .TEMP_VAR => .var
  | .PLACEHOLDER_VAR => .var
  | .AND => .special
  | .OR => .special
  | .NOT => .fix 1 .NOT
  | .IMPLIES => .fix 2 .IMPLIES
  | .XOR => .special
  | .EQ => .special
  | .DISTINCT => .special
  | .ITE => .special
  | .ADD => .nary .ADD
  | .NEG => .fix 1 .NEG
  | .SUB => .first .SUB
  | .MUL => .nary .MUL
  | .IAND => .nary .IAND
  | .POW2 => .fix 1 .POW2
  | .POW => .fix 2 .POW
  | .DIV_INT => .special
  | .DIV_REAL => .first .DIV_REAL
  | .MOD => .fix 2 .MOD
  | .ABS => .fix 1 .ABS
  | .SQRT => .fix 1 .SQRT
  | .SAFESQRT => .fix 1 .SAFESQRT
  | .CEIL => .fix 1 .CEIL
  | .FLOOR => .fix 1 .FLOOR
  | .ROUND => .fix 1 .ROUND
  | .EXP => .fix 1 .EXP
  | .LN => .fix 1 .LN
  | .LG => .fix 1 .LG
  | .LB => .fix 1 .LB
  | .LOG => .fix 2 .LOG
  | .SIN => .fix 1 .SIN
  | .COS => .fix 1 .COS
  | .TAN => .fix 1 .TAN
  | .ASIN => .fix 1 .ASIN
  | .ACOS => .fix 1 .ACOS
  | .ATAN => .fix 1 .ATAN
  | .SINH => .fix 1 .SINH
  | .COSH => .fix 1 .COSH
  | .TANH => .fix 1 .TANH
  | .ASECH => .fix 1 .ASECH
  | .ACSCH => .fix 1 .ACSCH
  | .ACOTH => .fix 1 .ACOTH
  | .ATAN2 => .fix 2 .ATAN2
  | .ASINH => .fix 1 .ASINH
  | .ACOSH => .fix 1 .ACOSH
  | .ATANH => .fix 1 .ATANH
  | .LE => .fix 2 .LE
  | .LT => .fix 2 .LT
  | .GE => .fix 2 .GE
  | .GT => .fix 2 .GT
  | .TO_INT => .fix 1 .TO_INT
  | .TO_REAL => .fix 1 .TO_REAL
  | .IS_INT => .fix 1 .IS_INT
  | .IS_DIVISIBLE => .fix 1 .IS_DIVISIBLE
  | .IS_PRIME => .fix 1 .IS_PRIME
  | .IS_EVEN => .fix 1 .IS_EVEN
  | .IS_ODD => .fix 1 .IS_ODD
  | .GCD => .fix 2 .GCD
  | .LCM => .fix 2 .LCM
  | .FACT => .fix 1 .FACT
  | .BV_NOT => .fix 1 .BV_NOT
  | .BV_NEG => .fix 1 .BV_NEG
  | .BV_AND => .nary .BV_AND
  | .BV_OR => .nary .BV_OR
  | .BV_XOR => .nary .BV_XOR
  | .BV_NAND => .nary .BV_NAND
  | .BV_NOR => .nary .BV_NOR
  | .BV_XNOR => .nary .BV_XNOR
  | .BV_COMP => .fix 2 .BV_COMP
  | .BV_ADD => .nary .BV_ADD
  | .BV_SUB => .first .BV_SUB
  | .BV_MUL => .nary .BV_MUL
  | .BV_UDIV => .first .BV_UDIV
  | .BV_SDIV => .first .BV_SDIV
  | .BV_UREM => .fix 2 .BV_UREM
  | .BV_SREM => .fix 2 .BV_SREM
  | .BV_SMOD => .fix 2 .BV_SMOD
  | .BV_SHL => .fix 2 .BV_SHL
  | .BV_LSHR => .fix 2 .BV_LSHR
  | .BV_ASHR => .fix 2 .BV_ASHR
  | .BV_ULT => .fix 2 .BV_ULT
  | .BV_ULE => .fix 2 .BV_ULE
  | .BV_UGT => .fix 2 .BV_UGT
  | .BV_UGE => .fix 2 .BV_UGE
  | .BV_SLT => .fix 2 .BV_SLT
  | .BV_SLE => .fix 2 .BV_SLE
  | .BV_SGT => .fix 2 .BV_SGT
  | .BV_SGE => .fix 2 .BV_SGE
  | .BV_CONCAT => .concat .BV_CONCAT
  | .BV_TO_NAT => .fix 1 .BV_TO_NAT
  | .NAT_TO_BV => .fix 2 .NAT_TO_BV
  | .BV_TO_INT => .fix 2 .NAT_TO_BV
  | .INT_TO_BV => .fix 1 .BV_TO_INT
  | .SELECT => .special
  | .STORE => .special
  | .STR_LEN => .fix 1 .STR_LEN
  | .STR_CONCAT => .concat .STR_CONCAT
  | .STR_SUBSTR => .fix 3 .STR_SUBSTR
  | .STR_INDEXOF => .fix 3 .STR_INDEXOF
  | .STR_CHARAT => .fix 2 .STR_CHARAT
  | .STR_UPDATE => .fix 3 .STR_UPDATE
  | .STR_REPLACE => .fix 3 .STR_REPLACE
  | .STR_REPLACE_ALL => .fix 3 .STR_REPLACE_ALL
  | .STR_TO_LOWER => .fix 1 .STR_TO_LOWER
  | .STR_TO_UPPER => .fix 1 .STR_TO_UPPER
  | .STR_REV => .fix 1 .STR_REV
  | .STR_LT => .fix 2 .STR_LT
  | .STR_LE => .fix 2 .STR_LE
  | .STR_GT => .fix 2 .STR_GT
  | .STR_GE => .fix 2 .STR_GE
  | .STR_IN_REG => .fix 2 .STR_IN_REG
  | .STR_CONTAINS => .fix 2 .STR_CONTAINS
  | .STR_IS_DIGIT => .fix 1 .STR_IS_DIGIT
  | .STR_PREFIXOF => .fix 2 .STR_PREFIXOF
  | .STR_SUFFIXOF => .fix 2 .STR_SUFFIXOF
  | .STR_FROM_INT => .fix 1 .STR_FROM_INT
  | .STR_TO_INT => .fix 1 .STR_TO_INT
  | .STR_TO_REG => .fix 1 .STR_TO_REG
  | .STR_TO_CODE => .fix 1 .STR_TO_CODE
  | .STR_FROM_CODE => .fix 1 .STR_FROM_CODE
  | .EQ_BOOL => .special
  | .EQ_OTHER => .special
  | .DISTINCT_BOOL => .special
  | .DISTINCT_OTHER => .special
  | .CONST_PI => .const
  | .CONST_E => .const
  | .INFINITY => .const
  | .NAN => .const
  | .EPSILON => .const
  | .POS_INFINITY => .const
  | .NEG_INFINITY => .const
  | .POS_EPSILON => .const
  | .NEG_EPSILON => .const
  | .LET => .special
  | .LET_BIND_VAR => .var
  | .QUANT_VAR => .var
  | .ROOT_OBJ => .const
  | .ROOT_OF_WITH_INTERVAL => .const
  | .REAL_ALGEBRAIC_NUMBER => .const
  | _ => .self

/-- `getArity` (`src/op_parser.cpp:4501-4755`); `-1`: any number -/
def getArity : K → Int
  | .NULL => 0
  | .CONST => 0
  | .VAR => 0
  | .CONST_TRUE => 0
  | .CONST_FALSE => 0
  | .TEMP_VAR => 0
  | .CONST_ARRAY => 1
  | .NOT => 1
  | .ITE => 3
  | .NEG => 1
  | .POW2 => 1
  | .POW => 2
  | .DIV_INT => 2
  | .DIV_REAL => 2
  | .MOD => 2
  | .ABS => 1
  | .SQRT => 1
  | .SAFESQRT => 1
  | .CEIL => 1
  | .FLOOR => 1
  | .ROUND => 1
  | .EXP => 1
  | .LN => 1
  | .LG => 1
  | .LB => 1
  | .LOG => 2
  | .SIN => 1
  | .COS => 1
  | .TAN => 1
  | .COT => 1
  | .SEC => 1
  | .CSC => 1
  | .ASIN => 1
  | .ACOS => 1
  | .ATAN => 1
  | .ACOT => 1
  | .ASEC => 1
  | .ACSC => 1
  | .SINH => 1
  | .COSH => 1
  | .TANH => 1
  | .ASECH => 1
  | .ACSCH => 1
  | .ACOTH => 1
  | .ATAN2 => 2
  | .ASINH => 1
  | .ACOSH => 1
  | .ATANH => 1
  | .SECH => 1
  | .CSCH => 1
  | .COTH => 1
  | .LE => 2
  | .LT => 2
  | .GE => 2
  | .GT => 2
  | .TO_INT => 1
  | .TO_REAL => 1
  | .IS_INT => 1
  | .IS_DIVISIBLE => 2
  | .IS_PRIME => 1
  | .IS_EVEN => 1
  | .IS_ODD => 1
  | .GCD => 2
  | .LCM => 2
  | .FACT => 1
  | .BV_NOT => 1
  | .BV_NEG => 1
  | .BV_COMP => 2
  | .BV_UDIV => 2
  | .BV_SDIV => 2
  | .BV_UREM => 2
  | .BV_SREM => 2
  | .BV_UMOD => 2
  | .BV_SMOD => 2
  | .BV_SHL => 2
  | .BV_LSHR => 2
  | .BV_ASHR => 2
  | .BV_ULT => 2
  | .BV_ULE => 2
  | .BV_UGT => 2
  | .BV_UGE => 2
  | .BV_SLT => 2
  | .BV_SLE => 2
  | .BV_SGT => 2
  | .BV_SGE => 2
  | .BV_TO_NAT => 1
  | .NAT_TO_BV => 2
  | .BV_TO_INT => 1
  | .INT_TO_BV => 2
  | .BV_EXTRACT => 3
  | .BV_REPEAT => 2
  | .BV_ZERO_EXT => 2
  | .BV_SIGN_EXT => 2
  | .BV_ROTATE_LEFT => 2
  | .BV_ROTATE_RIGHT => 2
  | .FP_ADD => 3
  | .FP_SUB => 3
  | .FP_MUL => 3
  | .FP_DIV => 3
  | .FP_ABS => 1
  | .FP_NEG => 1
  | .FP_REM => 2
  | .FP_FMA => 4
  | .FP_SQRT => 2
  | .FP_ROUND_TO_INTEGRAL => 2
  | .FP_LE => 2
  | .FP_LT => 2
  | .FP_GE => 2
  | .FP_GT => 2
  | .FP_EQ => 2
  | .FP_TO_UBV => 3
  | .FP_TO_SBV => 3
  | .FP_TO_REAL => 1
  | .FP_TO_FP => 4
  | .FP_IS_NORMAL => 1
  | .FP_IS_SUBNORMAL => 1
  | .FP_IS_ZERO => 1
  | .FP_IS_INF => 1
  | .FP_IS_NAN => 1
  | .FP_IS_NEG => 1
  | .FP_IS_POS => 1
  | .SELECT => 2
  | .STORE => 3
  | .STR_LEN => 1
  | .STR_SUBSTR => 3
  | .STR_INDEXOF => 3
  | .STR_CHARAT => 2
  | .STR_UPDATE => 3
  | .STR_REPLACE => 3
  | .STR_REPLACE_ALL => 3
  | .STR_REPLACE_REG => 3
  | .STR_REPLACE_REG_ALL => 3
  | .STR_INDEXOF_REG => 3
  | .STR_TO_LOWER => 1
  | .STR_TO_UPPER => 1
  | .STR_REV => 1
  | .STR_SPLIT => 2
  | .STR_SPLIT_AT => 3
  | .STR_SPLIT_REST => 3
  | .STR_SPLIT_AT_RE => 3
  | .STR_SPLIT_REST_RE => 3
  | .STR_NUM_SPLITS_RE => 2
  | .STR_LT => 2
  | .STR_LE => 2
  | .STR_GT => 2
  | .STR_GE => 2
  | .STR_IN_REG => 2
  | .STR_CONTAINS => 2
  | .STR_IS_DIGIT => 1
  | .STR_PREFIXOF => 2
  | .STR_SUFFIXOF => 2
  | .STR_FROM_INT => 1
  | .STR_TO_INT => 1
  | .STR_TO_REG => 1
  | .STR_TO_CODE => 1
  | .STR_FROM_CODE => 1
  | .REG_STAR => 1
  | .REG_PLUS => 1
  | .REG_OPT => 1
  | .REG_RANGE => 2
  | .REG_REPEAT => 2
  | .REG_COMPLEMENT => 1
  | .REG_LOOP => 3
  | .BV_NEGO => 1
  | .BV_UDIVO => 2
  | .BV_SDIVO => 2
  | .BV_UREMO => 2
  | .BV_SREMO => 2
  | .BV_UMODO => 2
  | .BV_SMODO => 2
  | .CONST_PI => 0
  | .CONST_E => 0
  | .INFINITY => 0
  | .NAN => 0
  | .EPSILON => 0
  | .POS_INFINITY => 0
  | .NEG_INFINITY => 0
  | .POS_EPSILON => 0
  | .NEG_EPSILON => 0
  | .REG_NONE => 0
  | .REG_ALL => 0
  | .REG_ALLCHAR => 0
  | .QUANT_VAR => 0
  | _ => -1

end SMT.EvalDisp
