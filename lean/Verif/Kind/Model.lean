import Verif.Basic

/-!
# Operator kinds (`include/kind.h`, `src/kind.cpp`, `src/objective.cpp`)

The enumeration and the tables below are transcribed case by case from the source.
-/

namespace SMT.Kinds

/-- `enum class NODE_KIND` (`include/kind.h:39-146`), without the prefix `NT_` and the sentinel `NUM_KINDS`. -/
inductive K where
  | UNKNOWN
  | ERROR
  | NULL
  | CONST
  | VAR
  | CONST_TRUE
  | CONST_FALSE
  | TEMP_VAR
  | CONST_ARRAY
  | PLACEHOLDER_VAR
  | AND
  | OR
  | NOT
  | IMPLIES
  | XOR
  | EQ
  | DISTINCT
  | ITE
  | ADD
  | NEG
  | SUB
  | MUL
  | IAND
  | POW2
  | POW
  | DIV_INT
  | DIV_REAL
  | MOD
  | ABS
  | SQRT
  | SAFESQRT
  | CEIL
  | FLOOR
  | ROUND
  | EXP
  | LN
  | LG
  | LB
  | LOG
  | SIN
  | COS
  | TAN
  | COT
  | SEC
  | CSC
  | ASIN
  | ACOS
  | ATAN
  | ACOT
  | ASEC
  | ACSC
  | SINH
  | COSH
  | TANH
  | ASECH
  | ACSCH
  | ACOTH
  | ATAN2
  | ASINH
  | ACOSH
  | ATANH
  | SECH
  | CSCH
  | COTH
  | LE
  | LT
  | GE
  | GT
  | TO_INT
  | TO_REAL
  | IS_INT
  | IS_DIVISIBLE
  | IS_PRIME
  | IS_EVEN
  | IS_ODD
  | GCD
  | LCM
  | FACT
  | BV_NOT
  | BV_NEG
  | BV_AND
  | BV_OR
  | BV_XOR
  | BV_NAND
  | BV_NOR
  | BV_XNOR
  | BV_COMP
  | BV_ADD
  | BV_SUB
  | BV_MUL
  | BV_UDIV
  | BV_SDIV
  | BV_UREM
  | BV_SREM
  | BV_UMOD
  | BV_SMOD
  | BV_SHL
  | BV_LSHR
  | BV_ASHR
  | BV_ULT
  | BV_ULE
  | BV_UGT
  | BV_UGE
  | BV_SLT
  | BV_SLE
  | BV_SGT
  | BV_SGE
  | BV_CONCAT
  | BV_TO_NAT
  | NAT_TO_BV
  | BV_TO_INT
  | INT_TO_BV
  | BV_EXTRACT
  | BV_REPEAT
  | BV_ZERO_EXT
  | BV_SIGN_EXT
  | BV_ROTATE_LEFT
  | BV_ROTATE_RIGHT
  | FP_ADD
  | FP_SUB
  | FP_MUL
  | FP_DIV
  | FP_ABS
  | FP_NEG
  | FP_REM
  | FP_FMA
  | FP_SQRT
  | FP_ROUND_TO_INTEGRAL
  | FP_MIN
  | FP_MAX
  | FP_LE
  | FP_LT
  | FP_GE
  | FP_GT
  | FP_EQ
  | FP_TO_UBV
  | FP_TO_SBV
  | FP_TO_REAL
  | FP_TO_FP
  | FP_TO_FP_UNSIGNED
  | FP_IS_NORMAL
  | FP_IS_SUBNORMAL
  | FP_IS_ZERO
  | FP_IS_INF
  | FP_IS_NAN
  | FP_IS_NEG
  | FP_IS_POS
  | SELECT
  | STORE
  | STR_LEN
  | STR_CONCAT
  | STR_SUBSTR
  | STR_INDEXOF
  | STR_CHARAT
  | STR_UPDATE
  | STR_REPLACE
  | STR_REPLACE_ALL
  | STR_REPLACE_REG
  | STR_REPLACE_REG_ALL
  | STR_INDEXOF_REG
  | STR_TO_LOWER
  | STR_TO_UPPER
  | STR_REV
  | STR_SPLIT
  | STR_SPLIT_AT
  | STR_SPLIT_REST
  | STR_NUM_SPLITS
  | STR_SPLIT_AT_RE
  | STR_SPLIT_REST_RE
  | STR_NUM_SPLITS_RE
  | STR_LT
  | STR_LE
  | STR_GT
  | STR_GE
  | STR_IN_REG
  | STR_CONTAINS
  | STR_IS_DIGIT
  | STR_PREFIXOF
  | STR_SUFFIXOF
  | STR_FROM_INT
  | STR_TO_INT
  | STR_TO_REG
  | STR_TO_CODE
  | STR_FROM_CODE
  | REG_CONCAT
  | REG_UNION
  | REG_INTER
  | REG_DIFF
  | REG_STAR
  | REG_PLUS
  | REG_OPT
  | REG_RANGE
  | REG_REPEAT
  | REG_COMPLEMENT
  | REG_LOOP
  | FUNC_APPLY
  | FUNC_DEC
  | FUNC_DEF
  | FUNC_REC
  | FUNC_REC_APPLY
  | BV_NEGO
  | BV_UADDO
  | BV_SADDO
  | BV_UMULO
  | BV_SMULO
  | BV_UDIVO
  | BV_SDIVO
  | BV_UREMO
  | BV_SREMO
  | BV_UMODO
  | BV_SMODO
  | EQ_BOOL
  | EQ_OTHER
  | DISTINCT_BOOL
  | DISTINCT_OTHER
  | UF_APPLY
  | CONST_PI
  | CONST_E
  | INFINITY
  | NAN
  | EPSILON
  | POS_INFINITY
  | NEG_INFINITY
  | POS_EPSILON
  | NEG_EPSILON
  | REG_NONE
  | REG_ALL
  | REG_ALLCHAR
  | MAX
  | MIN
  | LET
  | LET_CHAIN
  | LET_BIND_VAR
  | LET_BIND_VAR_LIST
  | FORALL
  | EXISTS
  | QUANT_VAR
  | FUNC_PARAM
  | ROOT_OBJ
  | ROOT_OF_WITH_INTERVAL
  | REAL_ALGEBRAIC_NUMBER
  deriving DecidableEq

/-- `kindToString` (`src/kind.cpp:33-549`). -/
def kindToString : K → String
  | .UNKNOWN => "UNKNOWN_KIND"
  | .ERROR => "ERROR"
  | .NULL => "NULL"
  | .CONST_TRUE => "true"
  | .CONST_FALSE => "false"
  | .CONST_ARRAY => "const_array"
  | .PLACEHOLDER_VAR => "placeholder_var"
  | .EQ => "="
  | .DISTINCT => "distinct"
  | .EQ_BOOL => "="
  | .EQ_OTHER => "="
  | .DISTINCT_BOOL => "distinct"
  | .DISTINCT_OTHER => "distinct"
  | .CONST => "CONST"
  | .VAR => "VAR"
  | .TEMP_VAR => "TEMP_VAR"
  | .NOT => "not"
  | .AND => "and"
  | .OR => "or"
  | .IMPLIES => "=>"
  | .XOR => "xor"
  | .UF_APPLY => "UF_APPLY"
  | .ADD => "+"
  | .MUL => "*"
  | .IAND => "iand"
  | .POW2 => "pow2"
  | .POW => "^"
  | .SUB => "-"
  | .NEG => "-"
  | .DIV_INT => "div"
  | .DIV_REAL => "/"
  | .MOD => "mod"
  | .ABS => "abs"
  | .SQRT => "sqrt"
  | .SAFESQRT => "safesqrt"
  | .CEIL => "ceil"
  | .FLOOR => "floor"
  | .ROUND => "round"
  | .EXP => "exp"
  | .LOG => "log"
  | .LN => "ln"
  | .LG => "lg"
  | .LB => "lb"
  | .SIN => "sin"
  | .COS => "cos"
  | .SEC => "sec"
  | .CSC => "csc"
  | .TAN => "tan"
  | .COT => "cot"
  | .ASIN => "asin"
  | .ACOS => "acos"
  | .ASEC => "asec"
  | .ACSC => "acsc"
  | .ATAN => "atan"
  | .ACOT => "acot"
  | .SINH => "sinh"
  | .COSH => "cosh"
  | .TANH => "tanh"
  | .SECH => "sech"
  | .CSCH => "csch"
  | .COTH => "coth"
  | .ASINH => "asinh"
  | .ACOSH => "acosh"
  | .ATANH => "atanh"
  | .ASECH => "asech"
  | .ACSCH => "acsch"
  | .ACOTH => "acoth"
  | .ATAN2 => "atan2"
  | .LE => "<="
  | .LT => "<"
  | .GE => ">="
  | .GT => ">"
  | .TO_INT => "to_int"
  | .TO_REAL => "to_real"
  | .IS_INT => "is_int"
  | .IS_DIVISIBLE => "is_divisible"
  | .IS_PRIME => "is_prime"
  | .IS_EVEN => "is_even"
  | .IS_ODD => "is_odd"
  | .CONST_PI => "pi"
  | .CONST_E => "e"
  | .INFINITY => "inf"
  | .POS_INFINITY => "+inf"
  | .NEG_INFINITY => "-inf"
  | .NAN => "NaN"
  | .EPSILON => "epsilon"
  | .POS_EPSILON => "+epsilon"
  | .NEG_EPSILON => "-epsilon"
  | .GCD => "gcd"
  | .LCM => "lcm"
  | .FACT => "factorial"
  | .BV_NOT => "bvnot"
  | .BV_AND => "bvand"
  | .BV_OR => "bvor"
  | .BV_XOR => "bvxor"
  | .BV_NAND => "bvnand"
  | .BV_NOR => "bvnor"
  | .BV_XNOR => "bvxnor"
  | .BV_COMP => "bvcomp"
  | .BV_NEG => "bvneg"
  | .BV_ADD => "bvadd"
  | .BV_SUB => "bvsub"
  | .BV_MUL => "bvmul"
  | .BV_UDIV => "bvudiv"
  | .BV_SDIV => "bvsdiv"
  | .BV_UREM => "bvurem"
  | .BV_SREM => "bvsrem"
  | .BV_UMOD => "bvumod"
  | .BV_SMOD => "bvsmod"
  | .BV_NEGO => "bvnego"
  | .BV_SADDO => "bvsaddo"
  | .BV_UADDO => "bvuaddo"
  | .BV_SMULO => "bvsmulo"
  | .BV_UMULO => "bvumulo"
  | .BV_SDIVO => "bvsdivo"
  | .BV_UDIVO => "bvudivo"
  | .BV_SREMO => "bvsremo"
  | .BV_UREMO => "bvuremo"
  | .BV_SMODO => "bvsmodo"
  | .BV_UMODO => "bvumodo"
  | .BV_SHL => "bvshl"
  | .BV_LSHR => "bvlshr"
  | .BV_ASHR => "bvashr"
  | .BV_CONCAT => "concat"
  | .BV_EXTRACT => "extract"
  | .BV_REPEAT => "repeat"
  | .BV_ZERO_EXT => "zero_extend"
  | .BV_SIGN_EXT => "sign_extend"
  | .BV_ROTATE_LEFT => "rotate_left"
  | .BV_ROTATE_RIGHT => "rotate_right"
  | .BV_ULT => "bvult"
  | .BV_ULE => "bvule"
  | .BV_UGT => "bvugt"
  | .BV_UGE => "bvuge"
  | .BV_SLT => "bvslt"
  | .BV_SLE => "bvsle"
  | .BV_SGT => "bvsgt"
  | .BV_SGE => "bvsge"
  | .BV_TO_NAT => "bv2nat"
  | .NAT_TO_BV => "nat2bv"
  | .FP_ADD => "fp.add"
  | .FP_SUB => "fp.sub"
  | .FP_MUL => "fp.mul"
  | .FP_DIV => "fp.div"
  | .FP_ABS => "fp.abs"
  | .FP_NEG => "fp.neg"
  | .FP_REM => "fp.rem"
  | .FP_FMA => "fp.fma"
  | .FP_SQRT => "fp.sqrt"
  | .FP_ROUND_TO_INTEGRAL => "fp.roundToIntegral"
  | .FP_MIN => "fp.min"
  | .FP_MAX => "fp.max"
  | .FP_LE => "fp.leq"
  | .FP_LT => "fp.lt"
  | .FP_GE => "fp.geq"
  | .FP_GT => "fp.gt"
  | .FP_EQ => "fp.eq"
  | .FP_TO_UBV => "fp.to_ubv"
  | .FP_TO_SBV => "fp.to_sbv"
  | .FP_TO_REAL => "fp.to_real"
  | .FP_TO_FP => "to_fp"
  | .FP_TO_FP_UNSIGNED => "to_fp_unsigned"
  | .FP_IS_NORMAL => "fp.isNormal"
  | .FP_IS_SUBNORMAL => "fp.isSubnormal"
  | .FP_IS_ZERO => "fp.isZero"
  | .FP_IS_INF => "fp.isInfinite"
  | .FP_IS_NAN => "fp.isNaN"
  | .FP_IS_NEG => "fp.isNegative"
  | .FP_IS_POS => "fp.isPositive"
  | .SELECT => "select"
  | .STORE => "store"
  | .STR_LEN => "str.len"
  | .STR_CONCAT => "str.++"
  | .STR_SUBSTR => "str.substr"
  | .STR_PREFIXOF => "str.prefixof"
  | .STR_SUFFIXOF => "str.suffixof"
  | .STR_INDEXOF => "str.indexof"
  | .STR_CHARAT => "str.at"
  | .STR_UPDATE => "str.update"
  | .STR_REPLACE => "str.replace"
  | .STR_REPLACE_ALL => "str.replace_all"
  | .STR_TO_LOWER => "str.to_lower"
  | .STR_TO_UPPER => "str.to_upper"
  | .STR_REV => "str.rev"
  | .STR_SPLIT => "str.split"
  | .STR_SPLIT_AT => "str.split_at"
  | .STR_SPLIT_REST => "str.split_rest"
  | .STR_NUM_SPLITS => "str.num_splits"
  | .STR_SPLIT_AT_RE => "str.split_at_re"
  | .STR_SPLIT_REST_RE => "str.split_rest_re"
  | .STR_NUM_SPLITS_RE => "str.num_splits_re"
  | .STR_LT => "str.<"
  | .STR_LE => "str.<="
  | .STR_GT => "str.>"
  | .STR_GE => "str.>="
  | .STR_IN_REG => "str.in_re"
  | .STR_CONTAINS => "str.contains"
  | .STR_IS_DIGIT => "str.is_digit"
  | .STR_FROM_INT => "str.from_int"
  | .STR_TO_INT => "str.to_int"
  | .STR_TO_REG => "str.to_re"
  | .STR_TO_CODE => "str.to_code"
  | .STR_FROM_CODE => "str.from_code"
  | .REG_NONE => "re.none"
  | .REG_ALL => "re.all"
  | .REG_ALLCHAR => "re.allchar"
  | .REG_CONCAT => "re.++"
  | .REG_UNION => "re.union"
  | .REG_INTER => "re.inter"
  | .REG_DIFF => "re.diff"
  | .REG_STAR => "re.*"
  | .REG_PLUS => "re.+"
  | .REG_OPT => "re.opt"
  | .REG_RANGE => "re.range"
  | .REG_REPEAT => "re.^"
  | .REG_LOOP => "re.loop"
  | .REG_COMPLEMENT => "re.comp"
  | .STR_REPLACE_REG => "str.replace_re"
  | .STR_REPLACE_REG_ALL => "str.replace_re_all"
  | .STR_INDEXOF_REG => "str.indexof"
  | .MAX => "max"
  | .MIN => "min"
  | .LET => "let"
  | .LET_CHAIN => "let_chain"
  | .LET_BIND_VAR => "let_bind_var"
  | .LET_BIND_VAR_LIST => "let_bind_var_list"
  | .ITE => "ite"
  | .FORALL => "forall"
  | .EXISTS => "exists"
  | .QUANT_VAR => "quant_var"
  | .FUNC_DEC => "func_dec"
  | .FUNC_DEF => "func_def"
  | .FUNC_PARAM => "func_param"
  | .FUNC_APPLY => "func_apply"
  | .FUNC_REC => "func_rec"
  | .FUNC_REC_APPLY => "func_rec_apply"
  | _ => "UNKNOWN_KIND"

/-- `getNegatedKind` (`src/kind.cpp:550-615`). -/
def getNegatedKind : K → K
  | .EQ => .DISTINCT
  | .DISTINCT => .EQ
  | .EQ_BOOL => .DISTINCT_BOOL
  | .DISTINCT_BOOL => .EQ_BOOL
  | .EQ_OTHER => .DISTINCT_OTHER
  | .DISTINCT_OTHER => .EQ_OTHER
  | .LE => .GT
  | .LT => .GE
  | .GE => .LT
  | .GT => .LE
  | .BV_ULT => .BV_UGE
  | .BV_UGT => .BV_ULE
  | .BV_ULE => .BV_UGT
  | .BV_UGE => .BV_ULT
  | .BV_SLT => .BV_SGE
  | .BV_SGT => .BV_SLE
  | .BV_SLE => .BV_SGT
  | .BV_SGE => .BV_SLT
  | .FP_LE => .FP_GT
  | .FP_LT => .FP_GE
  | .FP_GE => .FP_LT
  | .FP_GT => .FP_LE
  | .FP_EQ => .UNKNOWN
  | .STR_LT => .STR_GE
  | .STR_GT => .STR_LE
  | .STR_LE => .STR_GT
  | .STR_GE => .STR_LT
  | _ => .UNKNOWN

/-- `getFlipKind` (`src/kind.cpp:616-698`). -/
def getFlipKind : K → K
  | .EQ => .EQ
  | .DISTINCT => .DISTINCT
  | .EQ_BOOL => .EQ_BOOL
  | .DISTINCT_BOOL => .DISTINCT_BOOL
  | .EQ_OTHER => .EQ_OTHER
  | .DISTINCT_OTHER => .DISTINCT_OTHER
  | .LE => .GE
  | .LT => .GT
  | .GE => .LE
  | .GT => .LT
  | .ADD => .SUB
  | .SUB => .ADD
  | .DIV_INT => .MUL
  | .DIV_REAL => .MUL
  | .BV_SUB => .BV_ADD
  | .BV_ADD => .BV_SUB
  | .BV_UDIV => .BV_MUL
  | .BV_SDIV => .BV_MUL
  | .BV_ULT => .BV_UGT
  | .BV_UGT => .BV_ULT
  | .BV_ULE => .BV_UGE
  | .BV_UGE => .BV_ULE
  | .BV_SLT => .BV_SGE
  | .BV_SGT => .BV_SLT
  | .BV_SLE => .BV_SGE
  | .BV_SGE => .BV_SLE
  | .FP_ADD => .FP_SUB
  | .FP_SUB => .FP_ADD
  | .FP_MUL => .FP_DIV
  | .FP_DIV => .FP_MUL
  | .FP_LE => .FP_GE
  | .FP_LT => .FP_GT
  | .FP_GE => .FP_LE
  | .FP_GT => .FP_LT
  | .STR_LT => .STR_GT
  | .STR_GT => .STR_LT
  | .STR_LE => .STR_GE
  | .STR_GE => .STR_LE
  | _ => .UNKNOWN

/-- `oper_key_map` (`include/kind.h:180-407`), in source order.  Constructing the `unordered_map` keeps the
first of several entries with one key, as does `List.lookup`. -/
def operKeyMap : List (String × K) := [
  ("and", .AND),
  ("or", .OR),
  ("not", .NOT),
  ("=>", .IMPLIES),
  ("xor", .XOR),
  ("=", .EQ),
  ("==", .EQ),
  ("<->", .EQ),
  ("iff", .EQ),
  ("<=>", .EQ),
  ("distinct", .DISTINCT),
  ("!=", .DISTINCT),
  ("<>", .DISTINCT),
  ("ite", .ITE),
  ("+", .ADD),
  ("-", .SUB),
  ("*", .MUL),
  ("iand", .IAND),
  ("pow2", .POW2),
  ("pow", .POW),
  ("**", .POW),
  ("^", .POW),
  ("div", .DIV_INT),
  ("/", .DIV_REAL),
  ("%", .MOD),
  ("mod", .MOD),
  ("abs", .ABS),
  ("sqrt", .SQRT),
  ("safesqrt", .SAFESQRT),
  ("safeSqrt", .SAFESQRT),
  ("ceil", .CEIL),
  ("floor", .FLOOR),
  ("round", .ROUND),
  ("exp", .EXP),
  ("ln", .LN),
  ("loge", .LN),
  ("lg", .LG),
  ("log10", .LG),
  ("lb", .LB),
  ("log2", .LB),
  ("log", .LOG),
  ("sin", .SIN),
  ("cos", .COS),
  ("tan", .TAN),
  ("sec", .SEC),
  ("csc", .CSC),
  ("cot", .COT),
  ("asin", .ASIN),
  ("arcsin", .ASIN),
  ("acos", .ACOS),
  ("arccos", .ACOS),
  ("atan", .ATAN),
  ("arctan", .ATAN),
  ("asec", .ASEC),
  ("arcsec", .ASEC),
  ("acsc", .ACSC),
  ("arccsc", .ACSC),
  ("acot", .ACOT),
  ("arccot", .ACOT),
  ("atan2", .ATAN2),
  ("arctan2", .ATAN2),
  ("sinh", .SINH),
  ("cosh", .COSH),
  ("tanh", .TANH),
  ("sech", .SECH),
  ("csch", .CSCH),
  ("coth", .COTH),
  ("asinh", .ASINH),
  ("arcsinh", .ASINH),
  ("acosh", .ACOSH),
  ("arccosh", .ACOSH),
  ("atanh", .ATANH),
  ("arctanh", .ATANH),
  ("asech", .ASECH),
  ("arcsec", .ASECH),
  ("asech", .ASECH),
  ("arcsec", .ASECH),
  ("acsch", .ACSCH),
  ("arccsch", .ACSCH),
  ("acoth", .ACOTH),
  ("arccoth", .ACOTH),
  ("<=", .LE),
  ("<", .LT),
  (">=", .GE),
  (">", .GT),
  ("to_real", .TO_REAL),
  ("to_int", .TO_INT),
  ("is_int", .IS_INT),
  ("is_divisible", .IS_DIVISIBLE),
  ("is_prime", .IS_PRIME),
  ("is_even", .IS_EVEN),
  ("is_odd", .IS_ODD),
  ("gcd", .GCD),
  ("lcm", .LCM),
  ("factorial", .FACT),
  ("bvnot", .BV_NOT),
  ("bvneg", .BV_NEG),
  ("bvand", .BV_AND),
  ("bvor", .BV_OR),
  ("bvxor", .BV_XOR),
  ("bvnand", .BV_NAND),
  ("bvnor", .BV_NOR),
  ("bvxnor", .BV_XNOR),
  ("bvcomp", .BV_COMP),
  ("bvadd", .BV_ADD),
  ("bvsub", .BV_SUB),
  ("bvmul", .BV_MUL),
  ("bvudiv", .BV_UDIV),
  ("bvurem", .BV_UREM),
  ("bvsdiv", .BV_SDIV),
  ("bvsrem", .BV_SREM),
  ("bvumod", .BV_UMOD),
  ("bvsmod", .BV_SMOD),
  ("bvshl", .BV_SHL),
  ("bvlshr", .BV_LSHR),
  ("bvashr", .BV_ASHR),
  ("bvult", .BV_ULT),
  ("bvule", .BV_ULE),
  ("bvugt", .BV_UGT),
  ("bvuge", .BV_UGE),
  ("bvslt", .BV_SLT),
  ("bvsle", .BV_SLE),
  ("bvsgt", .BV_SGT),
  ("bvsge", .BV_SGE),
  ("concat", .BV_CONCAT),
  ("bv2nat", .BV_TO_NAT),
  ("nat2bv", .NAT_TO_BV),
  ("bv2int", .BV_TO_INT),
  ("int2bv", .INT_TO_BV),
  ("extract", .BV_EXTRACT),
  ("repeat", .BV_REPEAT),
  ("zero_extend", .BV_ZERO_EXT),
  ("sign_extend", .BV_SIGN_EXT),
  ("rotate_left", .BV_ROTATE_LEFT),
  ("rotate_right", .BV_ROTATE_RIGHT),
  ("fp.abs", .FP_ABS),
  ("fp.neg", .FP_NEG),
  ("fp.add", .FP_ADD),
  ("fp.sub", .FP_SUB),
  ("fp.mul", .FP_MUL),
  ("fp.div", .FP_DIV),
  ("fp.fma", .FP_FMA),
  ("fp.sqrt", .FP_SQRT),
  ("fp.rem", .FP_REM),
  ("fp.roundToIntegral", .FP_ROUND_TO_INTEGRAL),
  ("fp.min", .FP_MIN),
  ("fp.max", .FP_MAX),
  ("fp.le", .FP_LE),
  ("fp.leq", .FP_LE),
  ("fp.lt", .FP_LT),
  ("fp.ge", .FP_GE),
  ("fp.geq", .FP_GE),
  ("fp.gt", .FP_GT),
  ("fp.eq", .FP_EQ),
  ("fp.=", .FP_EQ),
  ("fp.==", .FP_EQ),
  ("fp.to_ubv", .FP_TO_UBV),
  ("fp.toUbv", .FP_TO_UBV),
  ("fp.to_sbv", .FP_TO_SBV),
  ("fp.toSbv", .FP_TO_SBV),
  ("fp.to_real", .FP_TO_REAL),
  ("to_fp", .FP_TO_FP),
  ("to_fp_unsigned", .FP_TO_FP_UNSIGNED),
  ("fp.isNormal", .FP_IS_NORMAL),
  ("fp.isSubnormal", .FP_IS_SUBNORMAL),
  ("fp.isZero", .FP_IS_ZERO),
  ("fp.isInf", .FP_IS_INF),
  ("fp.isInfinite", .FP_IS_INF),
  ("fp.isNan", .FP_IS_NAN),
  ("fp.isNaN", .FP_IS_NAN),
  ("fp.isNeg", .FP_IS_NEG),
  ("fp.isNegative", .FP_IS_NEG),
  ("fp.isPos", .FP_IS_POS),
  ("fp.isPositive", .FP_IS_POS),
  ("select", .SELECT),
  ("store", .STORE),
  ("str.len", .STR_LEN),
  ("str.++", .STR_CONCAT),
  ("str.substr", .STR_SUBSTR),
  ("str.prefixof", .STR_PREFIXOF),
  ("str.suffixof", .STR_SUFFIXOF),
  ("str.indexof", .STR_INDEXOF),
  ("str.at", .STR_CHARAT),
  ("str.update", .STR_UPDATE),
  ("str.replace", .STR_REPLACE),
  ("str.replace_all", .STR_REPLACE_ALL),
  ("str.replace_re", .STR_REPLACE_REG),
  ("str.replace_re_all", .STR_REPLACE_REG_ALL),
  ("str.indexof_re", .STR_INDEXOF_REG),
  ("str.to_lower", .STR_TO_LOWER),
  ("str.to_upper", .STR_TO_UPPER),
  ("str.rev", .STR_REV),
  ("str.split", .STR_SPLIT),
  ("str.split_at", .STR_SPLIT_AT),
  ("str.split_rest", .STR_SPLIT_REST),
  ("str.num_splits", .STR_NUM_SPLITS),
  ("str.split_at_re", .STR_SPLIT_AT_RE),
  ("str.split_rest_re", .STR_SPLIT_REST_RE),
  ("str.num_splits_re", .STR_NUM_SPLITS_RE),
  ("str.<", .STR_LT),
  ("str.<=", .STR_LE),
  ("str.>", .STR_GT),
  ("str.>=", .STR_GE),
  ("str.in_re", .STR_IN_REG),
  ("str.contains", .STR_CONTAINS),
  ("str.is_digit", .STR_IS_DIGIT),
  ("str.from_int", .STR_FROM_INT),
  ("str.to_int", .STR_TO_INT),
  ("str.to_re", .STR_TO_REG),
  ("str.to_code", .STR_TO_CODE),
  ("str.from_code", .STR_FROM_CODE),
  ("re.++", .REG_CONCAT),
  ("re.union", .REG_UNION),
  ("re.inter", .REG_INTER),
  ("re.diff", .REG_DIFF),
  ("re.*", .REG_STAR),
  ("re.+", .REG_PLUS),
  ("re.?", .REG_OPT),
  ("re.opt", .REG_OPT),
  ("re.range", .REG_RANGE),
  ("re.^", .REG_REPEAT),
  ("re.repeat", .REG_REPEAT),
  ("re.loop", .REG_LOOP),
  ("re.comp", .REG_COMPLEMENT),
  ("root-obj", .ROOT_OBJ),
  ("root-of-with-interval", .ROOT_OF_WITH_INTERVAL)]

/-- `getOperKind` (`src/kind.cpp:700-706`). -/
def getOperKind (s : String) : K := (operKeyMap.lookup s).getD .UNKNOWN

/-- kinds for which the `switch` of `Parser::parseOper` builds a node
(`src/expr_parser.cpp:799-1404`; every other kind is reported as an unknown symbol). -/
def parseOperCase : K → Bool
  | .AND => true
  | .OR => true
  | .NOT => true
  | .IMPLIES => true
  | .XOR => true
  | .EQ => true
  | .DISTINCT => true
  | .ITE => true
  | .ADD => true
  | .NEG => true
  | .SUB => true
  | .MUL => true
  | .IAND => true
  | .POW2 => true
  | .POW => true
  | .DIV_INT => true
  | .DIV_REAL => true
  | .MOD => true
  | .ABS => true
  | .SQRT => true
  | .SAFESQRT => true
  | .CEIL => true
  | .FLOOR => true
  | .ROUND => true
  | .EXP => true
  | .LN => true
  | .LG => true
  | .LB => true
  | .LOG => true
  | .SIN => true
  | .COS => true
  | .TAN => true
  | .COT => true
  | .SEC => true
  | .CSC => true
  | .ASIN => true
  | .ACOS => true
  | .ATAN => true
  | .ACOT => true
  | .ASEC => true
  | .ACSC => true
  | .SINH => true
  | .COSH => true
  | .TANH => true
  | .ASECH => true
  | .ACSCH => true
  | .ACOTH => true
  | .ATAN2 => true
  | .ASINH => true
  | .ACOSH => true
  | .ATANH => true
  | .SECH => true
  | .CSCH => true
  | .LE => true
  | .LT => true
  | .GE => true
  | .GT => true
  | .TO_REAL => true
  | .TO_INT => true
  | .IS_INT => true
  | .IS_DIVISIBLE => true
  | .IS_PRIME => true
  | .IS_EVEN => true
  | .IS_ODD => true
  | .GCD => true
  | .LCM => true
  | .FACT => true
  | .BV_NOT => true
  | .BV_NEG => true
  | .BV_AND => true
  | .BV_OR => true
  | .BV_XOR => true
  | .BV_NAND => true
  | .BV_NOR => true
  | .BV_XNOR => true
  | .BV_COMP => true
  | .BV_ADD => true
  | .BV_SUB => true
  | .BV_MUL => true
  | .BV_UDIV => true
  | .BV_UREM => true
  | .BV_SDIV => true
  | .BV_SREM => true
  | .BV_SMOD => true
  | .BV_SHL => true
  | .BV_LSHR => true
  | .BV_ASHR => true
  | .BV_ULT => true
  | .BV_ULE => true
  | .BV_UGT => true
  | .BV_UGE => true
  | .BV_SLT => true
  | .BV_SLE => true
  | .BV_SGT => true
  | .BV_SGE => true
  | .BV_CONCAT => true
  | .BV_TO_INT => true
  | .BV_TO_NAT => true
  | .NAT_TO_BV => true
  | .INT_TO_BV => true
  | .BV_EXTRACT => true
  | .BV_REPEAT => true
  | .BV_ZERO_EXT => true
  | .BV_SIGN_EXT => true
  | .BV_ROTATE_LEFT => true
  | .BV_ROTATE_RIGHT => true
  | .FP_ABS => true
  | .FP_NEG => true
  | .FP_ADD => true
  | .FP_SUB => true
  | .FP_MUL => true
  | .FP_DIV => true
  | .FP_FMA => true
  | .FP_SQRT => true
  | .FP_REM => true
  | .FP_ROUND_TO_INTEGRAL => true
  | .FP_MIN => true
  | .FP_MAX => true
  | .FP_LE => true
  | .FP_LT => true
  | .FP_GE => true
  | .FP_GT => true
  | .FP_EQ => true
  | .FP_TO_UBV => true
  | .FP_TO_SBV => true
  | .FP_TO_REAL => true
  | .FP_TO_FP => true
  | .FP_TO_FP_UNSIGNED => true
  | .FP_IS_NORMAL => true
  | .FP_IS_SUBNORMAL => true
  | .FP_IS_ZERO => true
  | .FP_IS_INF => true
  | .FP_IS_NAN => true
  | .FP_IS_NEG => true
  | .FP_IS_POS => true
  | .SELECT => true
  | .STORE => true
  | .STR_LEN => true
  | .STR_CONCAT => true
  | .STR_SUBSTR => true
  | .STR_PREFIXOF => true
  | .STR_SUFFIXOF => true
  | .STR_INDEXOF => true
  | .STR_CHARAT => true
  | .STR_UPDATE => true
  | .STR_REPLACE => true
  | .STR_REPLACE_ALL => true
  | .STR_REPLACE_REG => true
  | .STR_REPLACE_REG_ALL => true
  | .STR_INDEXOF_REG => true
  | .STR_TO_LOWER => true
  | .STR_TO_UPPER => true
  | .STR_REV => true
  | .STR_SPLIT => true
  | .STR_SPLIT_AT => true
  | .STR_SPLIT_REST => true
  | .STR_NUM_SPLITS => true
  | .STR_SPLIT_AT_RE => true
  | .STR_SPLIT_REST_RE => true
  | .STR_NUM_SPLITS_RE => true
  | .STR_LT => true
  | .STR_LE => true
  | .STR_GT => true
  | .STR_GE => true
  | .STR_IN_REG => true
  | .STR_CONTAINS => true
  | .STR_IS_DIGIT => true
  | .STR_FROM_INT => true
  | .STR_TO_INT => true
  | .STR_TO_REG => true
  | .STR_TO_CODE => true
  | .STR_FROM_CODE => true
  | .REG_CONCAT => true
  | .REG_UNION => true
  | .REG_INTER => true
  | .REG_DIFF => true
  | .REG_STAR => true
  | .REG_PLUS => true
  | .REG_OPT => true
  | .REG_RANGE => true
  | .REG_REPEAT => true
  | .REG_COMPLEMENT => true
  | .REG_LOOP => true
  | _ => false

/-- `Parser::parseOper` accepts the operator name `s` (`src/expr_parser.cpp:780-800`): `root-obj` is tested by name,
other names by kind.  User-defined function names are left out. -/
def accepts (s : String) : Bool := s == "root-obj" || parseOperCase (getOperKind s)

/-- kind of the node built for the name `s` (`src/expr_parser.cpp:787-800`; `mkRootObj` builds `NT_ROOT_OBJ`).
Arguments and simplification are left out: this is the kind of the unsimplified node; `-` with one operand and
`log` with one operand build `NT_NEG` and `NT_LN` (see `unaryKind`). -/
def builtKind (s : String) : K := if s == "root-obj" then .ROOT_OBJ else getOperKind s

/-- kind built by the names that look at the number of operands: one operand (`src/op_parser.cpp` `mkSub`,
`src/expr_parser.cpp:882-891`). -/
def unaryKind (s : String) : K :=
  match builtKind s with
  | .SUB => .NEG
  | .LOG => .LN
  | k => k

/-- `enum class COMP_KIND` (`include/objective.h`). -/
inductive C where
  | LT
  | LE
  | GT
  | GE
  | BV_ULT
  | BV_ULE
  | BV_UGT
  | BV_UGE
  | BV_SLT
  | BV_SLE
  | BV_SGT
  | BV_SGE
  | FP_LT
  | FP_LE
  | FP_GT
  | FP_GE
  | NULL
  deriving DecidableEq

/-- `getNegatedOperator` (`src/objective.cpp:99-138`). -/
def getNegatedOperator : C → C
  | .LT => .GE
  | .LE => .GT
  | .GT => .LE
  | .GE => .LT
  | .BV_ULT => .BV_UGE
  | .BV_ULE => .BV_UGT
  | .BV_UGT => .BV_ULE
  | .BV_UGE => .BV_ULT
  | .BV_SLT => .BV_SGE
  | .BV_SLE => .BV_SGT
  | .BV_SGT => .BV_SLE
  | .BV_SGE => .BV_SLT
  | .FP_LT => .FP_GE
  | .FP_LE => .FP_GT
  | .FP_GT => .FP_LE
  | .FP_GE => .FP_LT
  | .NULL => .LT

/-- `getFlipOperator` (`src/objective.cpp:140-178`). -/
def getFlipOperator : C → C
  | .LT => .GT
  | .LE => .GE
  | .GT => .LT
  | .GE => .LE
  | .BV_ULT => .BV_UGT
  | .BV_ULE => .BV_UGE
  | .BV_UGT => .BV_ULT
  | .BV_UGE => .BV_ULE
  | .BV_SLT => .BV_SGT
  | .BV_SLE => .BV_SGE
  | .BV_SGT => .BV_SLT
  | .BV_SGE => .BV_SLE
  | .FP_LT => .FP_GT
  | .FP_LE => .FP_GE
  | .FP_GT => .FP_LT
  | .FP_GE => .FP_LE
  | .NULL => .LT

/-- `getStrictOperator` (`src/objective.cpp:180-218`). -/
def getStrictOperator : C → C
  | .LT => .LT
  | .LE => .LT
  | .GT => .GT
  | .GE => .GT
  | .BV_ULT => .BV_ULT
  | .BV_ULE => .BV_ULT
  | .BV_UGT => .BV_UGT
  | .BV_UGE => .BV_UGT
  | .BV_SLT => .BV_SLT
  | .BV_SLE => .BV_SLT
  | .BV_SGT => .BV_SGT
  | .BV_SGE => .BV_SGT
  | .FP_LT => .FP_LT
  | .FP_LE => .FP_LT
  | .FP_GT => .FP_GT
  | .FP_GE => .FP_GT
  | .NULL => .LT

/-- `getCompareNodeKind` (`src/objective.cpp:220-258`). -/
def getCompareNodeKind : C → K
  | .LT => .LT
  | .LE => .LE
  | .GT => .GT
  | .GE => .GE
  | .BV_ULT => .BV_ULT
  | .BV_ULE => .BV_ULE
  | .BV_UGT => .BV_UGT
  | .BV_UGE => .BV_UGE
  | .BV_SLT => .BV_SLT
  | .BV_SLE => .BV_SLE
  | .BV_SGT => .BV_SGT
  | .BV_SGE => .BV_SGE
  | .FP_LT => .FP_LT
  | .FP_LE => .FP_LE
  | .FP_GT => .FP_GT
  | .FP_GE => .FP_GE
  | .NULL => .LT

/-- `getEqNodeKind` (`src/objective.cpp:260-274`). -/
def getEqNodeKind : C → K
  | .FP_LT => .FP_EQ
  | .FP_LE => .FP_EQ
  | .FP_GT => .FP_EQ
  | .FP_GE => .FP_EQ
  | _ => .EQ

/-- `getCompareOperator` (`src/objective.cpp:46-96`): an unknown symbol means `<`. -/
def getCompareOperator (s : String) : C :=
  (([("<", .LT), ("<=", .LE), (">", .GT), (">=", .GE), ("bvult", .BV_ULT), ("bvule", .BV_ULE), ("bvugt", .BV_UGT), ("bvuge", .BV_UGE), ("bvslt", .BV_SLT), ("bvsle", .BV_SLE), ("bvsgt", .BV_SGT), ("bvsge", .BV_SGE), ("fp.lt", .FP_LT), ("fp.leq", .FP_LE), ("fp.gt", .FP_GT), ("fp.geq", .FP_GE)] : List (String × C)).lookup s).getD .LT

/-- `Parser::flipComp` (`src/op_parser.cpp:4472-4500`) on a binary atom given by its kind and operands: the
operands of an order comparison (and of `fp.eq`) are exchanged and the kind is kept. -/
def flipComp {α : Type} : K × α × α → K × α × α
  | (k, x, y) =>
    match k with
    | .EQ | .DISTINCT | .EQ_BOOL | .EQ_OTHER | .DISTINCT_BOOL | .DISTINCT_OTHER => (k, x, y)
    | .LE | .LT | .GE | .GT
    | .BV_ULT | .BV_ULE | .BV_UGT | .BV_UGE | .BV_SLT | .BV_SLE | .BV_SGT | .BV_SGE
    | .FP_LE | .FP_LT | .FP_GE | .FP_GT | .FP_EQ
    | .STR_LT | .STR_LE | .STR_GT | .STR_GE => (k, y, x)
    | _ => (k, x, y)

end SMT.Kinds
