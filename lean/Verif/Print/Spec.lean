import Verif.Print.Model
import Verif.Text.Sexp

/-!
# Specification of printed expressions (C39)

An expression is written as an S-expression, with one space between the parts of a list.  The form of each kind is the one of SMT-LIB:
`(op a1 ... an)`, `((_ op i1 ... ik) a1 ... an)` for the indexed operators, `((as const S) v)`, `(forall ((x S) ...) body)`,
`(let ((x v) ...) body)`, `(f a1 ... an)`, and single words.  The operator names are those of `kindToString`, which C15 is about.
-/

namespace SMT.Print
open SMT SMT.Text SMT.Kinds SMT.Sorts

mutual
/-- the S-expression of a sort: bit-vectors, floating-point numbers, arrays and regular expressions are lists, the others words -/
def sortSexp : Srt → Sexp
  | .mk k name a cs =>
    match k with
    | .BV => .list [.atom cs!"_", .atom cs!"BitVec", .atom (dec ((cs[0]?.map Srt.arity).getD 0))]
    | .FP => .list [.atom cs!"_", .atom cs!"FloatingPoint", .atom (dec ((cs[0]?.map Srt.arity).getD 0)),
        .atom (dec ((cs[1]?.map Srt.arity).getD 0))]
    | .ARRAY => .list [.atom cs!"Array", sortAt cs 0, sortAt cs 1]
    | .REG => .list [.atom cs!"RegEx", .atom cs!"String"]
    | _ => .atom (print (.mk k name a []))
/-- the component of a sort -/
def sortAt : List Srt → Nat → Sexp
  | [], _ => .atom []
  | s :: _, 0 => sortSexp s
  | _ :: l, i + 1 => sortAt l i
end

/-- how the nodes of a kind are written -/
inductive Form where
  /-- always the same word -/
  | word (s : List Char)
  /-- the name of the node -/
  | name
  /-- a constant: its name, a negative number as `(- n)`, a floating-point number given by its parts as `(fp s e m)` -/
  | literal
  /-- a special value: its name when it carries its sort, otherwise the word -/
  | special (s : List Char)
  /-- `(op a1 ... an)` -/
  | app (op : List Char)
  /-- `((_ op i1 ... ik) a1 ... an)`, with the positions of the indices and of the operands among the children -/
  | indexed (op : List Char) (idx args : List Nat)
  /-- `((_ to_fp e s) [rm] x)`, the children in this order -/
  | toFp
  /-- `((as const S) v)` -/
  | constArray
  /-- `(forall ((x S) ...) body)`; the body is the first child -/
  | quant (op : List Char)
  /-- the call of a defined function; the first child is its body -/
  | call
  /-- the call of a declared function -/
  | ufCall
  /-- `(let ((x v) ...) body)`; the body is the first child -/
  | letE
  /-- nested lets; the body is the last child -/
  | letChain
  /-- a variable bound by let -/
  | binder
  /-- not an expression, or no standard form -/
  | other

/-- the form of each kind -/
def form : K → Form
  | .CONST_TRUE => .word cs!"true"
  | .CONST_FALSE => .word cs!"false"
  | .CONST_PI => .word cs!"pi"
  | .CONST_E => .word cs!"e"
  | .EPSILON => .word cs!"epsilon"
  | .POS_EPSILON => .word cs!"+epsilon"
  | .NEG_EPSILON => .word cs!"-epsilon"
  | .REG_NONE => .word cs!"re.none"
  | .REG_ALL => .word cs!"re.all"
  | .REG_ALLCHAR => .word cs!"re.allchar"
  | .INFINITY => .special cs!"inf"
  | .POS_INFINITY => .special cs!"+inf"
  | .NEG_INFINITY => .special cs!"-inf"
  | .NAN => .special cs!"NaN"
  | .CONST => .literal
  | .VAR | .TEMP_VAR | .PLACEHOLDER_VAR | .QUANT_VAR | .FUNC_DEC | .FUNC_DEF | .FUNC_REC | .FUNC_PARAM => .name
  | .CONST_ARRAY => .constArray
  | .BV_EXTRACT => .indexed cs!"extract" [1, 2] [0]
  | .REG_LOOP => .indexed cs!"re.loop" [1, 2] [0]
  | .BV_REPEAT => .indexed cs!"repeat" [1] [0]
  | .BV_ZERO_EXT => .indexed cs!"zero_extend" [1] [0]
  | .BV_SIGN_EXT => .indexed cs!"sign_extend" [1] [0]
  | .BV_ROTATE_LEFT => .indexed cs!"rotate_left" [1] [0]
  | .BV_ROTATE_RIGHT => .indexed cs!"rotate_right" [1] [0]
  | .FP_TO_UBV => .indexed cs!"fp.to_ubv" [2] [0, 1]
  | .FP_TO_SBV => .indexed cs!"fp.to_sbv" [2] [0, 1]
  | .FP_TO_FP_UNSIGNED => .indexed cs!"to_fp_unsigned" [0, 1] [2, 3]
  | .FP_TO_FP => .toFp
  | .FORALL => .quant cs!"forall"
  | .EXISTS => .quant cs!"exists"
  | .FUNC_APPLY | .FUNC_REC_APPLY => .call
  | .UF_APPLY => .ufCall
  | .LET => .letE
  | .LET_CHAIN => .letChain
  | .LET_BIND_VAR => .binder
  | .ROOT_OBJ => .app cs!"root-obj"
  | .LET_BIND_VAR_LIST | .ROOT_OF_WITH_INTERVAL | .REAL_ALGEBRAIC_NUMBER => .other
  | k => .app (kindName k)

/-- an integer or real constant is written `(- n)` when it is negative -/
def numeric (s : Srt) : Bool := s.kind = .REAL || s.kind = .INT || s.kind = .INTOREAL

/-- a constant that has no parts -/
def constSexp (name : List Char) (s : Srt) : Sexp :=
  if numeric s && name.head? = some '-' then .list [.atom cs!"-", .atom name.tail] else .atom name

/-- the name of a let variable without the mark of the let it belongs to -/
def letName (k : K) (name : List Char) : List Char := if k = .LET_BIND_VAR then cutAt letSuffix name else name

/-- a declared variable: `(x S)` -/
def varSexp (v : N) : Sexp := .list [.atom v.name, sortSexp v.sort]

/-- the parts at the given positions -/
def pick (xs : List Sexp) (is : List Nat) : List Sexp := is.filterMap fun i => xs[i]?

mutual
/-- the S-expression of a node -/
def sexpr : N → Sexp
  | .mk k name s cs =>
    match form k with
    | .word w => .atom w
    | .name => .atom name
    | .literal => if name = cs!"(fp_bit_representation)" ∧ cs.length = 3 then .list (.atom cs!"fp" :: sexprs cs) else constSexp name s
    | .special w => .atom (if name.head? = some '(' then name else w)
    | .app op => if cs.isEmpty then .atom op else .list (.atom op :: sexprs cs)
    | .indexed op idx args => .list (.list (.atom cs!"_" :: .atom op :: pick (sexprs cs) idx) :: pick (sexprs cs) args)
    | .toFp => .list (.list (.atom cs!"_" :: .atom cs!"to_fp" :: (sexprs cs).take 2) :: (sexprs cs).drop 2)
    | .constArray => .list (.list [.atom cs!"as", .atom cs!"const", sortSexp s] :: sexprs cs)
    | .quant op => .list (.atom op :: .list (cs.tail.map varSexp) :: (sexprs cs).take 1)
    | .call => if (sexprs cs).tail.isEmpty then .atom name else .list (.atom name :: (sexprs cs).tail)
    | .ufCall => if cs.isEmpty then .atom name else .list (.atom name :: sexprs cs)
    | .letE => .list (.atom cs!"let" :: .list (binds cs).tail :: (sexprs cs).take 1)
    | .letChain => chain cs
    | .binder => .atom (letName k name)
    | .other => .atom []
/-- the S-expressions of a list of nodes -/
def sexprs : List N → List Sexp
  | [] => []
  | c :: cs => sexpr c :: sexprs cs
/-- bindings `(x v)` -/
def binds : List N → List Sexp
  | [] => []
  | b :: bs => bind b :: binds bs
/-- a binding: the variable is a node, the value its child -/
def bind : N → Sexp
  | .mk k name _ cs => .list (.atom (letName k name) :: sexprs cs)
/-- the bindings of a binding list -/
def bindList : N → List Sexp
  | .mk _ _ _ cs => binds cs
/-- nested lets -/
def chain : List N → Sexp
  | [] => .atom []
  | l :: ls => if ls.isEmpty then sexpr l else .list [.atom cs!"let", .list (bindList l), chain ls]
end

/-- the number of children the nodes of a kind have -/
def arity : K → Nat → Bool
  | .NOT | .NEG | .CONST_ARRAY | .FP_ABS | .FP_NEG | .FP_IS_NORMAL | .FP_IS_SUBNORMAL | .FP_IS_ZERO | .FP_IS_INF | .FP_IS_NAN
  | .FP_IS_NEG | .FP_IS_POS | .FP_TO_REAL => fun n => n == 1
  | .BV_REPEAT | .BV_ZERO_EXT | .BV_SIGN_EXT | .BV_ROTATE_LEFT | .BV_ROTATE_RIGHT | .FP_REM | .FP_LE | .FP_LT | .FP_GE | .FP_GT | .FP_EQ
  | .SELECT | .ROOT_OBJ => fun n => n == 2
  | .ITE | .STORE | .BV_EXTRACT | .REG_LOOP | .FP_TO_UBV | .FP_TO_SBV => fun n => n == 3
  | .FP_TO_FP_UNSIGNED => fun n => n == 4
  | .FP_TO_FP => fun n => n == 3 || n == 4
  | .EQ | .LE | .LT | .GE | .GT | .ADD | .MUL | .SUB | .DIV_REAL | .AND | .OR | .DISTINCT | .FP_ADD | .FP_SUB | .FP_MUL | .FP_DIV
  | .FP_FMA | .FP_MIN | .FP_MAX | .FP_SQRT | .FP_ROUND_TO_INTEGRAL | .FORALL | .EXISTS | .LET | .LET_CHAIN => fun n => 1 ≤ n
  | .LET_BIND_VAR_LIST | .ROOT_OF_WITH_INTERVAL | .REAL_ALGEBRAIC_NUMBER => fun _ => false
  | _ => fun _ => true

/-- each binding has one value -/
def oneValue (bs : List N) : Prop := ∀ b ∈ bs, ∃ v, b.children = [v]

/-- the shape of the bindings -/
def bindShape : K → List N → Prop
  | .LET, cs => oneValue cs.tail
  | .LET_CHAIN, cs => ∀ l ∈ cs.dropLast, oneValue l.children
  | _, _ => True

/-- the nodes written as expressions inside a node of the kind -/
def operands : K → List N → List N
  | .LET, cs => cs.take 1 ++ cs.tail.flatMap N.children
  | .LET_CHAIN, cs => cs.getLast?.toList ++ cs.dropLast.flatMap fun l => l.children.flatMap N.children
  | .FORALL, cs => cs.take 1
  | .EXISTS, cs => cs.take 1
  | .FUNC_APPLY, cs => cs.tail
  | .FUNC_REC_APPLY, cs => cs.tail
  | _, cs => cs

/-- Expressions as the library builds them: every node has the number of children of its kind, down to the leaves. -/
inductive WF : N → Prop where
  | mk {k name s cs} : arity k cs.length = true → bindShape k cs → (∀ c ∈ operands k cs, WF c) → WF (.mk k name s cs)

end SMT.Print
