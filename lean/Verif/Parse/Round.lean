import Verif.Parse.Build
import Verif.Parse.Viol
import Verif.Print.Props

/-!
# Printing and reading back (C41)

`Made I sc n` is the class of expressions the round trip is about: every node is what its own constructor returns for its children, its name
is a word, its sort is written as SMT-LIB sort.
-/

namespace SMT.Parse
open SMT SMT.Text SMT.Lex SMT.Kinds SMT.Sorts SMT.Print

set_option linter.unusedSimpArgs false
set_option linter.unusedVariables false

/-! ## Specification -/

/-- operators with one operand -/
def unary : List K := [
  .NOT, .NEG, .POW2, .ABS, .SQRT, .SAFESQRT, .CEIL, .FLOOR, .ROUND, .EXP, .LN, .LG, .LB, .SIN, .COS, .TAN, .COT, .SEC, .CSC,
  .ASIN, .ACOS, .ATAN, .ACOT, .ASEC, .ACSC, .SINH, .COSH, .TANH, .ASECH, .ACSCH, .ACOTH, .ASINH, .ACOSH, .ATANH, .SECH, .CSCH,
  .TO_REAL, .TO_INT, .IS_INT, .IS_PRIME, .IS_EVEN, .IS_ODD, .FACT, .BV_NOT, .BV_NEG, .BV_TO_NAT, .FP_ABS, .FP_NEG, .FP_TO_REAL,
  .FP_IS_NORMAL, .FP_IS_SUBNORMAL, .FP_IS_ZERO, .FP_IS_INF, .FP_IS_NAN, .FP_IS_NEG, .FP_IS_POS, .STR_LEN, .STR_TO_LOWER,
  .STR_TO_UPPER, .STR_REV, .STR_IS_DIGIT, .STR_FROM_INT, .STR_TO_INT, .STR_TO_REG, .STR_TO_CODE, .STR_FROM_CODE, .REG_STAR,
  .REG_PLUS, .REG_OPT, .REG_COMPLEMENT]
/-- operators with two operands -/
def binary : List K := [
  .POW, .DIV_INT, .DIV_REAL, .MOD, .ATAN2, .LE, .LT, .GE, .GT, .IS_DIVISIBLE, .GCD, .LCM, .BV_COMP, .BV_UDIV, .BV_UREM, .BV_SDIV,
  .BV_SREM, .BV_SMOD, .BV_SHL, .BV_LSHR, .BV_ASHR, .BV_ULT, .BV_ULE, .BV_UGT, .BV_UGE, .BV_SLT, .BV_SLE, .BV_SGT, .BV_SGE,
  .NAT_TO_BV, .FP_REM, .FP_LE, .FP_LT, .FP_GE, .FP_GT, .FP_EQ, .SELECT, .STR_PREFIXOF, .STR_SUFFIXOF, .STR_CHARAT, .STR_SPLIT,
  .STR_NUM_SPLITS, .STR_NUM_SPLITS_RE, .STR_LT, .STR_LE, .STR_GT, .STR_GE, .STR_IN_REG, .STR_CONTAINS, .REG_RANGE, .REG_REPEAT]
/-- operators with three operands -/
def ternary : List K := [
  .STORE, .STR_SUBSTR, .STR_INDEXOF, .STR_UPDATE, .STR_REPLACE, .STR_REPLACE_ALL, .STR_REPLACE_REG, .STR_REPLACE_REG_ALL,
  .STR_SPLIT_AT, .STR_SPLIT_REST, .STR_SPLIT_AT_RE, .STR_SPLIT_REST_RE]
/-- operators with any number of operands -/
def nary : List K := [
  .AND, .OR, .IMPLIES, .XOR, .EQ, .DISTINCT, .ITE, .ADD, .SUB, .MUL, .IAND, .BV_AND, .BV_OR, .BV_XOR, .BV_NAND, .BV_NOR, .BV_XNOR,
  .BV_ADD, .BV_SUB, .BV_MUL, .BV_CONCAT, .FP_ADD, .FP_SUB, .FP_MUL, .FP_DIV, .FP_FMA, .FP_MIN, .FP_MAX, .STR_CONCAT, .REG_CONCAT,
  .REG_UNION, .REG_INTER, .REG_DIFF]
/-- indexed operators -/
def indexedOps : List K := [.BV_EXTRACT, .REG_LOOP, .BV_REPEAT, .BV_ZERO_EXT, .BV_SIGN_EXT, .BV_ROTATE_LEFT, .BV_ROTATE_RIGHT, .FP_TO_UBV,
  .FP_TO_SBV, .FP_TO_FP]

/-- the operators and numbers of operands that can be read back -/
def takes (k : K) (n : Nat) : Prop :=
  k ∈ unary ∧ n = 1 ∨ k ∈ binary ∧ n = 2 ∨ k ∈ ternary ∧ n = 3 ∨ k ∈ nary ∧ 1 ≤ n ∨ k = .LOG ∧ n = 2 ∨
    k ∈ [K.FP_SQRT, K.FP_ROUND_TO_INTEGRAL] ∧ (n = 1 ∨ n = 2)

/-- the single word a node is written as, if it is -/
def wordOf : N → Option (List Char)
  | .mk k name s cs =>
    match form k with
    | .word w => some w
    | .name => some name
    | .literal =>
      if name = cs!"(fp_bit_representation)" ∧ cs.length = 3 ∨ numeric s ∧ name.head? = some '-' then none else some name
    | .special w => if name.head? = some '(' then none else some w
    | .app op => if cs.isEmpty then some op else none
    | .call => if cs.tail.isEmpty then some name else none
    | .ufCall => if cs.isEmpty then some name else none
    | .binder => some (letName k name)
    | _ => none

/-- the variables of a quantifier, with their sorts -/
inductive QVars (decl : Decl) : List N → List (List Char × D) → Prop where
  | nil : QVars decl [] []
  | cons {v d vs ds} : Tok v.name → SortOf decl (sortSexp v.sort) d → Toks (sortSexp v.sort) → QVars decl vs ds →
      QVars decl (v :: vs) ((v.name, d) :: ds)

/-- the names in scope in the body of a quantifier -/
def scopeOf (vs : List (List Char × D)) : Names := vs.reverse.map fun v => (v.1, .var (some v.2))

/-- every node is what its constructor returns for its parts -/
inductive Made (I : Ctors) (decl : Decl) : Names → N → Prop where
  /-- a node written as one word -/
  | word {sc n w} : wordOf n = some w → Tok w → I.leaf sc w false = .ok n → Made I decl sc n
  /-- a negative number `(- n)`: what `-` makes of the number -/
  | neg {sc s ds m} : numeric s = true → Tok ds → I.leaf sc ds false = .ok m → I.op .NEG [m] = .ok (.mk .CONST ('-' :: ds) s []) →
      Made I decl sc (.mk .CONST ('-' :: ds) s [])
  /-- a floating-point number `(fp s e m)` -/
  | parts {sc s cs} : cs.length = 3 → (∀ c ∈ cs, Made I decl sc c) → I.fp cs = .ok (.mk .CONST cs!"(fp_bit_representation)" s cs) →
      Made I decl sc (.mk .CONST cs!"(fp_bit_representation)" s cs)
  /-- a special floating-point value `(_ +oo e s)` -/
  | special {sc k w g e m s} : form k = .special w → g ∈ fpNames → Num64 e → Num64 m →
      I.fpc g (undec e) (undec m) = .ok (.mk k (cs!"(_ " ++ g ++ cs!" " ++ e ++ cs!" " ++ m ++ cs!")") s []) →
      Made I decl sc (.mk k (cs!"(_ " ++ g ++ cs!" " ++ e ++ cs!" " ++ m ++ cs!")") s [])
  /-- an operator -/
  | app {sc k name s cs} : takes k cs.length → (∀ c ∈ cs, Made I decl sc c) → I.op k cs = .ok (.mk k name s cs) →
      Made I decl sc (.mk k name s cs)
  /-- an indexed operator -/
  | indexed {sc k name s cs} : k ∈ indexedOps → arity k cs.length = true → (∀ c ∈ cs, Made I decl sc c) →
      I.op k cs = .ok (.mk k name s cs) → Made I decl sc (.mk k name s cs)
  /-- a constant array -/
  | constArr {sc name s d v} : SortOf decl (sortSexp s) d → Toks (sortSexp s) → Made I decl sc v →
      I.constArr (some d) v = .ok (.mk .CONST_ARRAY name s [v]) → Made I decl sc (.mk .CONST_ARRAY name s [v])
  /-- a quantifier -/
  | quant {sc k op name s b vs ds} : form k = .quant op → QVars decl vs ds → Made I decl (scopeOf ds ++ sc) b →
      I.quant op (ds.map fun v => (v.1, some v.2)) b = .ok (.mk k name s (b :: vs)) → Made I decl sc (.mk k name s (b :: vs))
  /-- a call of a defined function; the first child is its body -/
  | call {sc k name s b cs} : form k = .call → cs ≠ [] → I.isFun name = true → Tok name → name ∉ reserved → fast.lookup name = none →
      (∀ c ∈ cs, Made I decl sc c) → I.apply name cs = .ok (.mk k name s (b :: cs)) → Made I decl sc (.mk k name s (b :: cs))
  /-- a call of a declared function -/
  | ufCall {sc k name s cs} : form k = .ufCall → cs ≠ [] → I.isFun name = true → Tok name → name ∉ reserved → fast.lookup name = none →
      (∀ c ∈ cs, Made I decl sc c) → I.apply name cs = .ok (.mk k name s cs) → Made I decl sc (.mk k name s cs)

/-- what is used of the constructors: no function has the name of an operator, and `(- x)` is the negation of `x`
(`src/op_parser.cpp:1330-1332`) -/
structure Lawful (I : Ctors) : Prop where
  noFun : ∀ k, I.isFun (kindName k) = false
  sub1 : ∀ x, I.op .SUB [x] = I.op .NEG [x]

/-! ## Texts that are written alike -/

theorem tails_congr : ∀ {xs ys : List Sexp}, xs.map flat = ys.map flat → tails xs = tails ys
  | [], [], _ => rfl
  | [], _ :: _, h => by simp at h
  | _ :: _, [], h => by simp at h
  | x :: xs, y :: ys, h => by
    simp only [List.map_cons, List.cons.injEq] at h
    simp only [tails, h.1, tails_congr h.2]

theorem flat_congr {xs ys : List Sexp} (h : xs.map flat = ys.map flat) : flat (.list xs) = flat (.list ys) := by
  match xs, ys, h with
  | [], [], _ => rfl
  | [], _ :: _, h => simp at h
  | _ :: _, [], h => simp at h
  | x :: xs, y :: ys, h =>
    simp only [List.map_cons, List.cons.injEq] at h
    simp only [flat, flats, h.1, tails_congr h.2]

/-- the node can be read back from its text -/
def View (I : Ctors) (decl : Decl) (sc : Names) (n : N) : Prop :=
  ∃ (x : Sexp) (t : T D), flat x = flat (sexpr n) ∧ Toks x ∧ Reads decl false x t ∧ t.names = [] ∧ build I sc (t.map some) = .ok n

theorem sexprs_map : ∀ cs : List N, sexprs cs = cs.map sexpr
  | [] => rfl
  | c :: cs => by rw [sexprs, sexprs_map cs]; rfl

theorem viewL {I : Ctors} {decl : Decl} {sc : Names} : ∀ {cs : List N}, (∀ c ∈ cs, View I decl sc c) →
    ∃ (xs : List Sexp) (ts : List (T D)), xs.map flat = (sexprs cs).map flat ∧ ToksL xs ∧ ReadsL decl false xs ts ∧ namesL ts = [] ∧
      buildL I sc (mapL some ts) = .ok cs
  | [], _ => ⟨[], [], rfl, trivial, .nil, rfl, rfl⟩
  | c :: cs, h => by
    obtain ⟨x, t, h1, h2, h3, h4, h5⟩ := h c List.mem_cons_self
    obtain ⟨xs, ts, k1, k2, k3, k4, k5⟩ := viewL fun d hd => h d (List.mem_cons_of_mem _ hd)
    refine ⟨x :: xs, t :: ts, ?_, ⟨h2, k2⟩, .cons h3 k3, ?_, ?_⟩
    · simp only [sexprs, List.map_cons, h1, k1]
    · simp only [namesL, h4, k4, List.append_nil]
    · simp only [mapL, buildL, h5, k5, Res.ok_bind, Res.pure_eq]

/-! ## The operator table -/

/-- the case for an operator name -/
def dispOf (op : List Char) : Disp := (fast.lookup op).getD (disp (getOperKind (String.ofList op)))

theorem callOper_dispOf (I : Ctors) {op : List Char} (h1 : I.isFun op = false) (h2 : op ≠ cs!"root-obj") (cs : List N) :
    callOper I op [] cs = runCase I [] cs (dispOf op) := by
  unfold callOper dispOf
  simp only [List.isEmpty_nil, if_true]
  cases fast.lookup op with
  | some d => rfl
  | none => simp only [parseOper, h1, if_neg h2, Option.getD_none, Bool.false_eq_true, if_false]

/-- the operator names: words without a meaning of their own -/
def appOk (k : K) : Bool :=
  (match form k with
    | .app op => op == kindName k
    | _ => false) && plainB (kindName k) && !reserved.contains (kindName k) && kindName k != cs!"root-obj"

theorem appOk_spec {k : K} (h : appOk k = true) :
    form k = .app (kindName k) ∧ Tok (kindName k) ∧ kindName k ∉ reserved ∧ kindName k ≠ cs!"root-obj" := by
  unfold appOk at h
  simp only [Bool.and_eq_true, Bool.not_eq_true', bne_iff_ne, ne_eq] at h
  obtain ⟨⟨⟨h1, h2⟩, h3⟩, h4⟩ := h
  refine ⟨?_, plainB_tok h2, by simpa using h3, h4⟩
  split at h1
  · rename_i op ho
    rw [ho, eq_of_beq h1]
  · cases h1

theorem unary_table : ∀ k ∈ unary, appOk k = true ∧ (dispOf (kindName k) = .sel k [.p 0] ∨ k = .NEG ∧ dispOf (kindName k) = .all .SUB) := by
  decide +kernel
theorem binary_table : ∀ k ∈ binary, appOk k = true ∧ (dispOf (kindName k) = .sel k [.p 0, .p 1] ∨ dispOf (kindName k) = .chain k) := by
  decide +kernel
theorem ternary_table : ∀ k ∈ ternary, appOk k = true ∧ dispOf (kindName k) = .sel k [.p 0, .p 1, .p 2] := by decide +kernel
theorem nary_table : ∀ k ∈ nary, appOk k = true ∧ dispOf (kindName k) = .all k := by decide +kernel
theorem log_table : appOk .LOG = true ∧ dispOf (kindName .LOG) = .log := by decide +kernel
theorem opt_table : ∀ k ∈ [K.FP_SQRT, K.FP_ROUND_TO_INTEGRAL], appOk k = true ∧ dispOf (kindName k) = .opt12 k := by decide +kernel

/-- **The constructor called for an operator** is the one of its own kind, with all operands in order. -/
theorem call_app {I : Ctors} (hI : Lawful I) {k : K} {cs : List N} (h : takes k cs.length) :
    appOk k = true ∧ callOper I (kindName k) [] cs = I.op k cs := by
  have key : ∀ {d}, appOk k = true → dispOf (kindName k) = d → runCase I [] cs d = I.op k cs →
      appOk k = true ∧ callOper I (kindName k) [] cs = I.op k cs := by
    intro d h1 h2 h3
    refine ⟨h1, ?_⟩
    rw [callOper_dispOf I (hI.noFun k) (appOk_spec h1).2.2.2, h2, h3]
  rcases h with ⟨hk, hl⟩ | ⟨hk, hl⟩ | ⟨hk, hl⟩ | ⟨hk, hl⟩ | ⟨rfl, hl⟩ | ⟨hk, hl⟩
  · obtain ⟨h1, h2⟩ := unary_table k hk
    match cs, hl with
    | [x], _ =>
      rcases h2 with h2 | ⟨rfl, h2⟩
      · exact key h1 h2 rfl
      · exact key h1 h2 (hI.sub1 x)
  · obtain ⟨h1, h2⟩ := binary_table k hk
    match cs, hl with
    | [x, y], _ => rcases h2 with h2 | h2 <;> exact key h1 h2 rfl
  · obtain ⟨h1, h2⟩ := ternary_table k hk
    match cs, hl with
    | [x, y, z], _ => exact key h1 h2 rfl
  · obtain ⟨h1, h2⟩ := nary_table k hk
    exact key h1 h2 rfl
  · match cs, hl with
    | [x, y], _ => exact key log_table.1 log_table.2 rfl
  · obtain ⟨h1, h2⟩ := opt_table k hk
    rcases hl with hl | hl
    · match cs, hl with
      | [x], _ => exact key h1 h2 rfl
    · match cs, hl with
      | [x, y], _ => exact key h1 h2 rfl

/-! ## The cases -/

variable {I : Ctors} {decl : Decl} {sc : Names}

theorem reads_list {cs : List N} {op : List Char} {xs : List Sexp} (h : xs.map flat = (sexprs cs).map flat) :
    flat (.list (.atom op :: xs)) = flat (.list (.atom op :: sexprs cs)) := flat_congr (by simp only [List.map_cons, h])

theorem sexpr_word {n : N} {w : List Char} (h : wordOf n = some w) : sexpr n = .atom w := by
  obtain ⟨k, name, s, cs⟩ := n
  unfold wordOf at h
  unfold sexpr
  cases hf : form k with
  | word v => simp only [hf, Option.some.injEq] at h ⊢; rw [h]
  | name => simp only [hf, Option.some.injEq] at h ⊢; rw [h]
  | literal =>
    simp only [hf] at h ⊢
    split at h
    · cases h
    · rename_i hn
      simp only [not_or] at hn
      simp only [Option.some.injEq] at h
      rw [if_neg hn.1, constSexp, if_neg (by simpa using hn.2), h]
  | special v =>
    simp only [hf] at h ⊢
    split at h
    · cases h
    · rename_i hn
      simp only [Option.some.injEq] at h
      rw [if_neg hn, h]
  | app op =>
    simp only [hf] at h ⊢
    split at h
    · rename_i hn; simp only [Option.some.injEq] at h; rw [if_pos hn, h]
    · cases h
  | call =>
    simp only [hf] at h ⊢
    split at h
    · rename_i hn
      simp only [Option.some.injEq] at h
      rw [sexprs_map, if_pos (by rw [List.isEmpty_iff] at hn ⊢; rw [← List.map_tail, hn]; rfl), h]
    · cases h
  | ufCall =>
    simp only [hf] at h ⊢
    split at h
    · rename_i hn; simp only [Option.some.injEq] at h; rw [if_pos hn, h]
    · cases h
  | binder => simp only [hf, Option.some.injEq] at h ⊢; rw [h]
  | _ => simp only [hf] at h; cases h

theorem view_word {n : N} {w : List Char} (h : wordOf n = some w) (hw : Tok w) (hl : I.leaf sc w false = .ok n) : View I decl sc n :=
  ⟨.atom w, .mk (.sym w false) [], by rw [sexpr_word h], hw, .sym, rfl, hl⟩

theorem view_neg (hI : Lawful I) {s : Srt} {ds : List Char} {m : N} (hs : numeric s = true) (hd : Tok ds) (hl : I.leaf sc ds false = .ok m)
    (hn : I.op .NEG [m] = .ok (.mk .CONST ('-' :: ds) s [])) : View I decl sc (.mk .CONST ('-' :: ds) s []) := by
  have h1 := call_app hI (k := .NEG) (cs := [m]) (.inl ⟨by decide, rfl⟩)
  refine ⟨.list [.atom cs!"-", .atom ds], .mk (.app cs!"-" 0) [.mk (.sym ds false) []], ?_, ⟨plainB_tok (by decide +kernel), hd, trivial⟩,
    .app (by decide) (.cons .sym .nil), rfl, ?_⟩
  · unfold sexpr
    rw [show form .CONST = .literal from rfl]
    simp only [constSexp, hs, List.length_nil, List.head?_cons, List.tail_cons]
    rfl
  · simp only [T.map, Tag.map, mapL, build, buildL, hl, Res.ok_bind, Res.pure_eq, List.take_zero, List.drop_zero]
    exact h1.2.trans hn

theorem view_parts {s : Srt} {cs : List N} (h3 : cs.length = 3) (ih : ∀ c ∈ cs, View I decl sc c)
    (hn : I.fp cs = .ok (.mk .CONST cs!"(fp_bit_representation)" s cs)) : View I decl sc (.mk .CONST cs!"(fp_bit_representation)" s cs) := by
  obtain ⟨xs, ts, k1, k2, k3, k4, k5⟩ := viewL ih
  refine ⟨.list (.atom cs!"fp" :: xs), .mk .fp ts, ?_, ⟨plainB_tok (by decide +kernel), k2⟩, .fp ?_ k3, k4, ?_⟩
  · unfold sexpr
    rw [show form .CONST = .literal from rfl]
    simp only
    rw [if_pos (by exact ⟨trivial, h3⟩)]
    exact reads_list k1
  · have := congrArg List.length k1
    simpa [sexprs_map, h3] using this
  · simp only [T.map, Tag.map, build, k5, Res.ok_bind]
    exact hn

theorem splitE_digits {w : List Char} (h : ∀ c ∈ w, c.isDigit = true) : Tok.splitE w = none := by
  induction w with
  | nil => rfl
  | cons c w ih =>
    have hc := h c List.mem_cons_self
    have h1 : c ≠ 'e' := by rintro rfl; revert hc; decide
    have h2 : c ≠ 'E' := by rintro rfl; revert hc; decide
    have := ih fun d hd => h d (List.mem_cons_of_mem _ hd)
    simp [Tok.splitE, h1, h2, this]

theorem digits_noSci {w : List Char} (h : ∀ c ∈ w, c.isDigit = true) : NoSci w := by
  intro p hp
  obtain ⟨r, rfl⟩ := hp
  unfold startsSci
  rw [splitE_digits fun c hc => h c (List.mem_append_left _ hc)]

theorem digit_notDelim {c : Char} (h : c.isDigit = true) : isDelim c = false := by
  have : ∀ d : Char, d.isDigit = false → c ≠ d := by rintro d hd rfl; rw [h] at hd; cases hd
  simp [isDelim, isBlank, isNl, this]

theorem num_tok {ds : List Char} (h : Num64 ds) : Tok ds := by
  obtain ⟨h1, h2, _⟩ := h
  refine .plain h1 (fun c hc => ?_) ?_
  · exact digit_notDelim (h2 c hc)
  · exact digits_noSci h2

theorem view_special {k : K} {w g e m : List Char} {s : Srt} (hf : form k = .special w) (hg : g ∈ fpNames) (he : Num64 e) (hm : Num64 m)
    (hn : I.fpc g (undec e) (undec m) = .ok (.mk k (cs!"(_ " ++ g ++ cs!" " ++ e ++ cs!" " ++ m ++ cs!")") s [])) :
    View I decl sc (.mk k (cs!"(_ " ++ g ++ cs!" " ++ e ++ cs!" " ++ m ++ cs!")") s []) := by
  have hgt : Tok g := by
    have : ∀ g ∈ fpNames, plainB g = true := by decide +kernel
    exact plainB_tok (this g hg)
  refine ⟨.list [.atom cs!"_", .atom g, .atom e, .atom m], .mk (.fpc g (undec e) (undec m)) [], ?_,
    ⟨plainB_tok (by decide +kernel), hgt, num_tok he, num_tok hm, trivial⟩, .fpc hg he hm, rfl, hn⟩
  unfold sexpr
  rw [hf]
  simp only [flat, flats, tails]
  rw [if_pos (by rfl)]
  simp only [List.append_assoc, List.cons_append, List.nil_append]

theorem view_app (hI : Lawful I) {k : K} {name : List Char} {s : Srt} {cs : List N} (ht : takes k cs.length) (ih : ∀ c ∈ cs, View I decl sc c)
    (hn : I.op k cs = .ok (.mk k name s cs)) : View I decl sc (.mk k name s cs) := by
  obtain ⟨xs, ts, k1, k2, k3, k4, k5⟩ := viewL ih
  obtain ⟨h1, h2⟩ := call_app hI ht
  obtain ⟨e1, e2, e3, e4⟩ := appOk_spec h1
  have hne : cs.isEmpty = false := by
    cases cs with
    | nil => rcases ht with h | h | h | h | h | ⟨_, h | h⟩ <;> simp at h
    | cons => rfl
  refine ⟨.list (.atom (kindName k) :: xs), .mk (.app (kindName k) 0) ts, ?_, ⟨e2, k2⟩, .app e3 k3, k4, ?_⟩
  · unfold sexpr
    rw [e1]
    simp only [hne]
    exact reads_list k1
  · simp only [T.map, Tag.map, build, k5, Res.ok_bind, List.take_zero, List.drop_zero]
    exact h2.trans hn

theorem view_constArr {name : List Char} {s : Srt} {d : D} {v : N} (hs : SortOf decl (sortSexp s) d) (ht : Toks (sortSexp s))
    (ih : View I decl sc v) (hn : I.constArr (some d) v = .ok (.mk .CONST_ARRAY name s [v])) :
    View I decl sc (.mk .CONST_ARRAY name s [v]) := by
  obtain ⟨x, t, h1, h2, h3, h4, h5⟩ := ih
  refine ⟨.list [.list [.atom cs!"as", .atom cs!"const", sortSexp s], x], .mk (.constArr d) [t], ?_,
    ⟨⟨plainB_tok (by decide +kernel), plainB_tok (by decide +kernel), ht, trivial⟩, h2, trivial⟩, .constArr hs h3, ?_, ?_⟩
  · unfold sexpr
    rw [show form .CONST_ARRAY = .constArray from rfl]
    exact flat_congr (by simp only [List.map_cons, sexprs, h1])
  · simp [T.names, Tag.names, namesL, h4]
  · simp only [T.map, Tag.map, mapL, build, buildL, h5, Res.ok_bind, Res.pure_eq]
    exact hn

theorem qvars {vs : List N} {ds : List (List Char × D)} (h : QVars decl vs ds) :
    Vars decl (vs.map varSexp) ds ∧ ToksL (vs.map varSexp) := by
  induction h with
  | nil => exact ⟨.nil, trivial⟩
  | cons h1 h2 h3 _ ih => exact ⟨.cons h2 ih.1, ⟨h1, h3, trivial⟩, ih.2⟩

theorem view_quant {k : K} {op name : List Char} {s : Srt} {b : N} {vs : List N} {ds : List (List Char × D)} (hf : form k = .quant op)
    (hv : QVars decl vs ds) (ih : View I decl (scopeOf ds ++ sc) b)
    (hn : I.quant op (ds.map fun v => (v.1, some v.2)) b = .ok (.mk k name s (b :: vs))) : View I decl sc (.mk k name s (b :: vs)) := by
  obtain ⟨x, t, h1, h2, h3, h4, h5⟩ := ih
  obtain ⟨q1, q2⟩ := qvars hv
  have hop : op = cs!"exists" ∨ op = cs!"forall" := by
    have : ∀ k, (match form k with
      | .quant op => decide (op = cs!"exists" ∨ op = cs!"forall")
      | _ => true) = true := by intro k; cases k <;> rfl
    have := this k
    rw [hf] at this
    simpa using this
  have hot : Tok op := by rcases hop with rfl | rfl <;> exact plainB_tok (by decide +kernel)
  refine ⟨.list [.atom op, .list (vs.map varSexp), x], .mk (.quant op ds) [t], ?_, ⟨hot, q2, h2, trivial⟩, .quant hop q1 h3, ?_, ?_⟩
  · unfold sexpr
    rw [hf]
    exact flat_congr (by simp only [List.map_cons, sexprs, h1, List.tail_cons, List.take_succ_cons, List.take_zero])
  · simp [T.names, Tag.names, namesL, h4]
  · simp only [T.map, Tag.map, mapL, build, buildL]
    have : (List.map (fun v => (v.1, (Stands.var v.2 : Stands))) (List.map (fun v => (v.1, some v.2)) ds).reverse) = scopeOf ds := by
      simp only [scopeOf, ← List.map_reverse, List.map_map]; rfl
    rw [this, h5]
    simp only [Res.ok_bind, Res.pure_eq]
    exact hn

theorem view_call {name : List Char} {cs : List N} {n : N} (hs : sexpr n = .list (.atom name :: sexprs cs)) (hi : I.isFun name = true)
    (hw : Tok name) (hr : name ∉ reserved) (hf : fast.lookup name = none) (ih : ∀ c ∈ cs, View I decl sc c) (hn : I.apply name cs = .ok n) :
    View I decl sc n := by
  obtain ⟨xs, ts, k1, k2, k3, k4, k5⟩ := viewL ih
  refine ⟨.list (.atom name :: xs), .mk (.app name 0) ts, ?_, ⟨hw, k2⟩, .app hr k3, k4, ?_⟩
  · rw [hs]; exact reads_list k1
  · simp only [T.map, Tag.map, build, k5, Res.ok_bind, List.take_zero, List.drop_zero, callOper, List.isEmpty_nil, if_true, hf, parseOper,
      hi]
    exact hn

theorem buildL_append {as bs : List (T (Option D))} {xs ys : List N} (h1 : buildL I sc as = .ok xs) (h2 : buildL I sc bs = .ok ys) :
    buildL I sc (as ++ bs) = .ok (xs ++ ys) := by
  induction as generalizing xs with
  | nil => simp only [buildL, Res.ok.injEq] at h1; subst h1; exact h2
  | cons a as ih =>
    simp only [List.cons_append, buildL] at h1 ⊢
    cases ha : build I sc a with
    | ok x =>
      cases hb : buildL I sc as with
      | ok zs =>
        simp only [ha, hb, Res.ok_bind, Res.pure_eq, Res.ok.injEq] at h1
        subst h1
        simp only [ih hb, Res.ok_bind, Res.pure_eq, List.cons_append]
      | _ => simp only [ha, hb, Res.ok_bind] at h1; cases h1
    | _ => simp only [ha] at h1; cases h1
theorem buildL_length {as : List (T (Option D))} {xs : List N} (h1 : buildL I sc as = .ok xs) : as.length = xs.length := by
  induction as generalizing xs with
  | nil => simp only [buildL, Res.ok.injEq] at h1; subst h1; rfl
  | cons a as ih =>
    simp only [buildL] at h1
    cases ha : build I sc a with
    | ok x =>
      cases hb : buildL I sc as with
      | ok zs =>
        simp only [ha, hb, Res.ok_bind, Res.pure_eq, Res.ok.injEq] at h1
        subst h1
        simp only [List.length_cons, ih hb]
      | _ => simp only [ha, hb, Res.ok_bind] at h1; cases h1
    | _ => simp only [ha] at h1; cases h1
theorem view_indexedOp {op : List Char} {us vs : List N} {n : N}
    (hs : flat (sexpr n) = flat (.list (.list (.atom cs!"_" :: .atom op :: sexprs us) :: sexprs vs))) (hu : us ≠ []) (hw : Tok op)
    (hi : I.isFun op = false) (hr : op ≠ cs!"root-obj") (ih1 : ∀ c ∈ us, View I decl sc c) (ih2 : ∀ c ∈ vs, View I decl sc c)
    (hn : runCase I us vs (disp (getOperKind (String.ofList op))) = .ok n) : View I decl sc n := by
  obtain ⟨xs, ts, k1, k2, k3, k4, k5⟩ := viewL ih1
  obtain ⟨ys, ss, j1, j2, j3, j4, j5⟩ := viewL ih2
  refine ⟨.list (.list (.atom cs!"_" :: .atom op :: xs) :: ys), .mk (.app op ts.length) (ts ++ ss), ?_,
    ⟨⟨plainB_tok (by decide +kernel), hw, k2⟩, j2⟩, .indexed k3 j3, ?_, ?_⟩
  · rw [hs]
    exact flat_congr (by simp only [List.map_cons, j1, List.cons.injEq, and_true]; exact flat_congr (by simp only [List.map_cons, k1]))
  · simp only [T.names, Tag.names, namesL_append, k4, j4]; rfl
  · have hl : ts.length = us.length := by rw [← mapL_length some, buildL_length k5]
    simp only [T.map, Tag.map, build, mapL_append, buildL_append k5 j5, Res.ok_bind, hl, List.take_left, List.drop_left]
    have he : us.isEmpty = false := by cases us with
      | nil => exact absurd rfl hu
      | cons => rfl
    simp only [callOper, he, Bool.false_eq_true, if_false, parseOper, hi, if_neg hr]
    exact hn

theorem idx_table : ∀ k ∈ indexedOps, plainB (kindName k) = true ∧ kindName k ≠ cs!"root-obj" := by decide +kernel

theorem view_indexed (hI : Lawful I) {k : K} {name : List Char} {s : Srt} {cs : List N} (hk : k ∈ indexedOps) (ha : arity k cs.length = true)
    (ih : ∀ c ∈ cs, View I decl sc c) (hn : I.op k cs = .ok (.mk k name s cs)) : View I decl sc (.mk k name s cs) := by
  obtain ⟨t1, t2⟩ := idx_table k hk
  have one : ∀ c, c ∈ cs → ∀ d ∈ [c], View I decl sc d := by
    intro c hc d hd
    simp only [List.mem_singleton] at hd
    exact hd ▸ ih c hc
  simp only [indexedOps, List.mem_cons, List.not_mem_nil, or_false] at hk
  have l2 : cs.length = 2 → ∃ a b, cs = [a, b] := by
    intro h
    match cs, h with
    | [a, b], _ => exact ⟨a, b, rfl⟩
  have l3 : cs.length = 3 → ∃ a b c, cs = [a, b, c] := by
    intro h
    match cs, h with
    | [a, b, c], _ => exact ⟨a, b, c, rfl⟩
  rcases hk with rfl | rfl | rfl | rfl | rfl | rfl | rfl | rfl | rfl | rfl
  · obtain ⟨a, b, c, rfl⟩ := l3 (by simpa [arity] using ha)
    exact view_indexedOp (op := kindName .BV_EXTRACT) (us := [b, c]) (vs := [a]) rfl (by simp) (plainB_tok t1) (hI.noFun _) t2
      (fun d hd => ih d (by simp at hd ⊢; rcases hd with rfl | rfl <;> simp)) (one a (by simp)) hn
  · obtain ⟨a, b, c, rfl⟩ := l3 (by simpa [arity] using ha)
    exact view_indexedOp (op := kindName .REG_LOOP) (us := [b, c]) (vs := [a]) rfl (by simp) (plainB_tok t1) (hI.noFun _) t2
      (fun d hd => ih d (by simp at hd ⊢; rcases hd with rfl | rfl <;> simp)) (one a (by simp)) hn
  · obtain ⟨a, b, rfl⟩ := l2 (by simpa [arity] using ha)
    exact view_indexedOp (op := kindName .BV_REPEAT) (us := [b]) (vs := [a]) rfl (by simp) (plainB_tok t1) (hI.noFun _) t2
      (one b (by simp)) (one a (by simp)) hn
  · obtain ⟨a, b, rfl⟩ := l2 (by simpa [arity] using ha)
    exact view_indexedOp (op := kindName .BV_ZERO_EXT) (us := [b]) (vs := [a]) rfl (by simp) (plainB_tok t1) (hI.noFun _) t2
      (one b (by simp)) (one a (by simp)) hn
  · obtain ⟨a, b, rfl⟩ := l2 (by simpa [arity] using ha)
    exact view_indexedOp (op := kindName .BV_SIGN_EXT) (us := [b]) (vs := [a]) rfl (by simp) (plainB_tok t1) (hI.noFun _) t2
      (one b (by simp)) (one a (by simp)) hn
  · obtain ⟨a, b, rfl⟩ := l2 (by simpa [arity] using ha)
    exact view_indexedOp (op := kindName .BV_ROTATE_LEFT) (us := [b]) (vs := [a]) rfl (by simp) (plainB_tok t1) (hI.noFun _) t2
      (one b (by simp)) (one a (by simp)) hn
  · obtain ⟨a, b, rfl⟩ := l2 (by simpa [arity] using ha)
    exact view_indexedOp (op := kindName .BV_ROTATE_RIGHT) (us := [b]) (vs := [a]) rfl (by simp) (plainB_tok t1) (hI.noFun _) t2
      (one b (by simp)) (one a (by simp)) hn
  · obtain ⟨a, b, c, rfl⟩ := l3 (by simpa [arity] using ha)
    exact view_indexedOp (op := kindName .FP_TO_UBV) (us := [c]) (vs := [a, b]) rfl (by simp) (plainB_tok t1) (hI.noFun _) t2
      (one c (by simp)) (fun d hd => ih d (by simp at hd ⊢; rcases hd with rfl | rfl <;> simp)) hn
  · obtain ⟨a, b, c, rfl⟩ := l3 (by simpa [arity] using ha)
    exact view_indexedOp (op := kindName .FP_TO_SBV) (us := [c]) (vs := [a, b]) rfl (by simp) (plainB_tok t1) (hI.noFun _) t2
      (one c (by simp)) (fun d hd => ih d (by simp at hd ⊢; rcases hd with rfl | rfl <;> simp)) hn
  · simp only [arity, Bool.or_eq_true, beq_iff_eq] at ha
    rcases ha with ha | ha
    · obtain ⟨a, b, c, rfl⟩ := l3 ha
      exact view_indexedOp (op := kindName .FP_TO_FP) (us := [a, b]) (vs := [c]) rfl (by simp) (plainB_tok t1) (hI.noFun _) t2
        (fun d hd => ih d (by simp at hd ⊢; rcases hd with rfl | rfl <;> simp)) (one c (by simp)) hn
    · match cs, ha with
      | [a, b, c, e], _ =>
        exact view_indexedOp (op := kindName .FP_TO_FP) (us := [a, b]) (vs := [c, e]) rfl (by simp) (plainB_tok t1) (hI.noFun _) t2
          (fun d hd => ih d (by simp at hd ⊢; rcases hd with rfl | rfl <;> simp))
          (fun d hd => ih d (by simp at hd ⊢; rcases hd with rfl | rfl <;> simp)) hn

theorem view_made (hI : Lawful I) {n : N} (h : Made I decl sc n) : View I decl sc n := by
  induction h with
  | word h1 h2 h3 => exact view_word h1 h2 h3
  | neg h1 h2 h3 h4 => exact view_neg hI h1 h2 h3 h4
  | parts h1 _ h3 ih => exact view_parts h1 ih h3
  | special h1 h2 h3 h4 h5 => exact view_special h1 h2 h3 h4 h5
  | app h1 _ h3 ih => exact view_app hI h1 ih h3
  | indexed h1 h2 _ h4 ih => exact view_indexed hI h1 h2 ih h4
  | constArr h1 h2 _ h4 ih => exact view_constArr h1 h2 ih h4
  | quant h1 h2 _ h4 ih => exact view_quant h1 h2 ih h4
  | @call sc k name s b cs h1 h2 h3 h4 h5 h6 _ h8 ih =>
    refine view_call (cs := cs) ?_ h3 h4 h5 h6 ih h8
    unfold sexpr
    rw [h1]
    cases cs with
    | nil => exact absurd rfl h2
    | cons => rfl
  | @ufCall sc k name s cs h1 h2 h3 h4 h5 h6 _ h8 ih =>
    refine view_call (cs := cs) ?_ h3 h4 h5 h6 ih h8
    unfold sexpr
    rw [h1]
    cases cs with
    | nil => exact absurd rfl h2
    | cons => rfl

/-- **C41, printing and reading back gives the node**: for every expression, of any depth, built by its constructors from printable parts,
the printed text is read, and the constructors called while reading it return the same node.  This holds whatever the sorts read before, with
and without preserving lets. -/
theorem round_trip_partial (pres : Bool) (I : Ctors) (hI : Lawful I) {decl : Decl} (hg : GoodDecl decl) (p : P)
    (hk : Keys decl p.keys) (hp : p.ph = false) {n : N} (hw : WF n) (hm : Made I decl [] n) :
    ∃ (s : List Char) (t : T Srt) (q : P) (f : Nat), (∀ m, f ≤ m → dump m n = .ok s) ∧ (∀ m, f ≤ m → mkExpr pres m p s = .ok (t, q)) ∧
      build I [] (t.map sortOf) = .ok n := by
  obtain ⟨x, t, h1, h2, h3, h4, h5⟩ := view_made hI hm
  obtain ⟨k, hd⟩ := print_exact_partial hw
  have hr : SepX false x [] := by
    cases x with
    | list _ => trivial
    | atom a =>
      show Sep false a []
      unfold Sep
      split
      · trivial
      · simp
      · rfl
  obtain ⟨t', q, f, e1, e2⟩ := mkExpr_reads_partial pres (g := []) (r := []) (p := p) hg hk (by rw [hp]; exact h3) (by rw [h4]; exact List.nodup_nil)
    (by rw [h4]; intro n hn; cases hn) .nil (lay_flat false h2) hr
  refine ⟨flat (sexpr n), t', q, max k f, fun m hm => hd m (by omega), fun m hm => ?_, ?_⟩
  · have := e2 m (by omega)
    simpa [h1] using this
  · rw [e1]
    exact h5

end SMT.Parse
