import Verif.Parse.Model
import Verif.Lex.Props
import Verif.Sort.Props
import Verif.Text.Sexp

/-!
# Specification of reading (C41, C52, C53)

* `Lay x s`: the text `s` is the S-expression `x`, laid out with any white space and comments between its words.
* `SortOf x d`: the S-expression `x` is the SMT-LIB sort `d`.
* `Reads x t`: the S-expression `x` is the term `t`; a term is a tree of operators with their operands.
-/

namespace SMT.Parse
open SMT SMT.Text SMT.Lex SMT.Sorts

/-! ## Layout -/

/-- the words: symbols without delimiters (and that do not look like a decimal followed by `e`), quoted symbols, strings -/
inductive Tok : List Char → Prop where
  | plain {w} : w ≠ [] → (∀ c ∈ w, isDelim c = false) → NoSci w → Tok w
  | quoted {b} : '|' ∉ b → Tok ('|' :: (b ++ ['|']))
  | str {b} : StrBody b → Tok ('"' :: (b ++ ['"']))

/-- what may follow a plain symbol: a blank, a line end or a parenthesis, or the end of the text, when it is not a file -/
def SepPlain (file : Bool) : List Char → Prop
  | [] => file = false
  | d :: _ => isBlank d = true ∨ isNl d = true ∨ d = '(' ∨ d = ')'

/-- what may follow a word; after a string anything but a quotation mark -/
def Sep (file : Bool) (a r : List Char) : Prop :=
  match a.head? with
  | some '|' => True
  | some '"' => r.head? ≠ some '"'
  | _ => SepPlain file r

/-- what may follow an S-expression -/
def SepX (file : Bool) : Sexp → List Char → Prop
  | .atom a, r => Sep file a r
  | .list _, _ => True

mutual
/-- the text is the S-expression -/
inductive Lay (file : Bool) : Sexp → List Char → Prop where
  | atom {a} : Tok a → Lay file (.atom a) a
  | list {xs g b} : Skip g → LayL file xs b → Lay file (.list xs) ('(' :: (g ++ (b ++ [')'])))
/-- the text is the S-expressions one after the other, with gaps behind them; the text is followed by a closing parenthesis -/
inductive LayL (file : Bool) : List Sexp → List Char → Prop where
  | nil : LayL file [] []
  | cons {x xs tx g b} : Lay file x tx → Skip g → LayL file xs b → SepX file x (g ++ (b ++ [')'])) → LayL file (x :: xs) (tx ++ (g ++ b))
end

/-! ## Sorts -/

/-- a numeral that fits into an `int` -/
def Num31 (ds : List Char) : Prop := ds ≠ [] ∧ (∀ c ∈ ds, c.isDigit = true) ∧ undec ds < 2 ^ 31

/-- the sorts known by name: a declared sort stands for itself, a defined one for its definition -/
abbrev Decl := List (List Char × D)

/-- their names -/
def declNames (decl : Decl) : List (List Char) := decl.map fun x => x.1

/-- the sorts, as they may be written; `decl` are the declared and defined sorts -/
inductive SortOf (decl : Decl) : Sexp → D → Prop where
  | bool : SortOf decl (.atom cs!"Bool") .bool
  | int : SortOf decl (.atom cs!"Int") .int
  | real : SortOf decl (.atom cs!"Real") .real
  | str : SortOf decl (.atom cs!"String") .str
  | rm : SortOf decl (.atom cs!"RoundingMode") .rm
  | regLan : SortOf decl (.atom cs!"RegLan") .reg
  | reg : SortOf decl (.atom cs!"Reg") .reg
  | regEx : SortOf decl (.atom cs!"RegEx") .reg
  | regOf {x} : SortOf decl x .str → SortOf decl (.list [.atom cs!"RegEx", x]) .reg
  | float16 : SortOf decl (.atom cs!"Float16") (.fp 5 11)
  | float32 : SortOf decl (.atom cs!"Float32") (.fp 8 24)
  | float64 : SortOf decl (.atom cs!"Float64") (.fp 11 53)
  | bv {w} : Num31 w → SortOf decl (.list [.atom cs!"_", .atom cs!"BitVec", .atom w]) (.bv (undec w))
  | fp {e s} : Num31 e → Num31 s →
      SortOf decl (.list [.atom cs!"_", .atom cs!"FloatingPoint", .atom e, .atom s]) (.fp (undec e) (undec s))
  | array {x y i e} : SortOf decl x i → SortOf decl y e → SortOf decl (.list [.atom cs!"Array", x, y]) (.array i e)
  | named {n d} : (n, d) ∈ decl → SortOf decl (.atom n) d

/-- the sort that a sort object stands for -/
def sortOf : Srt → Option D
  | .mk .BOOL _ _ _ => some .bool
  | .mk .INT _ _ _ => some .int
  | .mk .REAL _ _ _ => some .real
  | .mk .STR _ _ _ => some .str
  | .mk .REG _ _ _ => some .reg
  | .mk .ROUNDING_MODE _ _ _ => some .rm
  | .mk .BV _ _ [w] => some (.bv w.arity)
  | .mk .FP _ _ [e, s] => some (.fp e.arity s.arity)
  | .mk .ARRAY _ _ [i, e] =>
    match sortOf i, sortOf e with
    | some i, some e => some (.array i e)
    | _, _ => none
  | .mk .DEC n _ _ => some (.named n)
  | _ => none

/-- the sort uses declared names only -/
def Over (decl : Decl) : D → Prop
  | .named n => (n, D.named n) ∈ decl
  | .array i e => Over decl i ∧ Over decl e
  | _ => True

/-- the names of declared and defined sorts that the sort table can tell apart: no built-in names, none of the names the table uses for
itself, and no two array sorts with the same entry; definitions use declared sorts only -/
structure GoodDecl (decl : Decl) : Prop where
  notBasic : ∀ n ∈ declNames decl, basicSorts.lookup n = none
  notKey : ∀ n ∈ declNames decl, ¬ cs!"BV_" <+: n ∧ ¬ cs!"FP_" <+: n ∧ ¬ cs!"ARRAY_" <+: n
  unamb : ∀ i e i' e', Over decl i → Over decl e → Over decl i' → Over decl e' →
    text i ++ '_' :: text e = text i' ++ '_' :: text e' → i = i' ∧ e = e'
  closed : ∀ n d, (n, d) ∈ decl → Over decl d

/-- the sort table knows the declared and defined sorts, and otherwise has only entries made by reading sorts -/
structure Keys (decl : Decl) (keys : List (List Char × Srt)) : Prop where
  known : ∀ n d, (n, d) ∈ decl → ∃ s, keys.lookup n = some s ∧ Denotes s d
  entries : ∀ k s, keys.lookup k = some s →
    (k ∈ declNames decl) ∨
    (∃ w, k = cs!"BV_" ++ w ∧ Num31 w ∧ s = bvSort (undec w)) ∨
    (∃ e m, k = cs!"FP_" ++ e ++ cs!"_" ++ m ∧ Num31 e ∧ Num31 m ∧ s = fpSort cs!"FP" (undec e) (undec m)) ∨
    (∃ i e di de, k = cs!"ARRAY_" ++ print i ++ cs!"_" ++ print e ∧ Denotes i di ∧ Denotes e de ∧ Over decl di ∧ Over decl de ∧
      s = arraySort i e)

/-! ## Terms -/

/-- the heads with a meaning of their own -/
def reserved : List (List Char) :=
  [cs!"exists", cs!"forall", cs!"_", cs!"fp", cs!"let", cs!"!", cs!"root-of-with-interval", cs!"root-obj", cs!"real_algebraic_number"]

/-- the special floating-point values -/
def fpNames : List (List Char) := [cs!"+zero", cs!"-zero", cs!"+oo", cs!"-oo", cs!"NaN", cs!"+NaN", cs!"-NaN"]

/-- the identifiers `(_ g ...)` with a meaning of their own -/
def reservedId (g : List Char) : Prop :=
  cs!"bv" <+: g ∨ g ∈ fpNames ∨ g ∈ [cs!"as-array", cs!"real_algebraic_number", cs!"root-obj", cs!"root-of-with-interval"]

/-- a numeral that fits into an `unsigned long` -/
def Num64 (ds : List Char) : Prop := ds ≠ [] ∧ (∀ c ∈ ds, c.isDigit = true) ∧ undec ds < 2 ^ 64

/-- the variables of a quantifier -/
inductive Vars (decl : Decl) : List Sexp → List (List Char × D) → Prop where
  | nil : Vars decl [] []
  | cons {x s d xs vs} : SortOf decl s d → Vars decl xs vs → Vars decl (.list [.atom x, s] :: xs) ((x, d) :: vs)

mutual
/-- the S-expression is the term; `ph` says whether unknown symbols are placeholders -/
inductive Reads (decl : Decl) (ph : Bool) : Sexp → T D → Prop where
  /-- a symbol or a literal -/
  | sym {a} : Reads decl ph (.atom a) (.mk (.sym a ph) [])
  /-- `(op x1 ... xn)` -/
  | app {op xs ts} : op ∉ reserved → ReadsL decl ph xs ts → Reads decl ph (.list (.atom op :: xs)) (.mk (.app op 0) ts)
  /-- `((_ op i1 ... ik) x1 ... xn)` -/
  | indexed {g is xs us ts} : ReadsL decl ph is us → ReadsL decl ph xs ts →
      Reads decl ph (.list (.list (.atom cs!"_" :: .atom g :: is) :: xs)) (.mk (.app g us.length) (us ++ ts))
  /-- `(_ op x1 ... xn)` is read as `(op x1 ... xn)` -/
  | under {g xs ts} : ¬ reservedId g → ReadsL decl ph xs ts →
      Reads decl ph (.list (.atom cs!"_" :: .atom g :: xs)) (.mk (.app g 0) ts)
  /-- `(_ bvN w)` -/
  | bv {n w} : Num64 w → Reads decl ph (.list [.atom cs!"_", .atom (cs!"bv" ++ n), .atom w]) (.mk (.bv n (undec w)) [])
  /-- `(_ +oo e s)` -/
  | fpc {g e s} : g ∈ fpNames → Num64 e → Num64 s →
      Reads decl ph (.list [.atom cs!"_", .atom g, .atom e, .atom s]) (.mk (.fpc g (undec e) (undec s)) [])
  /-- `(_ as-array f)` -/
  | asArray {a} : Reads decl ph (.list [.atom cs!"_", .atom cs!"as-array", .atom a]) (.mk (.asArray a) [])
  /-- `(fp s e m)` -/
  | fp {xs ts} : xs.length = 3 → ReadsL decl ph xs ts → Reads decl ph (.list (.atom cs!"fp" :: xs)) (.mk .fp ts)
  /-- `((as const S) v)` -/
  | constArr {s d v t} : SortOf decl s d → Reads decl ph v t →
      Reads decl ph (.list [.list [.atom cs!"as", .atom cs!"const", s], v]) (.mk (.constArr d) [t])
  /-- `(forall ((x S) ...) body)` -/
  | quant {h xs vs b t} : h = cs!"exists" ∨ h = cs!"forall" → Vars decl xs vs → Reads decl ph b t →
      Reads decl ph (.list [.atom h, .list xs, b]) (.mk (.quant h vs) [t])
  /-- `(let ((x v) ...) body)` -/
  | lets {bs ns vs b t} : ReadsB decl ph bs ns vs → Reads decl ph b t →
      Reads decl ph (.list [.atom cs!"let", .list bs, b]) (.mk (.lets ns) (vs ++ [t]))
  /-- `(! t)` -/
  | plain {b t} : Reads decl ph b t → Reads decl ph (.list [.atom cs!"!", b]) (.mk (.named none) [t])
  /-- `(! t :named a)` -/
  | named {b t a} : Reads decl ph b t →
      Reads decl ph (.list [.atom cs!"!", b, .atom cs!":named", .atom a]) (.mk (.named (some a)) [t])
  /-- `(root-of-with-interval (coeffs c1 ... cn) l u)` -/
  | rootInt {a cs us xs ts} : ReadsL decl ph cs us → xs.length = 2 → ReadsL decl ph xs ts →
      Reads decl ph (.list (.atom cs!"root-of-with-interval" :: .list (.atom a :: cs) :: xs)) (.mk .rootInt (us ++ ts))
/-- a list of S-expressions is a list of terms -/
inductive ReadsL (decl : Decl) (ph : Bool) : List Sexp → List (T D) → Prop where
  | nil : ReadsL decl ph [] []
  | cons {x xs t ts} : Reads decl ph x t → ReadsL decl ph xs ts → ReadsL decl ph (x :: xs) (t :: ts)
/-- a list of bindings `(x v)`: the names and the values -/
inductive ReadsB (decl : Decl) (ph : Bool) : List Sexp → List (List Char) → List (T D) → Prop where
  | nil : ReadsB decl ph [] [] []
  | cons {n x xs t ns ts} : Reads decl ph x t → ReadsB decl ph xs ns ts →
      ReadsB decl ph (.list [.atom n, x] :: xs) (n :: ns) (t :: ts)
end

/-- the sorts replaced -/
def Tag.map {σ τ : Type} (f : σ → τ) : Tag σ → Tag τ
  | .sym s ph => .sym s ph
  | .app op n => .app op n
  | .quant h vs => .quant h (vs.map fun v => (v.1, f v.2))
  | .lets ns => .lets ns
  | .bv n w => .bv n w
  | .fpc w e s => .fpc w e s
  | .fp => .fp
  | .constArr s => .constArr (f s)
  | .asArray a => .asArray a
  | .named a => .named a
  | .rootObj i => .rootObj i
  | .rootInt => .rootInt
  | .ran => .ran

mutual
/-- the sorts replaced -/
def T.map {σ τ : Type} (f : σ → τ) : T σ → T τ
  | .mk g cs => .mk (g.map f) (mapL f cs)
/-- the sorts replaced in a list -/
def mapL {σ τ : Type} (f : σ → τ) : List (T σ) → List (T τ)
  | [] => []
  | t :: ts => t.map f :: mapL f ts
end

/-- the names bound by a node -/
def Tag.names {σ : Type} : Tag σ → List (List Char)
  | .lets ns => ns
  | _ => []

mutual
/-- the names bound by lets in a term -/
def T.names {σ : Type} : T σ → List (List Char)
  | .mk g cs => g.names ++ namesL cs
/-- the names bound by lets in a list of terms -/
def namesL {σ : Type} : List (T σ) → List (List Char)
  | [] => []
  | t :: ts => t.names ++ namesL ts
end

/-- the tree of calls is the term, its sort objects standing for the sorts of the term -/
def Same (t : T Srt) (u : T D) : Prop := t.map sortOf = u.map some

end SMT.Parse
