import Verif.Parse.Spec
import Verif.Term.Spec
import Verif.Script.Spec
import Verif.Mean.BvSpec
import Verif.Mean.ArSpec
import Verif.Mean.StrSpec

/-!
# What a written term means (C79, C80, C83, C84)

`Means ρ G Δ e v`: the term `e`, as it is written, has the value `v` under the assignment `ρ`, where `G` says which constants and functions
are declared and `Δ` gives the values of the names bound by the lets around `e`.  This is the semantics of SMT-LIB for the core theory, linear
and nonlinear arithmetic (`Verif.Mean.ArSpec`), bit-vectors (`Verif.Mean.BvSpec`), strings (`Verif.Mean.StrSpec`), declared functions and (parallel) lets; it knows nothing of
the parser.
-/

namespace SMT.Mean
open SMT SMT.Text SMT.Sorts SMT.Parse

/-- the sorts of SMT-LIB that are covered -/
inductive SortIs : D → SMT.Srt → Prop where
  | bool : SortIs .bool .bool
  | int : SortIs .int .int
  | real : SortIs .real .real
  | str : SortIs .str .str
  | bv {w} : SortIs (.bv w) (.bv w)

/-- the declared constants and functions (with the sorts of their parameters and of their value); a function is named by its place -/
structure Sig where
  vars : List (List Char × D)
  funs : List (List Char × List D × D)

/-- a numeral or a decimal, and its value -/
inductive Literal : List Char → Rat → Prop where
  | num {ds} : Tok.Digits ds → Literal ds (undec ds)
  | dec {ds es} : Tok.Digits ds → Tok.Digits es → Literal (ds ++ '.' :: es) (undec ds + undec es / ((10 ^ es.length : Nat) : Rat))

/-- the operators of SMT-LIB's core theory and of arithmetic; `-` with one operand is apart -/
def opTable : List (List Char × Kind) := [
  (cs!"not", .not), (cs!"and", .and), (cs!"or", .or), (cs!"xor", .xor), (cs!"=>", .implies), (cs!"=", .eq), (cs!"distinct", .distinct),
  (cs!"ite", .ite), (cs!"+", .add), (cs!"-", .sub), (cs!"*", .mul), (cs!"<=", .le), (cs!"<", .lt), (cs!">=", .ge), (cs!">", .gt)]

mutual
/-- the written term has the value -/
inductive Means (ρ : Env) (G : Sig) : List (List Char × Val) → T D → Val → Prop where
  | tru {Δ ph} : Means ρ G Δ (.mk (.sym cs!"true" ph) []) (.b true)
  | fls {Δ ph} : Means ρ G Δ (.mk (.sym cs!"false" ph) []) (.b false)
  /-- a name bound by a let -/
  | bound {Δ s ph v} : s ≠ cs!"true" → s ≠ cs!"false" → Δ.lookup s = some v → Means ρ G Δ (.mk (.sym s ph) []) v
  /-- a declared constant -/
  | var {Δ s ph d σ v} : s ≠ cs!"true" → s ≠ cs!"false" → Δ.lookup s = none → G.vars.lookup s = some d → SortIs d σ →
      ρ.var .var σ (String.ofList s) = v → v.hasSort σ = true → Means ρ G Δ (.mk (.sym s ph) []) v
  /-- a numeral or a decimal -/
  | lit {Δ s ph q} : Δ.lookup s = none → G.vars.lookup s = none → Literal s q → Means ρ G Δ (.mk (.sym s ph) []) (.n q)
  /-- an operator -/
  | op {Δ o k ts vs v} : (o, k) ∈ opTable → MeansL ρ G Δ ts vs → apply ρ k .bool vs = some v → Means ρ G Δ (.mk (.app o 0) ts) v
  /-- a binary bit-vector constant -/
  | bin {Δ w ph} (x : BitVec w) : Wd w → Δ.lookup (BV.lit x) = none → G.vars.lookup (BV.lit x) = none →
      G.vars.lookup ('|' :: BV.lit x ++ ['|']) = none → Means ρ G Δ (.mk (.sym (BV.lit x) ph) []) (bvVal x)
  /-- a hexadecimal bit-vector constant -/
  | hex {Δ ds ph} : ds ≠ [] → (∀ c ∈ ds, c ∈ hexChars) → Wd (4 * ds.length) → Δ.lookup ('#' :: 'x' :: ds) = none →
      G.vars.lookup ('#' :: 'x' :: ds) = none → G.vars.lookup ('|' :: ('#' :: 'x' :: ds) ++ ['|']) = none →
      Means ρ G Δ (.mk (.sym ('#' :: 'x' :: ds) ph) []) (bvVal (BitVec.ofNat (4 * ds.length) (hexVal ds)))
  /-- `(_ bvN w)` -/
  | bvn {Δ w ds} : Wd w → Tok.Digits ds → Means ρ G Δ (.mk (.bv ds w) []) (bvVal (BitVec.ofNat w (undec ds)))
  /-- a bit-vector operator, for assignments that give these operators their meaning -/
  | bv {Δ o n ts vs v} : Interprets ρ → MeansL ρ G Δ ts vs → BvApp o n vs v → Means ρ G Δ (.mk (.app o n) ts) v
  /-- division, remainder, absolute value and conversions, for assignments that give these operators their meaning -/
  | ar {Δ o ts vs v} : InterpretsAr ρ → MeansL ρ G Δ ts vs → ArApp o vs v ∨ ByZero ρ o vs v → Means ρ G Δ (.mk (.app o 0) ts) v
  /-- a string literal of printable characters without quotation marks and backslashes -/
  | str {Δ s ph} : (∀ c ∈ s, Str.Plain c) → Δ.lookup (Str.quote s) = none → G.vars.lookup (Str.quote s) = none →
      G.vars.lookup ('|' :: Str.quote s ++ ['|']) = none → Means ρ G Δ (.mk (.sym (Str.quote s) ph) []) (strVal s)
  /-- an operator on strings, for assignments that give these operators their meaning -/
  | st {Δ o ts vs v} : InterpretsStr ρ → MeansL ρ G Δ ts vs → StrApp o vs v → Means ρ G Δ (.mk (.app o 0) ts) v
  /-- `(- t)` -/
  | neg {Δ t q} : Means ρ G Δ t (.n q) → Means ρ G Δ (.mk (.app cs!"-" 0) [t]) (.n (-q))
  /-- a declared function -/
  | fn {Δ f i ds d σ ts vs v} : G.funs[i]? = some (f, ds, d) → SortIs d σ → MeansL ρ G Δ ts vs → vs.length = ds.length →
      ρ.fn (.uf i) σ vs = some v → v.hasSort σ = true → Means ρ G Δ (.mk (.app f 0) ts) v
  /-- `(let ((n1 t1) ...) b)`: the values of the `ti` are taken outside of the let -/
  | lets {Δ ns ts b xs v} : ns.length = ts.length → MeansL ρ G Δ ts xs → Means ρ G (ns.zip xs ++ Δ) b v →
      Means ρ G Δ (.mk (.lets ns) (ts ++ [b])) v
  /-- `(! t :named a)` -/
  | named {Δ a t v} : Means ρ G Δ t v → Means ρ G Δ (.mk (.named a) [t]) v
/-- a list of written terms has the values -/
inductive MeansL (ρ : Env) (G : Sig) : List (List Char × Val) → List (T D) → List Val → Prop where
  | nil {Δ} : MeansL ρ G Δ [] []
  | cons {Δ t ts v vs} : Means ρ G Δ t v → MeansL ρ G Δ ts vs → MeansL ρ G Δ (t :: ts) (v :: vs)
end

/-! ## The terms of the theorem -/

/-- the relations -/
def relations : List (List Char) := [cs!"=", cs!"distinct", cs!"<=", cs!"<", cs!">=", cs!">"]

mutual
/-- A declared constant, an application of a declared function, or an operator of those tables with such an operand: the node is not a
constant. -/
def Varies (G : Sig) : T D → Prop
  | .mk (.sym s _) _ => s ≠ cs!"true" ∧ s ≠ cs!"false" ∧ G.vars.lookup s ≠ none
  | .mk (.app o n) ts => (∃ f ∈ G.funs, f.1 = o) ∨ ((∃ k, (o, k) ∈ bvTable ++ (arTable ++ strTable)) ∧ VariesL G n ts)
  | _ => False
/-- one of the terms after the first `n` -/
def VariesL (G : Sig) : Nat → List (T D) → Prop
  | n + 1, _ :: ts => VariesL G n ts
  | 0, t :: ts => Varies G t ∨ VariesL G 0 ts
  | _, [] => False
end

/-- a numeral that is not declared -/
def Numeral (G : Sig) (t : T D) : Prop := ∃ s ph, t = .mk (.sym s ph) [] ∧ Tok.Digits s ∧ G.vars.lookup s = none

/-- the sort of the value of an operator -/
def resTable : List (List Char × D) := [(cs!"div", .int), (cs!"mod", .int), (cs!"to_int", .int), (cs!"/", .real), (cs!"to_real", .real),
  (cs!"str.len", .int), (cs!"str.indexof", .int), (cs!"str.to_int", .int), (cs!"str.to_code", .int)]

/-- the operators whose constants are computed wrongly or rounded, on some or all of them -/
def foldOps : List (List Char) := [cs!"div", cs!"mod", cs!"/", cs!"to_real", cs!"to_int", cs!"is_int"]

/-- a declared constant, a decimal, or an application of a declared function or of an operator with values of this sort, if it is not an
operation on constants only (its result may be written as a numeral) -/
def Strictly (G : Sig) (d : D) : T D → Prop
  | .mk (.sym s _) _ => s ≠ cs!"true" ∧ s ≠ cs!"false" ∧
      (G.vars.lookup s = some d ∨ (G.vars.lookup s = none ∧ d = .real ∧ '.' ∈ s ∧ ∃ q, Literal s q))
  | .mk (.app o _) ts => (∃ f ∈ G.funs, f.1 = o ∧ f.2.2 = d) ∨ ((o, d) ∈ resTable ∧ (o ∈ foldOps → VariesL G 0 ts))
  | _ => False

/-- one of the terms is strictly of the sort -/
def AnyStrictly (G : Sig) (d : D) : List (T D) → Prop
  | t :: ts => Strictly G d t ∨ AnyStrictly G d ts
  | [] => False

mutual
/-- The written term is of the sort `d` (`Int` or `Real`), and can be seen to be: it is a declared constant, a literal, an application of a declared
function or of an operator with values of this sort, or an `ite`, `abs`, sum, difference or product of such terms.  Numerals count as both
sorts; sums and products of integers are left out if there are `reals`, and those of reals have an operand that is strictly `Real`. -/
def OfSort (G : Sig) (reals : Bool) (d : D) : T D → Prop
  | .mk (.sym s ph) ts => Strictly G d (.mk (.sym s ph) ts) ∨ (Tok.Digits s ∧ G.vars.lookup s = none)
  | .mk (.app o n) ts => Strictly G d (.mk (.app o n) ts) ∨ (o, d) ∈ resTable ∨ (o = cs!"ite" ∧ OfSortL G reals d 1 ts) ∨
      (o = cs!"abs" ∧ OfSortL G reals d 0 ts) ∨ (o = cs!"-" ∧ ts.length = 1 ∧ OfSortL G reals d 0 ts) ∨
      (o ∈ [cs!"+", cs!"-", cs!"*"] ∧ OfSortL G reals d 0 ts ∧ (d = .int → reals = false) ∧ (d = .real → AnyStrictly G d ts))
  | _ => False
/-- all the terms after the first `n` -/
def OfSortL (G : Sig) (reals : Bool) (d : D) : Nat → List (T D) → Prop
  | n + 1, _ :: ts => OfSortL G reals d n ts
  | 0, t :: ts => OfSort G reals d t ∧ OfSortL G reals d 0 ts
  | _, [] => True
end

/-- a string literal of plain characters, a numeral below 2^64, or such an operator applied to such terms -/
inductive RightLit (G : Sig) : T D → Prop where
  | str {s ph} : (∀ c ∈ s, Str.Plain c) → G.vars.lookup (Str.quote s) = none → RightLit G (.mk (.sym (Str.quote s) ph) [])
  | num {ds ph} : Tok.Digits ds → G.vars.lookup ds = none → undec ds < 2 ^ 64 → RightLit G (.mk (.sym ds ph) [])
  | app {o ts} : o ∈ strRight → (∀ t ∈ ts, RightLit G t) → RightLit G (.mk (.app o 0) ts)

/-- The operator is computed rightly on these operands without constants: `str.at` at a position up to the end of a literal, `str.replace_all`
with a literal as its pattern that is not empty. -/
def FoldsRight (G : Sig) (o : List Char) (ts : List (T D)) : Prop :=
  o ∈ strRight ∧ (∀ t ∈ ts, RightLit G t) ∧
    (o = cs!"str.at" → ∃ s p ds q, ts = [.mk (.sym (Str.quote s) p) [], .mk (.sym ds q) []] ∧ Tok.Digits ds ∧ undec ds ≤ s.length) ∧
    (o = cs!"str.replace_all" → ∃ a s p b, ts = [a, .mk (.sym (Str.quote s) p) [], b] ∧ s ≠ [])

/-- a literal, perhaps with `-` before it, of this value -/
inductive RatLit (G : Sig) : T D → Rat → Prop where
  | lit {s ph q} : Literal s q → G.vars.lookup s = none → RatLit G (.mk (.sym s ph) []) q
  | neg {t q} : RatLit G t q → RatLit G (.mk (.app cs!"-" 0) [t]) (-q)

/-- The operator is computed rightly on these constants: numerals (a divisor that is not zero, `to_real` only if there are `reals`), and
literals with or without a sign and with a quotient between -2^31 and 2^31 if there are `reals`. -/
def FoldsRightAr (G : Sig) (reals : Bool) (o : List Char) (ts : List (T D)) : Prop :=
  (o ∈ arRight ∧ (∀ t ∈ ts, Numeral G t) ∧ (o = cs!"to_real" → reals = true) ∧
    (o = cs!"div" ∨ o = cs!"mod" → ∀ s ph, .mk (.sym s ph) [] ∈ ts.drop 1 → undec s ≠ 0)) ∨
  (o = cs!"/" ∧ reals = true ∧ ∃ a x b y, ts = [a, b] ∧ RatLit G a x ∧ RatLit G b y ∧ (y = 0 ∨ (-2 ^ 31 < x / y ∧ x / y < 2 ^ 31)))

/-- a bit-vector constant of this value -/
inductive BvLit (G : Sig) : T D → {w : Nat} → BitVec w → Prop where
  | bin {w ph} (x : BitVec w) : G.vars.lookup (BV.lit x) = none → BvLit G (.mk (.sym (BV.lit x) ph) []) x
  | hex {ds ph} : G.vars.lookup ('#' :: 'x' :: ds) = none → BvLit G (.mk (.sym ('#' :: 'x' :: ds) ph) []) (BitVec.ofNat (4 * ds.length) (hexVal ds))

/-- the operator is computed rightly on these two bit-vector constants -/
def FoldsRightBv (G : Sig) (o : List Char) (ts : List (T D)) : Prop :=
  ∃ (w : Nat) (x y : BitVec w) (a b : T D), ts = [a, b] ∧ BvLit G a x ∧ BvLit G b y ∧ BvRight o x y

/-- at one node: relations have two operands; sums and products only if `arith`; an operator that is computed wrongly on constants has
another operand than constants or is computed rightly on these; indices are numerals; no operator whose nodes have the wrong width -/
def Tag.fits (G : Sig) (arith reals : Bool) (ts : List (T D)) : Tag D → Prop
  | .app o n => (o ∈ relations → ts.length = 2) ∧ (o = cs!"+" ∨ o = cs!"*" → arith = true) ∧
      (o ∈ wrongFold ++ (foldOps ++ strFolds) → VariesL G 0 ts ∨ FoldsRight G o ts ∨ FoldsRightAr G reals o ts ∨ FoldsRightBv G o ts) ∧
      (∀ t ∈ ts.take n, Numeral G t) ∧ o ∉ wrongWidth
  | _ => True

/-- at one node: a decimal only if `reals`; operators on integers and on reals have operands that can be seen to be of their sort -/
def Tag.reals (G : Sig) (reals : Bool) (ts : List (T D)) : Tag D → Prop
  | .sym s _ => '.' ∈ s → reals = true
  | .app o _ => (o ∈ intOps → OfSortL G reals .int 0 ts) ∧ (o ∈ realOps → OfSortL G reals .real 0 ts) ∧
      ∀ n, (o, n) ∈ strInts → OfSortL G reals .int n ts
  | _ => True

mutual
/-- the same at all nodes -/
def Fits (G : Sig) (arith reals : Bool) : T D → Prop
  | .mk g ts => Tag.fits G arith reals ts g ∧ Tag.reals G reals ts g ∧ FitsL G arith reals ts
/-- in a list -/
def FitsL (G : Sig) (arith reals : Bool) : List (T D) → Prop
  | [] => True
  | t :: ts => Fits G arith reals t ∧ FitsL G arith reals ts
end

/-- a constant of the language -/
inductive IsConst : List Char → Prop where
  | num {s q} : Literal s q → IsConst s
  | bin {w} (x : BitVec w) : IsConst (BV.lit x)
  | hex {ds} : IsConst ('#' :: 'x' :: ds)
  | str (s) : IsConst (Str.quote s)

/-- The names bound by lets: each by one let only, none of them declared, and none of them a constant. -/
structure LetsOk (G : Sig) (e : T D) : Prop where
  once : e.names.Nodup
  notDeclared : ∀ n ∈ e.names, G.vars.lookup n = none
  notConstant : ∀ n ∈ e.names, ¬ IsConst n

mutual
/-- the term has no let -/
def LetFree : T D → Prop
  | .mk g ts => (∀ ns, g ≠ .lets ns) ∧ LetFreeL ts
/-- the same for lists -/
def LetFreeL : List (T D) → Prop
  | [] => True
  | t :: ts => LetFree t ∧ LetFreeL ts
end

/-- the declared functions of a script -/
def decs (cs : List Script.Cmd) : List (List Char × List D × D) := (Script.functions cs).filterMap fun f => match f.2 with
  | .dec ps o => some (f.1, ps, o)
  | _ => none

/-- what a script declares -/
def sigOf (cs : List Script.Cmd) : Sig := ⟨Script.vars cs, decs cs⟩

/-- the script defines no function -/
def NoDefs (cs : List Script.Cmd) : Prop := ∀ f ∈ Script.functions cs, ∃ ps o, f.2 = .dec ps o

/-- The declarations: no function has the name of a constant, of an operator or of another function, or is a constant of the
language. -/
structure SigOk (G : Sig) : Prop where
  funs : (G.funs.map fun f => f.1).Nodup
  apart : ∀ f ∈ G.funs, G.vars.lookup f.1 = none
  notOp : ∀ f ∈ G.funs, (∀ k, (f.1, k) ∉ opTable) ∧ ∀ k, (f.1, k) ∉ bvTable ++ (arTable ++ strTable)
  notConstant : ∀ f ∈ G.funs, ¬ IsConst f.1

end SMT.Mean
