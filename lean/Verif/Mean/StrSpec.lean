import Verif.Term.Spec
import Verif.Text.PropsStr
import Verif.Text.Tok

/-!
# What the operators on strings mean (C84)

Operators of SMT-LIB's theory of strings, in terms of lists of characters (`atSpec`, `substrSpec`, `IsIndexof`, `IsReplace` and `IsReplaceAll`
are those of C11).
-/

namespace SMT.Mean
open SMT SMT.Text

/-- a string as a value -/
def strVal (s : List Char) : Val := .u .str (String.ofList (Str.quote s))

/-- `StrApp o vs v`: the operator `o` applied to `vs` gives `v`.  (A character of Lean is no surrogate: nothing is said about `str.from_code` of
one.) -/
inductive StrApp : List Char → List Val → Val → Prop where
  | len (s) : StrApp cs!"str.len" [strVal s] (.n (s.length : Nat))
  | cat (s t ss) : StrApp cs!"str.++" ((s :: t :: ss).map strVal) (strVal (s :: t :: ss).flatten)
  | at (s) (i : Int) : StrApp cs!"str.at" [strVal s, .n i] (strVal (Str.atSpec s i))
  | substr (s) (i n : Int) : StrApp cs!"str.substr" [strVal s, .n i, .n n] (strVal (Str.substrSpec s i n))
  | prefixof (s t b) : (b = true ↔ ∃ v, t = s ++ v) → StrApp cs!"str.prefixof" [strVal s, strVal t] (.b b)
  | suffixof (s t b) : (b = true ↔ ∃ u, t = u ++ s) → StrApp cs!"str.suffixof" [strVal s, strVal t] (.b b)
  | contains (s t b) : (b = true ↔ ∃ u v, s = u ++ t ++ v) → StrApp cs!"str.contains" [strVal s, strVal t] (.b b)
  | indexof (s t) (i r : Int) : Str.IsIndexof s t i r → StrApp cs!"str.indexof" [strVal s, strVal t, .n i] (.n r)
  | replace (s t u r) : Str.IsReplace s t u r → StrApp cs!"str.replace" [strVal s, strVal t, strVal u] (strVal r)
  | replaceAll (s t u r) : Str.IsReplaceAll t u s r → StrApp cs!"str.replace_all" [strVal s, strVal t, strVal u] (strVal r)
  | isDigit (s b) : (b = true ↔ ∃ c, s = [c] ∧ c.isDigit = true) → StrApp cs!"str.is_digit" [strVal s] (.b b)
  | toCode (c : Char) : StrApp cs!"str.to_code" [strVal [c]] (.n (c.toNat : Nat))
  | noCode (s) : s.length ≠ 1 → StrApp cs!"str.to_code" [strVal s] (.n (-1))
  | fromCode (c : Char) : c.toNat < 196608 → StrApp cs!"str.from_code" [.n (c.toNat : Nat)] (strVal [c])
  | noChar (i : Int) : i < 0 ∨ 196608 ≤ i → StrApp cs!"str.from_code" [.n i] (strVal [])
  | toInt (s) : Tok.Digits s → StrApp cs!"str.to_int" [strVal s] (.n (undec s : Nat))
  | noInt (s) : ¬ Tok.Digits s → StrApp cs!"str.to_int" [strVal s] (.n (-1))
  | fromInt (n : Nat) : StrApp cs!"str.from_int" [.n n] (strVal (dec n))
  | noNat (i : Int) : i < 0 → StrApp cs!"str.from_int" [.n i] (strVal [])

/-- the kind of the nodes of each operator, as it is named in `Env.fn` -/
def strTable : List (List Char × Kind) := [
  (cs!"str.len", .strOp 0), (cs!"str.++", .strOp 1), (cs!"str.substr", .strOp 2), (cs!"str.prefixof", .strOp 3), (cs!"str.suffixof", .strOp 4),
  (cs!"str.indexof", .strOp 5), (cs!"str.at", .strOp 6), (cs!"str.replace", .strOp 7), (cs!"str.replace_all", .strOp 8),
  (cs!"str.contains", .atom 9), (cs!"str.is_digit", .atom 10), (cs!"str.from_int", .misc 10), (cs!"str.to_int", .misc 11),
  (cs!"str.to_code", .misc 12), (cs!"str.from_code", .misc 13)]

/-- the assignment gives the nodes of these operators the meaning of the operators -/
def InterpretsStr (ρ : Env) : Prop := ∀ o k vs v σ, (o, k) ∈ strTable → StrApp o vs v → v.hasSort σ = true → ρ.fn k σ vs = some v

/-- the operators with an operand that is an integer, and the place from which on they are -/
def strInts : List (List Char × Nat) :=
  [(cs!"str.at", 1), (cs!"str.substr", 1), (cs!"str.indexof", 2), (cs!"str.from_int", 0), (cs!"str.from_code", 0)]

/-- the operators that are computed wrongly on some literals, throw or end the process (C11, `fold_str_violated`) -/
def strFolds : List (List Char) := [cs!"str.len", cs!"str.++", cs!"str.at", cs!"str.substr", cs!"str.indexof", cs!"str.replace",
  cs!"str.replace_all", cs!"str.is_digit", cs!"str.to_code", cs!"str.from_code", cs!"str.to_int", cs!"str.from_int"]

/-- those of them that are computed rightly on some literals -/
def strRight : List (List Char) := [cs!"str.++", cs!"str.at", cs!"str.substr", cs!"str.replace", cs!"str.replace_all"]

end SMT.Mean
