import Verif.Text.Tok

/-!
# Symbols and constants (C54)

`src/expr_parser.cpp:598-768` (`parseConstFunc`), `src/util.cpp:37-39` (`isNumber`), `198-255` (`isBV`, `isFP`, `isString`).

A token is looked up in the tables of names, in a fixed order, and otherwise read as a constant.  `α` is the type of nodes; the constructors of
constants are a parameter.
-/

namespace SMT.Leaf
open SMT SMT.Text

/-- the constants, one for each constructor that `parseConstFunc` calls -/
inductive Lit where
  | tru | fls
  | pi | e
  | inf | posInf | negInf
  | eps | posEps | negEps
  | nan
  /-- `mkConstInt(s)` -/
  | int (s : List Char)
  /-- `mkConstReal(s)` -/
  | real (s : List Char)
  /-- `mkConstReal(parseScientificNotation(s))` -/
  | sci (s : List Char)
  /-- `mkConstBv(s, width)` -/
  | bv (s : List Char) (width : Nat)
  /-- `mkConstFP(s)` -/
  | fp (s : List Char)
  /-- `mkConstStr(s)` -/
  | str (s : List Char)
  | regNone | regAll | regAllchar
  /-- `mkRoundingMode(s)` -/
  | rm (s : List Char)
  deriving DecidableEq

/-- `TypeChecker::isNumber` (`src/util.cpp:37-39`) -/
def isNumber (s : List Char) : Bool := Str.isIntTok s || Tok.isReal s

/-- `0` or `1` -/
def isBin (c : Char) : Bool := c == '0' || c == '1'
/-- a hexadecimal digit -/
def isHex (c : Char) : Bool :=
  c == '0' || c == '1' || c == '2' || c == '3' || c == '4' || c == '5' || c == '6' || c == '7' || c == '8' || c == '9' || c == 'a' || c == 'A' ||
  c == 'b' || c == 'B' || c == 'c' || c == 'C' || c == 'd' || c == 'D' || c == 'e' || c == 'E' || c == 'f' || c == 'F'

/-- `TypeChecker::isBV` (`src/util.cpp:198-243`) -/
def isBV : List Char → Bool
  | '#' :: k :: c :: s =>
    if k = 'b' ∨ k = 'B' then (c :: s).all isBin
    else if k = 'x' ∨ k = 'X' then (c :: s).all isHex
    else if k = 'd' ∨ k = 'D' then (c :: s).all Char.isDigit
    else false
  | _ => false

/-- `TypeChecker::isFP` (`src/util.cpp:244-250`) -/
def isFP (s : List Char) : Bool := decide (4 ≤ s.length) && s.take 3 == cs!"(fp" && s.getLast? == some ')'

/-- `TypeChecker::isString` (`src/util.cpp:251-255`) -/
def isString (s : List Char) : Bool := s.head? == some '"' && s.getLast? == some '"'

/-- the width computed for a bit-vector constant (`src/expr_parser.cpp:702-722`); `Integer::toString(2)` is GMP's binary form -/
def bvWidth (s : List Char) : Nat :=
  match s with
  | _ :: k :: r =>
    if k = 'b' ∨ k = 'B' then s.length - 2
    else if k = 'x' ∨ k = 'X' then (s.length - 2) * 4
    else if k = 'd' ∨ k = 'D' then (Nat.toDigits 2 (undec r)).length
    else s.length - 2
  | _ => s.length - 2

/-- the constants (`src/expr_parser.cpp:660-758`), in the order of the tests -/
def constOf (s : List Char) : Option Lit :=
  if s = cs!"pi" then some .pi
  else if s = cs!"e" then some .e
  else if s = cs!"inf" then some .inf
  else if s = cs!"+inf" then some .posInf
  else if s = cs!"-inf" then some .negInf
  else if s = cs!"epsion" then some .eps
  else if s = cs!"+epsilon" then some .posEps
  else if s = cs!"-epsilon" then some .negEps
  else if s = cs!"NaN" ∨ s = cs!"+NaN" ∨ s = cs!"-NaN" then some .nan
  else if Str.isIntTok s then some (.int s)
  else if Tok.isReal s then some (.real s)
  else if Tok.isSci s then some (.sci s)
  else if isBV s then some (.bv s (bvWidth s))
  else if isFP s then some (.fp s)
  else if isString s then some (.str s)
  else if s = cs!"re.none" then some .regNone
  else if s = cs!"re.all" then some .regAll
  else if s = cs!"re.allchar" then some .regAllchar
  else if s = cs!"RNE" ∨ s = cs!"roundNearestTiesToEven" then some (.rm cs!"RNE")
  else if s = cs!"RNA" ∨ s = cs!"roundNearestTiesToAway" then some (.rm cs!"RNA")
  else if s = cs!"RTP" ∨ s = cs!"roundTowardPositive" then some (.rm cs!"RTP")
  else if s = cs!"RTN" ∨ s = cs!"roundTowardNegative" then some (.rm cs!"RTN")
  else if s = cs!"RTZ" ∨ s = cs!"roundTowardZero" then some (.rm cs!"RTZ")
  else none

/-- the tables of names.  `lets` are the entries that count in the current let mode, with the suffix of the current let
(`src/expr_parser.cpp:613-623`); `quants` are those of `quant_var_map` inside a quantifier, none outside. -/
structure Tables (α : Type) where
  holders : List (List Char × α)
  lets : List (List Char × α)
  funs : List (List Char × α)
  funVars : List (List Char × α)
  quants : List (List Char × α)
  vars : List (List Char × α)

/-- a name in bars: `s.size() > 2`, `s[0] == '|'`, `s.back() == '|'` -/
def inBars (s : List Char) : Bool := decide (2 < s.length) && s.head? == some '|' && s.getLast? == some '|'

/-- the global variable of a name, with or without bars (`src/expr_parser.cpp:640-661`) -/
def globalVar {α : Type} (t : Tables α) (s : List Char) : Option α :=
  match t.vars.lookup s with
  | some v => some v
  | none =>
    match if inBars s then t.vars.lookup (s.tail.dropLast) else none with
    | some v => some v
    | none => if !isNumber s then t.vars.lookup ('|' :: s ++ ['|']) else none

/-- the node of a name (`src/expr_parser.cpp:606-661`) -/
def named {α : Type} (t : Tables α) (ph : Bool) (s : List Char) : Option α :=
  match if ph then t.holders.lookup s else none with
  | some v => some v
  | none =>
    match t.lets.lookup s with
    | some v => some v
    | none =>
      match t.funs.lookup s with
      | some v => some v
      | none =>
        match t.funVars.lookup s with
        | some v => some v
        | none =>
          match t.quants.lookup s with
          | some v => some v
          | none => globalVar t s

/-- `parseConstFunc` (`src/expr_parser.cpp:598-768`); `lit` makes constants, `holder` placeholder variables -/
def parseConstFunc {α : Type} (t : Tables α) (lit : Lit → Res α) (holder : List Char → Res α) (ph : Bool) (s : List Char) : Res α :=
  if s = cs!"true" then lit .tru
  else if s = cs!"false" then lit .fls
  else
    match named t ph s with
    | some v => .ok v
    | none =>
      match constOf s with
      | some l => lit l
      | none => if ph && !isNumber s then holder s else .abort

/-! ## Specification -/

/-- the constants of SMT-LIB (and of the library): how they are written, and what they are -/
inductive Writes : List Char → Lit → Prop where
  | tru : Writes cs!"true" .tru
  | fls : Writes cs!"false" .fls
  | pi : Writes cs!"pi" .pi
  | e : Writes cs!"e" .e
  | inf : Writes cs!"inf" .inf
  | posInf : Writes cs!"+inf" .posInf
  | negInf : Writes cs!"-inf" .negInf
  | posEps : Writes cs!"+epsilon" .posEps
  | negEps : Writes cs!"-epsilon" .negEps
  | nan : Writes cs!"NaN" .nan
  /-- an integer, with a sign or not -/
  | int {a ds} : Tok.Sign a → Tok.Digits ds → Writes (a ++ ds) (.int (a ++ ds))
  /-- a decimal -/
  | real {a ds es} : Tok.Sign a → Tok.Digits ds → Tok.Digits es → Writes (a ++ ds ++ '.' :: es) (.real (a ++ ds ++ '.' :: es))
  /-- a decimal or an integer with an exponent -/
  | sci {m c x} : c = 'e' ∨ c = 'E' → Tok.RealTok m → Tok.IntTok x → Writes (m ++ c :: x) (.sci (m ++ c :: x))
  /-- binary: as many bits as digits -/
  | bin {ds} : ds ≠ [] → (∀ c ∈ ds, c = '0' ∨ c = '1') → Writes ('#' :: 'b' :: ds) (.bv ('#' :: 'b' :: ds) ds.length)
  /-- hexadecimal: four bits for each digit -/
  | hex {ds} : ds ≠ [] → (∀ c ∈ ds, c.isDigit = true ∨ c ∈ ['a', 'b', 'c', 'd', 'e', 'f', 'A', 'B', 'C', 'D', 'E', 'F']) →
      Writes ('#' :: 'x' :: ds) (.bv ('#' :: 'x' :: ds) (4 * ds.length))
  | str {b} : Writes ('"' :: (b ++ ['"'])) (.str ('"' :: (b ++ ['"'])))
  | regNone : Writes cs!"re.none" .regNone
  | regAll : Writes cs!"re.all" .regAll
  | regAllchar : Writes cs!"re.allchar" .regAllchar
  | rne : Writes cs!"RNE" (.rm cs!"RNE")
  | rna : Writes cs!"RNA" (.rm cs!"RNA")
  | rtp : Writes cs!"RTP" (.rm cs!"RTP")
  | rtn : Writes cs!"RTN" (.rm cs!"RTN")
  | rtz : Writes cs!"RTZ" (.rm cs!"RTZ")
  | rneL : Writes cs!"roundNearestTiesToEven" (.rm cs!"RNE")
  | rnaL : Writes cs!"roundNearestTiesToAway" (.rm cs!"RNA")
  | rtpL : Writes cs!"roundTowardPositive" (.rm cs!"RTP")
  | rtnL : Writes cs!"roundTowardNegative" (.rm cs!"RTN")
  | rtzL : Writes cs!"roundTowardZero" (.rm cs!"RTZ")

/-- no table has the name, with or without bars -/
def Unused {α : Type} (t : Tables α) (s : List Char) : Prop :=
  t.holders.lookup s = none ∧ t.lets.lookup s = none ∧ t.funs.lookup s = none ∧ t.funVars.lookup s = none ∧ t.quants.lookup s = none ∧
  t.vars.lookup s = none ∧ t.vars.lookup (s.tail.dropLast) = none ∧ t.vars.lookup ('|' :: s ++ ['|']) = none

end SMT.Leaf
