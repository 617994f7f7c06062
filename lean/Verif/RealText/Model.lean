import Verif.Num.Spec
import Verif.Text.Tok
import Mathlib.Data.Int.Log
import Mathlib.Data.Rat.Floor
import Mathlib.Tactic.Linarith
import Mathlib.Tactic.NormNum
import Mathlib.Tactic.Ring
import Mathlib.Tactic.Push
import Mathlib.Tactic.FieldSimp

/-!
# The text of a real constant, and its value (C74)

`HighPrecisionReal::toString` (`src/number.cpp:552-591`), `mkConstReal` (`src/op_parser.cpp:631-650`), the constructor of a constant node
(`include/dag.h:97-105`), `Parser::toReal` (`src/base_parser.cpp:295-307`) and the folding of constants (`src/simp_parser.cpp`).

A constant node has no value but its text: the text is made when the constant is made, and read when the value is needed.
-/

namespace SMT.RealText
open SMT SMT.Text SMT.Tok SMT.Str SMT.Num

/-! ## Writing -/

/-- rounding to the nearest integer, ties to even: what MPFR and the C library do when they print a given number of digits -/
def rhe (q : ℚ) : ℤ :=
  if q - ⌊q⌋ < 1 / 2 then ⌊q⌋ else if 1 / 2 < q - ⌊q⌋ then ⌊q⌋ + 1 else if ⌊q⌋ % 2 = 0 then ⌊q⌋ else ⌊q⌋ + 1

/-- `n` with leading zeros, `d` digits -/
def pad (d n : Nat) : List Char := List.replicate (d - (dec n).length) '0' ++ dec n

/-- `n / 10^d` with `d` decimals: the conversion `f` -/
def fixed (d n : Nat) : List Char := dec (n / 10 ^ d) ++ '.' :: pad d (n % 10 ^ d)

/-- the trailing zeros and a trailing point are removed (`src/number.cpp:576-579`); the text has a point, so the test of its length never
stops the loop -/
def strip (s : List Char) : List Char :=
  let t := (s.reverse.dropWhile (· = '0')).reverse
  if t.getLast? = some '.' then t.dropLast else t

/-- the sign -/
def signed (q : ℚ) (s : List Char) : List Char := if q < 0 then '-' :: s else s

/-- exponent and the 17 digits of a positive number, rounded -/
def digits17 (a : ℚ) : ℤ × ℕ :=
  if (rhe (a / 10 ^ (Int.log 10 a - 16))).toNat = 10 ^ 17 then (Int.log 10 a + 1, 10 ^ 16)
  else (Int.log 10 a, (rhe (a / 10 ^ (Int.log 10 a - 16))).toNat)

/-- the conversion `%.17Rg` of a positive number: scientific if the exponent is below -4 or above 16; trailing zeros are removed -/
def general (a : ℚ) : List Char :=
  if -4 ≤ (digits17 a).1 ∧ (digits17 a).1 < 17 then
    if (16 - (digits17 a).1).toNat = 0 then dec (digits17 a).2 else strip (fixed (16 - (digits17 a).1).toNat (digits17 a).2)
  else strip (fixed 16 (digits17 a).2) ++ 'e' :: (if (digits17 a).1 < 0 then '-' else '+') :: pad 2 (digits17 a).1.natAbs

/-- The decimal exponent `mpfr_get_str` reports (`src/number.cpp:568-569`): the number is `0.d₁d₂… · 10^e`, where the digits are rounded so that
reading them gives the number again; a number just below a power of ten can thus get the exponent of the power, if the power itself is not
representable. -/
structure Exp10 where
  e : ℚ → ℤ
  low : ∀ q k, (10 : ℚ) ^ k ≤ |q| → k < e q
  high : ∀ q k, q ≠ 0 → |q| < (10 : ℚ) ^ k → e q ≤ k + 1
  million : ∀ q, q ≠ 0 → |q| < 10 ^ 6 → e q ≤ 6

/-- the exponent without rounding -/
def Exp10.plain : Exp10 where
  e q := Int.log 10 |q| + 1
  low q k h := by
    have h0 : (0 : ℚ) < |q| := lt_of_lt_of_le (zpow_pos (by norm_num) _) h
    have := (Int.zpow_le_iff_le_log (b := 10) (by norm_num) h0).mp (by exact_mod_cast h)
    omega
  high q k h0 h := by
    have := (Int.lt_zpow_iff_log_lt (b := 10) (by norm_num) (abs_pos.mpr h0)).mp (by exact_mod_cast h)
    omega
  million q h0 h := by
    have := (Int.lt_zpow_iff_log_lt (b := 10) (x := 6) (by norm_num) (abs_pos.mpr h0)).mp (by exact_mod_cast h)
    omega

/-- `HighPrecisionReal::toString` (`src/number.cpp:552-591`) -/
def realText (X : Exp10) : XR → List Char
  | .nan => cs!"NaN"
  | .pinf => cs!"inf"
  | .ninf => cs!"-inf"
  | .fin q =>
    if q.den = 1 then showInt q.num
    else if -6 ≤ X.e q ∧ X.e q ≤ 6 then signed q (strip (fixed 17 (rhe (|q| * 10 ^ 17)).toNat))
    else signed q (general |q|)

/-- `std::to_string(double)`: the conversion `%f`, six decimals (`src/op_parser.cpp:641-644`).  Simplification: no infinities and NaN. -/
def doubleText (q : ℚ) : List Char := signed q (fixed 6 (rhe (|q| * 10 ^ 6)).toNat)

/-! ## Reading -/

/-- the value of digits with an optional point among them -/
def udec (s : List Char) : ℚ :=
  (undec (s.takeWhile (· ≠ '.') ++ (s.dropWhile (· ≠ '.')).drop 1) : ℚ) / 10 ^ ((s.dropWhile (· ≠ '.')).drop 1).length

/-- the value `mpfr_set_str` reads from a decimal, before it is rounded (`src/number.cpp:150-157`) -/
def decRat : List Char → ℚ
  | '-' :: s => -udec s
  | '+' :: s => udec s
  | s => udec s

/-- the value a constant node gets from its text (`include/dag.h:97-105`, `src/number.cpp:1067-1075`): none for a text that is neither an
integer nor a decimal -/
def nodeValue (F : Fmt) (s : List Char) : Res (Option Number) :=
  if isIntTok s then do
    let z ← toInteger s
    return some (.int z)
  else if isReal s then .ok (some (.real (.fin (F.r (decRat s)))))
  else .ok none

/-- `Parser::toReal` of a constant that is not `pi` or `e` (`src/base_parser.cpp:295-307`): 0 if the node has no value.
Simplification: one precision. -/
def valueOf (F : Fmt) (s : List Char) : Res XR := do
  match ← nodeValue F s with
  | some n => return n.toReal F
  | none => return .fin 0

/-! ## Constants -/

/-- the ways to make a real constant -/
inductive Src where
  | real (x : XR)
  | dbl (q : ℚ)
  | int (z : ℤ)
  | num (n : Number)
  | str (s : List Char)

/-- `mkConstReal` (`src/op_parser.cpp:631-653`): the text of the node; a token that is no decimal fails the assertion.  `pi` and `e` are
nodes of their own and left out. -/
def mkConstReal (F : Fmt) (X : Exp10) : Src → Res (List Char)
  | .real x => .ok (realText X x)
  | .dbl q => .ok (doubleText q)
  | .int z => .ok (showInt z)
  | .num n => .ok (realText X (n.toReal F))
  | .str s => if isReal s then .ok s else .abort

/-- `simp_oper` of a sum, a product or a difference of two real constants that are not both integers (`src/simp_parser.cpp:1361-1420`):
`op` is the operation of the reals, the text of the result is returned -/
def foldReal (F : Fmt) (X : Exp10) (op : XR → XR → XR) (l r : List Char) : Res (List Char) := do
  let x ← valueOf F l
  let y ← valueOf F r
  return realText X (op x y)

/-- `simp_oper(NT_EQ)` of two real constants that are not both integers (`src/simp_parser.cpp:811-818`) -/
def foldEq (F : Fmt) (l r : List Char) : Res Bool := do
  let x ← valueOf F l
  let y ← valueOf F r
  return x.eq y

end SMT.RealText
