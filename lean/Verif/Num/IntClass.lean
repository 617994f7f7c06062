import Verif.Num.Model
import Mathlib.Data.Nat.Factorial.Basic
import Mathlib.Data.Nat.Fib.Basic
import Mathlib.Data.Nat.Digits.Lemmas
import Mathlib.Data.Rat.Floor
import Mathlib.Algebra.Order.Floor.Ring

/-!
# The integer class and conversions between integers, reals, machine integers and text (C78)

`src/number.cpp:681-1043` (`HighPrecisionInteger`), `596-641` (`HighPrecisionReal::toInt`, `toInteger`, `toLongLong`), `1045-1175`
(`Number`).

GMP integers are `Int`.  The types of the machine are those of LP64: `int` has 32 bits, `long`, `unsigned long` and `long long` have 64.
The GMP functions `mpz_get_str` and `mpz_set_str` are modelled after their documentation and source (GMP 6): `mpz_get_str` writes the
digits `0-9a-z` in bases up to 36 and `0-9A-Za-z` in larger ones; `mpz_set_str` reads them, letters of either case up to base 36, skips
white space, and accepts a minus sign in front but no plus sign.
-/

namespace SMT.Num.IntClass
open SMT SMT.Num

/-! ## Factorials and Fibonacci numbers -/

/-- `++i` on an `unsigned long` -/
def succU (i : ℕ) : ℕ := (i + 1) % 2 ^ 64

/-- the loop of `factorial` (`src/number.cpp:694-696`); the first argument bounds the rounds -/
def factRun (n : ℕ) : ℕ → ℕ → ℤ → Res ℤ
  | 0, _, _ => .diverge
  | k + 1, i, r => if i ≤ n then factRun n k (succU i) (r * (i : ℤ)) else .ok r

/-- `HighPrecisionInteger::factorial` (`src/number.cpp:692-698`) -/
def factorial (k n : ℕ) : Res ℤ := factRun n k 2 1

/-- the loop of `fibonacci` (`src/number.cpp:705-709`) -/
def fibRun (n : ℕ) : ℕ → ℕ → ℤ → ℤ → Res ℤ
  | 0, _, _, _ => .diverge
  | k + 1, i, a, b => if i ≤ n then fibRun n k (succU i) b (a + b) else .ok b

/-- `HighPrecisionInteger::fibonacci` (`src/number.cpp:700-711`) -/
def fibonacci (k n : ℕ) : Res ℤ := if n ≤ 1 then .ok (n : ℤ) else fibRun n k 2 0 1

/-! ## Machine integers -/

/-- `mpz_get_si`: the low 63 bits with the sign, for a value that does not fit -/
def getSi (z : ℤ) : ℤ := if -2 ^ 63 ≤ z ∧ z < 2 ^ 63 then z else z.sign * ((z.natAbs % 2 ^ 63 : ℕ) : ℤ)

/-- conversion of a `long` to `int` -/
def wrapInt (z : ℤ) : ℤ := (z + 2 ^ 31) % 2 ^ 32 - 2 ^ 31

/-- `toInt` (`src/number.cpp:985-990`) -/
def toInt (z : ℤ) : Res ℤ := if z > 2 ^ 31 - 1 ∨ z < -2 ^ 31 then .throw else .ok (wrapInt (getSi z))

/-- `toLong` (`src/number.cpp:992-997`) -/
def toLong (z : ℤ) : Res ℤ := if ¬ (-2 ^ 63 ≤ z ∧ z < 2 ^ 63) then .throw else .ok (getSi z)

/-- `toULong` (`src/number.cpp:999-1004`); `mpz_get_ui` gives the low bits of the absolute value -/
def toULong (z : ℤ) : Res ℤ := if z < 0 ∨ ¬ (0 ≤ z ∧ z < 2 ^ 64) then .throw else .ok ((z.natAbs % 2 ^ 64 : ℕ) : ℤ)

/-- `std::stoll` of a decimal text of `z`: throws when it does not fit -/
def stollOf (z : ℤ) : Res ℤ := if -2 ^ 63 ≤ z ∧ z < 2 ^ 63 then .ok z else .throw

/-- `toLongLong` (`src/number.cpp:1006-1018`) -/
def toLongLong (z : ℤ) : Res ℤ := if -2 ^ 63 ≤ z ∧ z < 2 ^ 63 then .ok (getSi z) else stollOf z

/-! ## Roots, shifts, division -/

/-- `sqrt` (`src/number.cpp:934-941`) -/
def sqrt (z : ℤ) : Res ℤ := if z < 0 then .throw else .ok ((Nat.sqrt z.natAbs : ℕ) : ℤ)

/-- `safeSqrt` (`src/number.cpp:943-950`) -/
def safeSqrt (z : ℤ) : ℤ := if z < 0 then 0 else ((Nat.sqrt z.natAbs : ℕ) : ℤ)

/-- `mpz_root`: the root of the absolute value rounded down, with the sign -/
def rootZ (z : ℤ) (n : ℕ) : ℤ := z.sign * ((Nat.findGreatest (fun r => r ^ n ≤ z.natAbs) z.natAbs : ℕ) : ℤ)

/-- `root` (`src/number.cpp:951-961`) -/
def root (z : ℤ) (n : ℕ) : Res ℤ :=
  if n = 0 then .throw
  else if z < 0 ∧ n % 2 = 0 then .throw
  else .ok (rootZ z n)

/-- `operator/`, `operator/=` (`src/number.cpp:787-794`, `820-826`): `mpz_class` division cuts -/
def div (a b : ℤ) : Res ℤ := if b = 0 then .throw else .ok (a.tdiv b)

/-- `operator%`, `operator%=` (`src/number.cpp:796-803`, `828-834`) -/
def mod (a b : ℤ) : Res ℤ := if b = 0 then .throw else .ok (a.tmod b)

/-- `isDivisibleBy` (`src/number.cpp:967-972`) -/
def isDivisibleBy (a b : ℤ) : Res Bool := if b = 0 then .throw else .ok (decide (b ∣ a))

/-! ## Text -/

/-- the digits of `mpz_get_str` -/
def digitChar (base d : ℕ) : Char :=
  if d < 10 then Char.ofNat (48 + d)
  else if base ≤ 36 then Char.ofNat (97 + (d - 10))
  else if d < 36 then Char.ofNat (65 + (d - 10))
  else Char.ofNat (97 + (d - 36))

/-- `mpz_get_str` -/
def getStr (base : ℕ) (z : ℤ) : List Char :=
  (if z < 0 then ['-'] else []) ++ (if z = 0 then ['0'] else (Nat.digits base z.natAbs).reverse.map (digitChar base))

/-- `toString` (`src/number.cpp:975-983`) -/
def toText (z : ℤ) (base : ℤ) : Res (List Char) := if base < 2 ∨ base > 62 then .throw else .ok (getStr base.toNat z)

/-- the value of a digit for `mpz_set_str` -/
def digitVal (base : ℕ) (c : Char) : ℕ :=
  let n := c.toNat
  if 48 ≤ n ∧ n ≤ 57 then n - 48
  else if 65 ≤ n ∧ n ≤ 90 then n - 65 + 10
  else if 97 ≤ n ∧ n ≤ 122 then (if base ≤ 36 then n - 97 + 10 else n - 97 + 36)
  else 255

/-- `isspace` -/
def isSpace (c : Char) : Bool := c = ' ' || (9 ≤ c.toNat && c.toNat ≤ 13)

/-- the digits after the sign: the first must be one, white space after it is skipped -/
def readDigits (base : ℕ) (s : List Char) : Option ℕ :=
  match s with
  | [] => none
  | c :: _ =>
    if digitVal base c ≥ base then none
    else
      let ds := s.filter fun c => !isSpace c
      if ds.all fun c => decide (digitVal base c < base) then some (Nat.ofDigits base (ds.map (digitVal base)).reverse) else none

/-- `mpz_set_str` for a base between 2 and 62 -/
def setStr (base : ℕ) (s : List Char) : Option ℤ :=
  match s.dropWhile isSpace with
  | '-' :: t => (readDigits base t).map fun n => -(n : ℤ)
  | t => (readDigits base t).map fun n => (n : ℤ)

/-- the constructors from text (`src/number.cpp:738-752`), for a base between 2 and 62 -/
def ofText (s : List Char) (base : ℕ) : Res ℤ :=
  match setStr base s with
  | some z => .ok z
  | none => .throw

/-! ## Reals -/

/-- rounding to the nearest integer, ties to even -/
def nearest (q : ℚ) : ℤ :=
  if q - ⌊q⌋ < 1 / 2 then ⌊q⌋ else if 1 / 2 < q - ⌊q⌋ then ⌊q⌋ + 1 else if ⌊q⌋ % 2 = 0 then ⌊q⌋ else ⌊q⌋ + 1

/-- `mpfr_get_z` with `MPFR_RNDN`: 0 for values that are not finite (`src/number.cpp:601-608`) -/
def realToInteger : XR → ℤ
  | .fin q => nearest q
  | _ => 0

/-- `mpfr_get_si` with `MPFR_RNDN`: what does not fit goes to the nearest end of the range, NaN to 0 -/
def realGetSi : XR → ℤ
  | .fin q => max (-2 ^ 63) (min (2 ^ 63 - 1) (nearest q))
  | .pinf => 2 ^ 63 - 1
  | .ninf => -2 ^ 63
  | .nan => 0

/-- `HighPrecisionReal::toInt` (`src/number.cpp:597-599`): the `long` is returned as an `int` -/
def realToInt (x : XR) : ℤ := wrapInt (realGetSi x)

/-- `HighPrecisionReal::toLongLong` (`src/number.cpp:610-632`) -/
def realToLongLong (x : XR) : ℤ :=
  if -2 ^ 63 ≤ realToInteger x ∧ realToInteger x < 2 ^ 63 then getSi (realToInteger x)
  else if realToInteger x ≥ 0 then 2 ^ 63 - 1
  else -2 ^ 63

/-- `Number::toInteger` (`src/number.cpp:1120-1126`) -/
def numToInteger : Number → ℤ
  | .int i => i
  | .real x => realToInteger x

/-- `Number::zero` and `Number::one` (`src/number.cpp:1136-1141`): the constructor from `double` that is called makes a real -/
def numZero (F : Fmt) : Number := .real (.fin (F.r 0))
/-- `Number::one` -/
def numOne (F : Fmt) : Number := .real (.fin (F.r 1))

end SMT.Num.IntClass
