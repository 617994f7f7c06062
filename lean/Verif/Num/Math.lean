import Verif.Basic
import Mathlib.Data.Nat.Prime.Basic
import Mathlib.Data.Nat.Factorial.Basic
import Mathlib.Algebra.Order.Ring.Int
import Mathlib.Tactic.Linarith
import Mathlib.Tactic.Ring

/-!
# Integer helper functions and integer division (C14, C25)

`src/util.cpp:258-345` (`MathUtils`), `src/simp_parser.cpp:75-98, 555-625, 738-745, 875-920, 1043-1075`,
`src/number.cpp:787-803` (`/` and `%` of `HighPrecisionInteger`: GMP's truncated division, an exception on zero).

An operand of a folded operator is `some n` if it is the integer literal `n` and `none` if it is any other integer term.
-/

namespace SMT.Math

/-! ## Model -/

/-- `HighPrecisionInteger::operator/` (`src/number.cpp:787-794`) -/
def divZ (a b : Int) : Res Int := if b = 0 then .throw else .ok (a.tdiv b)

/-- `HighPrecisionInteger::operator%` (`src/number.cpp:796-803`) -/
def modZ (a b : Int) : Res Int := if b = 0 then .throw else .ok (a.tmod b)

/-- loop of `MathUtils::pow` (`src/util.cpp:260-263`) -/
def powLoop (base exp : Int) (i result : Int) : Int :=
  if i < exp then powLoop base exp (i + 1) (result * base) else result
termination_by (exp - i).toNat
decreasing_by omega

/-- `MathUtils::pow` on integers (`src/util.cpp:258-265`) -/
def pow (base exp : Int) : Int := if exp = 0 then 1 else powLoop base exp 1 base

/-- `MathUtils::gcd` (`src/util.cpp:270-273`); the remainder is taken only when `b` is not zero -/
def gcd (a b : Int) : Int := if b = 0 then a else gcd b (a.tmod b)
termination_by b.natAbs
decreasing_by
  rw [Int.natAbs_tmod]
  exact Nat.mod_lt _ (Int.natAbs_pos.mpr ‹_›)

/-- `MathUtils::lcm` (`src/util.cpp:275-277`) -/
def lcm (a b : Int) : Res Int := divZ (a * b) (gcd a b)

/-- loop of `MathUtils::isPrime` (`src/util.cpp:323-325`) -/
def primeLoop (n : Int) (i : Int) : Bool :=
  if h : 3 ≤ i ∧ i * i ≤ n then (if n.tmod i = 0 then false else primeLoop n (i + 2)) else true
termination_by (n - i).toNat
decreasing_by
  have : 3 * i ≤ i * i := by nlinarith [h.1]
  omega

/-- `MathUtils::isPrime` (`src/util.cpp:319-327`).  The guard `3 ≤ i` of `primeLoop` only serves termination: the loop starts
at 3. -/
def isPrime (n : Int) : Bool :=
  if n ≤ 1 then false else if n = 2 then true else if n.tmod 2 = 0 then false else primeLoop n 3

/-- `MathUtils::isEven` (`src/util.cpp:329-331`) -/
def isEven (n : Int) : Bool := n.tmod 2 == 0

/-- `MathUtils::isOdd` (`src/util.cpp:333-335`) -/
def isOdd (n : Int) : Bool := n.tmod 2 != 0

/-- loop of `MathUtils::factorial` (`src/util.cpp:340-342`) -/
def factLoop (n : Int) (i res : Int) : Int := if i ≤ n then factLoop n (i + 1) (res * i) else res
termination_by (n + 1 - i).toNat
decreasing_by omega

/-- `MathUtils::factorial` (`src/util.cpp:338-344`) -/
def factorial (n : Int) : Int := factLoop n 1 1

/-- result of folding: a literal, or no folding (`mkUnknown`) -/
inductive Out where
  | int (z : Int)
  | bool (b : Bool)
  | keep
  deriving DecidableEq

/-- unary operators -/
inductive U where | abs | isPrime | isEven | isOdd | fact | pow2
  deriving DecidableEq

/-- binary operators -/
inductive O where | div | mod | divisible | gcd | lcm
  deriving DecidableEq

/-- `simp_oper(t, p)` (`src/simp_parser.cpp:75-98, 555-625, 738-747`).  `err_all` ends the process. -/
def simp1 : U → Option Int → Res Out
  | .abs, some i => .ok (.int (if i < 0 then -i else i))
  | .abs, none => .ok .keep
  | .isPrime, some i => .ok (.bool (isPrime i))
  | .isPrime, none => .abort
  | .isEven, some i => .ok (.bool (isEven i))
  | .isEven, none => .abort
  | .isOdd, some i => .ok (.bool (isOdd i))
  | .isOdd, none => .abort
  | .fact, some i => if i < 0 then .abort else if i = 0 then .ok (.int 1) else .ok (.int (factorial i))
  | .fact, none => .abort
  | .pow2, some i => .ok (.int (pow 2 i))
  | .pow2, none => .ok .keep

/-- `simp_oper(t, l, r)` (`src/simp_parser.cpp:875-920, 1043-1075`) -/
def simp2 : O → Option Int → Option Int → Res Out
  | .div, some a, some b => (divZ a b).bind fun q => .ok (.int q)
  | .div, _, _ => .ok .keep
  | .mod, some a, some b => (modZ a b).bind fun q => .ok (.int q)
  | .mod, _, _ => .ok .keep
  | .divisible, some a, some b => (modZ a b).bind fun q => .ok (.bool (q == 0))
  | .divisible, _, _ => .abort
  | .gcd, some a, some b => .ok (.int (gcd a b))
  | .gcd, _, _ => .abort
  | .lcm, some a, some b => (lcm a b).bind fun q => .ok (.int q)
  | .lcm, _, _ => .abort

end SMT.Math
