import Verif.Term.Spec
import Verif.Text.Dec

/-!
# What the other operators of the theories of integers and reals mean (C83)

`div`, `mod`, `abs`, `/`, `to_real`, `to_int` and `is_int` of SMT-LIB.
-/

namespace SMT.Mean
open SMT SMT.Text

/-- `ArApp o vs v`: the operator `o` applied to `vs` gives `v`.  There is nothing about division by zero: its value is left to the assignment. -/
inductive ArApp : List Char → List Val → Val → Prop where
  /-- `(div a b)` is the `q` with `a = b * q + r` and `0 ≤ r < |b|` -/
  | div (a b q r : Int) : a = b * q + r → 0 ≤ r → r < b.natAbs → ArApp cs!"div" [.n a, .n b] (.n q)
  /-- `(mod a b)` is this `r` -/
  | mod (a b q r : Int) : a = b * q + r → 0 ≤ r → r < b.natAbs → ArApp cs!"mod" [.n a, .n b] (.n r)
  | quot (a b q : Rat) : b ≠ 0 → a = b * q → ArApp cs!"/" [.n a, .n b] (.n q)
  | absPos (a : Rat) : 0 ≤ a → ArApp cs!"abs" [.n a] (.n a)
  | absNeg (a : Rat) : a < 0 → ArApp cs!"abs" [.n a] (.n (-a))
  | toReal (a : Int) : ArApp cs!"to_real" [.n a] (.n a)
  /-- the greatest integer that is not above -/
  | toInt (a : Rat) (z : Int) : (z : Rat) ≤ a → a < (z : Rat) + 1 → ArApp cs!"to_int" [.n a] (.n z)
  | isInt (a : Int) : ArApp cs!"is_int" [.n a] (.b true)
  | notInt (a : Rat) : (∀ z : Int, a ≠ z) → ArApp cs!"is_int" [.n a] (.b false)

/-- the kind of the nodes of each operator, as it is named in `Env.fn`, and their sort (`abs` has the sort of its operand) -/
def arTable : List (List Char × Kind) := [
  (cs!"div", .arith 0), (cs!"mod", .arith 1), (cs!"/", .arith 2), (cs!"abs", .arith 3), (cs!"to_real", .arith 4), (cs!"to_int", .arith 5),
  (cs!"is_int", .atom 8)]

/-- the assignment gives the nodes of these operators the meaning of the operators -/
def InterpretsAr (ρ : Env) : Prop := ∀ o k vs v σ, (o, k) ∈ arTable → ArApp o vs v → v.hasSort σ = true → ρ.fn k σ vs = some v

/-- the operators that divide, with the sort of their nodes -/
def divTable : List (List Char × Kind × SMT.Srt) := [(cs!"div", .arith 0, .int), (cs!"mod", .arith 1, .int), (cs!"/", .arith 2, .real)]

/-- division by zero has the value that the assignment gives it -/
def ByZero (ρ : Env) (o : List Char) (vs : List Val) (v : Val) : Prop :=
  ∃ k σ a, (o, k, σ) ∈ divTable ∧ vs = [.n a, .n 0] ∧ ρ.fn k σ vs = some v ∧ v.hasSort σ = true

/-- the operators on integers, and those on reals -/
def intOps : List (List Char) := [cs!"div", cs!"mod", cs!"to_real"]
/-- the operators on reals -/
def realOps : List (List Char) := [cs!"/", cs!"to_int", cs!"is_int"]

/-- the operators that are computed rightly on numerals -/
def arRight : List (List Char) := [cs!"div", cs!"mod", cs!"to_int", cs!"is_int", cs!"to_real"]

end SMT.Mean
