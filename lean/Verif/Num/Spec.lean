import Verif.Num.Model
import Mathlib.Algebra.Order.Field.Rat
import Mathlib.Algebra.Order.Field.Basic
import Mathlib.Algebra.Order.Ring.Rat
import Mathlib.Order.WithBot
import Mathlib.Tactic.Linarith
import Mathlib.Tactic.Order
import Mathlib.Tactic.Ring
import Mathlib.Tactic.NormNum
import Mathlib.Tactic.Push

/-!
# Specification of numbers and intervals

An extended rational (`EQ`) is -oo, a rational or +oo.  A `Number` denotes an extended rational,
an `Interval` denotes the set of extended rationals between its ends.
-/

namespace SMT.Num

/-- extended rationals: -oo, rationals, +oo with the usual order -/
abbrev EQ := WithBot (WithTop ℚ)

/-- a rational as an extended rational -/
def fin (q : ℚ) : EQ := ((q : WithTop ℚ) : WithBot (WithTop ℚ))

/-- the extended rational a number stands for (NaN has none; the value given here is never used,
because every theorem assumes `Ok`) -/
def Number.w : Number → EQ
  | .int i => fin (i : ℚ)
  | .real .nan => ⊥
  | .real .ninf => ⊥
  | .real (.fin q) => fin q
  | .real .pinf => ⊤

/-- the number is not NaN and, if it is an integer, it fits the working precision -/
def Number.Ok (F : Fmt) : Number → Prop
  | .int i => F.r i = i
  | .real .nan => False
  | .real _ => True

/-- set denoted by an interval -/
def Interval.Mem (x : EQ) (A : Interval) : Prop :=
  (if A.lc then A.lo.w ≤ x else A.lo.w < x) ∧ (if A.rc then x ≤ A.hi.w else x < A.hi.w)

/-- both ends are proper numbers -/
def Interval.Ok (F : Fmt) (A : Interval) : Prop := A.lo.Ok F ∧ A.hi.Ok F

/-- exact arithmetic: no rounding (what MPFR does while results fit the precision) -/
def exact : Fmt := ⟨fun q => q, fun _ _ h => h, fun _ => rfl⟩

/-- a coarse format for examples: rounds down to a multiple of 4 -/
def coarse : Fmt where
  r q := 4 * ((q / 4).floor : ℚ)
  mono a b h := by
    have h1 : (a / 4).floor ≤ (b / 4).floor := by
      rw [Rat.le_floor_iff]
      have := Rat.floor_le (a / 4)
      linarith
    have : ((a / 4).floor : ℚ) ≤ ((b / 4).floor : ℚ) := by exact_mod_cast h1
    linarith
  idem a := by
    have : (4 * ((a / 4).floor : ℚ)) / 4 = ((a / 4).floor : ℚ) := by ring
    rw [this, Rat.floor_intCast]

end SMT.Num
