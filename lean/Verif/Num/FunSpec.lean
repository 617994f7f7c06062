import Verif.Num.FunModel
import Verif.Num.PropsMul
import Mathlib.Data.Real.Archimedean

/-!
# Specification of interval functions

A real number lies in an interval when it lies between its ends.  A function on intervals
encloses a real function when the image of every real of the interval lies in the result.
-/

noncomputable section
namespace SMT.Num

/-- the number is at or below (`c`), or strictly below, the real `x`; NaN is not -/
def Number.LoB (c : Bool) (n : Number) (x : ℝ) : Prop :=
  match n with
  | .int i => if c then (i : ℝ) ≤ x else (i : ℝ) < x
  | .real .nan => False
  | .real .ninf => True
  | .real (.fin q) => if c then (q : ℝ) ≤ x else (q : ℝ) < x
  | .real .pinf => False

/-- the number is at or above (`c`), or strictly above, the real `x`; NaN is not -/
def Number.HiB (c : Bool) (n : Number) (x : ℝ) : Prop :=
  match n with
  | .int i => if c then x ≤ (i : ℝ) else x < (i : ℝ)
  | .real .nan => False
  | .real .ninf => False
  | .real (.fin q) => if c then x ≤ (q : ℝ) else x < (q : ℝ)
  | .real .pinf => True

/-- the real `x` lies in the interval -/
def Interval.RMem (x : ℝ) (A : Interval) : Prop := A.lo.LoB A.lc x ∧ A.hi.HiB A.rc x

/-- the interval function `g` returns an interval holding `f x`, for every real `x` of the argument
that lies in `dom` -/
def Encloses (F : Fmt) (dom : Set ℝ) (f : ℝ → ℝ) (g : Interval → Res Interval) : Prop :=
  ∀ A, A.Ok F → ∀ x ∈ dom, A.RMem x → ∃ B, g A = .ok B ∧ B.RMem (f x)

/-- the interval function `g` throws exactly on the intervals that leave `dom`, and encloses `f` on the
others -/
def EnclosesOrThrows (F : Fmt) (dom : Set ℝ) (f : ℝ → ℝ) (g : Interval → Res Interval) : Prop :=
  ∀ A, A.Ok F → (∃ x, A.RMem x) →
    ((∀ x, A.RMem x → x ∈ dom) ∧ ∃ B, g A = .ok B ∧ ∀ x, A.RMem x → B.RMem (f x)) ∨
    ((∃ x, A.RMem x ∧ x ∉ dom) ∧ g A = .throw)

/-- rounding down to a multiple of 1/4, for examples -/
def gridFmt : Fmt where
  r q := ((q * 4).floor : ℚ) / 4
  mono a b h := by
    have : (a * 4).floor ≤ (b * 4).floor := by
      rw [Rat.le_floor_iff]; exact (Rat.floor_le _).trans (by linarith)
    have : ((a * 4).floor : ℚ) ≤ ((b * 4).floor : ℚ) := by exact_mod_cast this
    linarith
  idem a := by
    have : ((a * 4).floor : ℚ) / 4 * 4 = ((a * 4).floor : ℚ) := by ring
    rw [this, Rat.floor_intCast]

theorem grid_rep (k : ℤ) : gridFmt.r ((k : ℚ) / 4) = (k : ℚ) / 4 := by
  show (((k : ℚ) / 4 * 4).floor : ℚ) / 4 = _
  have : (k : ℚ) / 4 * 4 = (k : ℚ) := by ring
  rw [this, Rat.floor_intCast]

/-- a library for examples: round down to multiples of 1/4, neighbours at distance 1/4 -/
def gridLib : Lib gridFmt where
  rr x := ((⌊x * 4⌋ : ℤ) : ℚ) / 4
  rr_mono a b h := by
    have : ⌊a * 4⌋ ≤ ⌊b * 4⌋ := Int.floor_mono (by linarith)
    have : ((⌊a * 4⌋ : ℤ) : ℚ) ≤ ((⌊b * 4⌋ : ℤ) : ℚ) := by exact_mod_cast this
    linarith
  rr_rat q := by
    show ((⌊(q : ℝ) * 4⌋ : ℤ) : ℚ) / 4 = ((q * 4).floor : ℚ) / 4
    congr 2
    rw [Int.floor_eq_iff]
    constructor
    · exact_mod_cast Rat.floor_le (q * 4)
    · have h : q * 4 - 1 < ((q * 4).floor : ℚ) := Rat.lt_floor
      have h2 : q * 4 < ((q * 4).floor : ℚ) + 1 := by linarith
      exact_mod_cast h2
  rr_rep a := grid_rep _
  below q := q - 1 / 4
  above q := q + 1 / 4
  big := 1000000
  below_rep q h := by
    have h' : (((q * 4).floor : ℤ) : ℚ) / 4 = q := h
    have e : q - 1 / 4 = (((q * 4).floor - 1 : ℤ) : ℚ) / 4 := by push_cast; linarith
    rw [e, grid_rep]
  above_rep q h := by
    have h' : (((q * 4).floor : ℤ) : ℚ) / 4 = q := h
    have e : q + 1 / 4 = (((q * 4).floor + 1 : ℤ) : ℚ) / 4 := by push_cast; linarith
    rw [e, grid_rep]
  below_lt q _ := by linarith
  lt_above q _ := by linarith
  below_next q p hq hp h := by
    have hq' : (((q * 4).floor : ℤ) : ℚ) / 4 = q := hq
    have hp' : (((p * 4).floor : ℤ) : ℚ) / 4 = p := hp
    have h1 : (((p * 4).floor : ℤ) : ℚ) < (((q * 4).floor : ℤ) : ℚ) := by linarith
    have h2 : (p * 4).floor + 1 ≤ (q * 4).floor := by exact_mod_cast h1
    have h3 : (((p * 4).floor : ℤ) : ℚ) + 1 ≤ (((q * 4).floor : ℤ) : ℚ) := by exact_mod_cast h2
    linarith
  above_next q p hq hp h := by
    have hq' : (((q * 4).floor : ℤ) : ℚ) / 4 = q := hq
    have hp' : (((p * 4).floor : ℤ) : ℚ) / 4 = p := hp
    have h1 : (((q * 4).floor : ℤ) : ℚ) < (((p * 4).floor : ℤ) : ℚ) := by linarith
    have h2 : (q * 4).floor + 1 ≤ (p * 4).floor := by exact_mod_cast h1
    have h3 : (((q * 4).floor : ℤ) : ℚ) + 1 ≤ (((p * 4).floor : ℤ) : ℚ) := by exact_mod_cast h2
    linarith
  quarter i _ := grid_rep i

/-- small integers are representable -/
theorem Lib.small {F : Fmt} (L : Lib F) (i : Int) (h : |i| ≤ 10) : F.r i = i := by
  have := L.quarter (4 * i) (by rw [abs_mul, show |(4 : Int)| = 4 from rfl]; omega)
  push_cast at this
  have e : (4 * (i : ℚ)) / 4 = i := by ring
  rwa [e] at this

end SMT.Num
