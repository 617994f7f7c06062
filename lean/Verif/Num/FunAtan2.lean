import Verif.Num.FunTrig
import Mathlib.Analysis.SpecialFunctions.Complex.Arg

/-!
# The two-argument arc tangent on intervals (`src/interval.cpp:2090-2237`, `src/number.cpp:448-453`, `1580-1582`)

`mpfr_atan2` gives the rounded argument of the point `(x, y)`, in `(-π, π]`, with the usual limits at the infinities.
Simplification: zeros have no sign (`atan2(-0, x)` with `x < 0` is `-π` in MPFR; numbers made from integers and from
text without a sign have a positive zero).
-/

set_option linter.unusedVariables false
set_option linter.unusedSimpArgs false

noncomputable section
namespace SMT.Num
open Number Interval

/-! ## Specification -/

/-- the angle of the point `(x, y)`: the argument, in `(-π, π]`, of the complex number `x + i y` -/
def angle (y x : ℝ) : ℝ := Complex.arg ⟨x, y⟩

variable {F : Fmt} (L : Lib F)

/-! ## Model -/

/-- the exact value `mpfr_atan2` rounds (`src/number.cpp:448-453`), for arguments that are not NaN -/
def XR.ang : XR → XR → ℝ
  | .fin y, .fin x => angle y x
  | .fin _, .pinf => 0
  | .fin y, .ninf => if y < 0 then -Real.pi else Real.pi
  | .pinf, .fin _ => Real.pi / 2
  | .ninf, .fin _ => -(Real.pi / 2)
  | .pinf, .pinf => Real.pi / 4
  | .ninf, .pinf => -(Real.pi / 4)
  | .pinf, .ninf => 3 * Real.pi / 4
  | .ninf, .ninf => -(3 * Real.pi / 4)
  | _, _ => 0

/-- `HighPrecisionReal::atan2` (`src/number.cpp:448-453`). -/
def XR.atan2 (y x : XR) : XR :=
  match y, x with
  | .nan, _ => .nan
  | _, .nan => .nan
  | y, x => .fin (L.rr (XR.ang y x))

/-- `Number::atan2` (`src/number.cpp:1580-1582`). -/
def Number.atan2 (y x : Number) : Number := .real ((toReal F y).atan2 L (toReal F x))

/-- `Number::isNaN` (`src/number.cpp:1164-1169`). -/
def Number.isNaN : Number → Bool
  | .real .nan => true
  | _ => false

namespace Interval

/-- the clamp and widening at the end of both functions (`src/interval.cpp:2116-2135`, `2216-2235`) -/
def clampPi (l h : Number) : Interval :=
  let np := Number.neg (Number.pi L)
  let p := Number.pi L
  let a := if Number.lt F l np then (np, true) else (l.nextBelow L, false)
  let b := if Number.gt F h p then (p, true) else (h.nextAbove L, false)
  ⟨a.1, b.1, a.2, b.2⟩

/-- `atan2` of an interval and a number (`src/interval.cpp:2091-2136`). -/
def atan2N (A : Interval) (x : Number) : Interval :=
  if isEmpty F A || x.isNaN then emptyI
  else
    let l := Number.atan2 L A.lo x
    let h := Number.atan2 L A.hi x
    if Number.lt F A.lo (.int 0) && Number.gt F A.hi (.int 0) && Number.lt F x (.int 0) then
      ⟨Number.neg (Number.pi L), Number.pi L, true, true⟩
    else if Number.gt F l h then clampPi L h l
    else clampPi L l h

/-- `atan2` of two intervals (`src/interval.cpp:2138-2237`). The closedness computed from the corners
(`2196-2214`) is overwritten by the widening. -/
def atan2I (A B : Interval) : Res Interval :=
  if isEmpty F A || isEmpty F B then .ok emptyI
  else if (Number.le F A.lo (.int 0) && Number.ge F A.hi (.int 0)) &&
          (Number.le F B.lo (.int 0) && Number.ge F B.hi (.int 0)) then
    .ok ⟨Number.neg (Number.pi L), Number.pi L, true, true⟩
  else if (Number.lt F A.lo (.int 0) && Number.gt F A.hi (.int 0)) && Number.lt F B.hi (.int 0) then
    .ok ⟨Number.neg (Number.pi L), Number.pi L, true, true⟩
  else if (Number.lt F A.lo (.int 0) && Number.gt F A.hi (.int 0)) && Number.gt F B.lo (.int 0) then do
    let a ← Number.div F (Number.neg (Number.pi L)) (.int 2)
    let b ← Number.div F (Number.pi L) (.int 2)
    .ok ⟨a, b, true, true⟩
  else if (Number.lt F B.lo (.int 0) && Number.gt F B.hi (.int 0)) && Number.gt F A.lo (.int 0) then
    .ok ⟨.int 0, Number.pi L, true, true⟩
  else if (Number.lt F B.lo (.int 0) && Number.gt F B.hi (.int 0)) && Number.lt F A.hi (.int 0) then
    .ok ⟨Number.neg (Number.pi L), .int 0, true, true⟩
  else
    let v0 := Number.atan2 L A.lo B.lo
    let v1 := Number.atan2 L A.lo B.hi
    let v2 := Number.atan2 L A.hi B.lo
    let v3 := Number.atan2 L A.hi B.hi
    let m := minL F v0 [v1, v2, v3]
    let M := maxL F v0 [v1, v2, v3]
    if Number.gt F (Number.sub F M m) (Number.pi L) then .ok ⟨Number.neg (Number.pi L), Number.pi L, true, true⟩
    else .ok (clampPi L m M)
end Interval

/-! ## The angle in each half plane -/

theorem angle_of {y x r t : ℝ} (hr : 0 < r) (hx : x = r * Real.cos t) (hy : y = r * Real.sin t) (h1 : -Real.pi < t)
    (h2 : t ≤ Real.pi) : angle y x = t := by
  have e : (⟨x, y⟩ : ℂ) = (r : ℂ) * (Complex.cos (t : ℝ) + Complex.sin (t : ℝ) * Complex.I) := by
    rw [← Complex.ofReal_cos, ← Complex.ofReal_sin]
    apply Complex.ext
    · rw [Complex.re_ofReal_mul]; simp only [Complex.add_re, Complex.ofReal_re, Complex.mul_re, Complex.ofReal_im, Complex.I_re,
        Complex.I_im]; rw [hx]; ring
    · rw [Complex.im_ofReal_mul]; simp only [Complex.add_im, Complex.ofReal_re, Complex.mul_im, Complex.ofReal_im, Complex.I_re,
        Complex.I_im]; rw [hy]; ring
  unfold angle
  rw [e, Complex.arg_mul_cos_add_sin_mul_I hr ⟨h1, h2⟩]

theorem sin_arctan_mul (z : ℝ) : Real.sin (Real.arctan z) = z * Real.cos (Real.arctan z) := by
  have := Real.tan_arctan z
  rw [Real.tan_eq_sin_div_cos, div_eq_iff (Real.cos_arctan_pos z).ne'] at this
  exact this

theorem angle_right {y x : ℝ} (h : 0 < x) : angle y x = Real.arctan (y / x) := by
  have hc := Real.cos_arctan_pos (y / x)
  have h1 := Real.neg_pi_div_two_lt_arctan (y / x)
  have h2 := Real.arctan_lt_pi_div_two (y / x)
  have := Real.pi_pos
  refine angle_of (r := x / Real.cos (Real.arctan (y / x))) (by positivity) ?_ ?_ (by linarith) (by linarith)
  · rw [div_mul_cancel₀ _ hc.ne']
  · rw [sin_arctan_mul, div_mul_eq_mul_div, mul_left_comm, mul_div_assoc, mul_div_assoc, div_self hc.ne', mul_one,
      div_mul_cancel₀ _ h.ne']

theorem angle_up {y x : ℝ} (h : 0 < y) : angle y x = Real.pi / 2 - Real.arctan (x / y) := by
  have hc := Real.cos_arctan_pos (x / y)
  have h1 := Real.neg_pi_div_two_lt_arctan (x / y)
  have h2 := Real.arctan_lt_pi_div_two (x / y)
  have := Real.pi_pos
  refine angle_of (r := y / Real.cos (Real.arctan (x / y))) (by positivity) ?_ ?_ (by linarith) (by linarith)
  · rw [Real.cos_pi_div_two_sub, sin_arctan_mul, div_mul_eq_mul_div, mul_left_comm, mul_div_assoc, mul_div_assoc, div_self hc.ne',
      mul_one, div_mul_cancel₀ _ h.ne']
  · rw [Real.sin_pi_div_two_sub, div_mul_cancel₀ _ hc.ne']

theorem angle_neg {y x : ℝ} (h : y ≠ 0) : angle (-y) x = -angle y x := by
  unfold angle
  have : (⟨x, -y⟩ : ℂ) = (starRingEnd ℂ) ⟨x, y⟩ := by apply Complex.ext <;> simp
  rw [this, Complex.arg_conj, if_neg]
  rw [Complex.arg_eq_pi_iff]
  simp [h]

theorem angle_down {y x : ℝ} (h : y < 0) : angle y x = -(Real.pi / 2) - Real.arctan (x / y) := by
  have := angle_neg (y := -y) (x := x) (by linarith)
  rw [neg_neg] at this
  rw [this, angle_up (by linarith), div_neg, Real.arctan_neg]
  ring

theorem angle_zero_neg {x : ℝ} (h : x < 0) : angle 0 x = Real.pi := by
  unfold angle
  rw [Complex.arg_eq_pi_iff]
  exact ⟨h, rfl⟩

theorem angle_zero_right {x : ℝ} (h : 0 < x) : angle 0 x = 0 := by rw [angle_right h]; simp

theorem angle_le_pi (y x : ℝ) : angle y x ≤ Real.pi := Complex.arg_le_pi _
theorem neg_pi_lt_angle (y x : ℝ) : -Real.pi < angle y x := Complex.neg_pi_lt_arg _
theorem angle_nonneg {y : ℝ} (x : ℝ) (h : 0 ≤ y) : 0 ≤ angle y x := Complex.arg_nonneg_iff.2 h
theorem angle_neg_of {y : ℝ} (x : ℝ) (h : y < 0) : angle y x < 0 := Complex.arg_neg_iff.2 h

end SMT.Num
