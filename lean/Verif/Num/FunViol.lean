import Verif.Num.FunDom
import Mathlib.Analysis.Real.Pi.Irrational
import Mathlib.Analysis.Real.Pi.Bounds

/-! # C58: functions that do not enclose, and what they do instead -/

set_option linter.unusedVariables false
set_option linter.unusedSimpArgs false

noncomputable section
namespace SMT.Num
open Number Interval

variable {F : Fmt} (L : Lib F)

/-- the point interval of an integer -/
def pt (i : Int) : Interval := ⟨.int i, .int i, true, true⟩

theorem pt_mem (i : Int) : (pt i).RMem i := by simp [pt, RMem, LoB, HiB]
theorem pt_not_empty (i : Int) : isEmpty F (pt i) = false := by simp [pt, isEmpty, gt, le, Number.eq]

include L in
theorem r0 : F.r 0 = 0 := by have := L.small 0 (by decide); simpa using this
include L in
theorem r1 : F.r 1 = 1 := by have := L.small 1 (by decide); simpa using this
include L in
theorem r2 : F.r 2 = 2 := by have := L.small 2 (by decide); simpa using this
include L in
theorem r3 : F.r 3 = 3 := by have := L.small 3 (by decide); simpa using this
theorem rrInt (i : Int) (h : |i| ≤ 10) : L.rr (i : ℝ) = i := by
  have := L.rr_rat (i : ℚ); rw [L.small i h] at this; simpa using this

/-- an open interval with equal ends holds no real -/
theorem open_point (x : Number) (y : ℝ) : ¬ (⟨x, x, false, false⟩ : Interval).RMem y := by
  rcases x with i | (_ | _ | p | _) <;> simp only [RMem, LoB, HiB, if_false, Bool.false_eq_true] <;> intro h
  · exact absurd (h.1.trans h.2) (lt_irrefl _)
  · exact h.1
  · exact h.2
  · exact absurd (h.1.trans h.2) (lt_irrefl _)
  · exact h.1

/-- C58 violated: arc cosine of `[0, 0]` is a single rational, which is not `π/2`, for every precision. -/
theorem acos_violated : ∃ q : ℚ, Interval.acos L (pt 0) = .ok ⟨.real (.fin q), .real (.fin q), true, true⟩ ∧
    (pt 0).RMem 0 ∧ ¬ (⟨.real (.fin q), .real (.fin q), true, true⟩ : Interval).RMem (Real.arccos 0) := by
  refine ⟨L.rr (Real.arccos 0), ?_, by simpa using pt_mem 0, ?_⟩
  · have h0 : toReal F (.int 0) = .fin 0 := by simp [toReal, r0 L]
    have e : Number.acos L (.int 0) = .ok (.real (.fin (L.rr (Real.arccos 0)))) := by
      unfold Number.acos XR.acos
      rw [h0]
      have : (XR.lt (.fin 0) (.fin (-1)) || XR.lt (.fin 1) (.fin 0)) = false := by simp [XR.lt]
      rw [this]
      simp [XR.app]
    unfold Interval.acos
    rw [pt_not_empty]
    have e1 : (pt 0).lo = .int 0 := rfl
    have e2 : (pt 0).hi = .int 0 := rfl
    rw [e1, e2, e]
    simp [lt, gt, le, pt]
  · rw [Real.arccos_zero]
    intro h
    have h1 : ((L.rr (Real.pi / 2) : ℚ) : ℝ) ≤ Real.pi / 2 := by simpa [LoB] using h.1
    have h2 : Real.pi / 2 ≤ ((L.rr (Real.pi / 2) : ℚ) : ℝ) := by simpa [HiB] using h.2
    have h3 := le_antisymm h1 h2
    apply irrational_pi
    refine ⟨L.rr (Real.pi / 2) * 2, ?_⟩
    push_cast
    rw [h3]
    ring

/-- C58, arc cosine, what is left: the rounding of the arc cosine of every real of the interval lies
between the ends of the result. -/
theorem acos_rounded_partial (A : Interval) (a b : ℚ) (ha : A.lo.Is F a) (hb : A.hi.Is F b) (h1 : -1 ≤ a) (h2 : b ≤ 1)
    (x : ℝ) (hx : A.RMem x) : ∃ l h : ℚ, Interval.acos L A = .ok ⟨.real (.fin l), .real (.fin h), A.rc, A.lc⟩ ∧
      l ≤ L.rr (Real.arccos x) ∧ L.rr (Real.arccos x) ≤ h := by
  have hA : A.Ok F := ⟨ha.2, hb.2⟩
  have hax : (a : ℝ) ≤ x := by
    rcases below_cases hA.1 hx.1 with e | ⟨a', ha', -, ha3⟩
    · rw [e] at ha; exact absurd ha.1 (by simp [Number.w])
    · have : a' = a := by have := ha'.1.symm.trans ha.1; simpa using this
      exact this ▸ ha3
  have hxb : x ≤ (b : ℝ) := by
    rcases above_cases hA.2 hx.2 with e | ⟨b', hb', -, hb3⟩
    · rw [e] at hb; exact absurd hb.1 (by simp [Number.w])
    · have : b' = b := by have := hb'.1.symm.trans hb.1; simpa using this
      exact this ▸ hb3
  have hab : a ≤ b := by exact_mod_cast hax.trans hxb
  refine ⟨L.rr (Real.arccos b), L.rr (Real.arccos a), ?_, L.rr_mono _ _ (Real.antitone_arccos hxb),
    L.rr_mono _ _ (Real.antitone_arccos hax)⟩
  have g : ∀ {n : Number} {q : ℚ}, n.Is F q → -1 ≤ q → q ≤ 1 →
      Number.acos L n = .ok (.real (.fin (L.rr (Real.arccos q)))) := by
    intro n q h h1 h2
    unfold Number.acos XR.acos
    have : (XR.lt (toReal F n) (.fin (-1)) || XR.lt (.fin 1) (toReal F n)) = false := by
      rw [is_toReal h]; simp [XR.lt, h1, h2]
    rw [this, is_toReal h]; rfl
  unfold Interval.acos
  rw [not_empty_of_rmem hA hx]
  have t : (Number.lt F A.lo (.int (-1)) || Number.gt F A.hi (.int 1)) = false := by
    rw [Bool.or_eq_false_iff]
    constructor
    · rw [← Bool.not_eq_true, lt_small L ha neg_one_small]; push_cast; exact not_lt.2 h1
    · rw [← Bool.not_eq_true, gt_small L hb one_small]; push_cast; exact not_lt.2 h2
  rw [t, g ha h1 (hab.trans h2), g hb (h1.trans hab) h2]
  rfl

theorem pi_bounds : (3 : ℚ) ≤ L.rr Real.pi ∧ L.rr Real.pi ≤ 13 / 4 := by
  have h1 := L.rr_mono 3 Real.pi Real.pi_gt_three.le
  have h2 := L.rr_mono Real.pi ((13 / 4 : ℚ) : ℝ) (by push_cast; have := Real.pi_lt_d2; linarith)
  have e1 : L.rr (3 : ℝ) = 3 := by have := rrInt L 3 (by decide); simpa using this
  have e2 : L.rr ((13 / 4 : ℚ) : ℝ) = 13 / 4 := by
    rw [L.rr_rat]; have := L.quarter 13 (by decide); simpa using this
  rw [e1] at h1
  rw [e2] at h2
  exact ⟨h1, h2⟩

/-- half of π as the code computes it -/
theorem pi_half : ∃ h : ℚ, Number.div F (Number.pi L) (.int 2) = .ok (.real (.fin h)) ∧ 3 / 2 ≤ h ∧ h ≤ 7 / 4 ∧ F.r h = h := by
  obtain ⟨h1, h2⟩ := pi_bounds L
  refine ⟨F.r (L.rr Real.pi / 2), ?_, ?_, ?_, F.idem _⟩
  · simp [Number.div, Number.pi, toReal, r2 L, XR.div]
  · have := L.quarter 6 (by decide)
    have e : ((6 : Int) : ℚ) / 4 = 3 / 2 := by norm_num
    rw [e] at this
    rw [← this]; exact F.mono _ _ (by linarith)
  · have := L.quarter 7 (by decide)
    have e : ((7 : Int) : ℚ) / 4 = 7 / 4 := by norm_num
    rw [e] at this
    rw [← this]; exact F.mono _ _ (by linarith)

/-- C58 violated: `acot` of every point interval is empty. -/
theorem acot_violated (i : Int) : ∃ c, Interval.acot L (pt i) = .ok ⟨c, c, false, false⟩ ∧ (pt i).RMem i ∧
    ∀ y, ¬ (⟨c, c, false, false⟩ : Interval).RMem y := by
  obtain ⟨h, e, -⟩ := pi_half L
  refine ⟨Number.sub F (.real (.fin h)) (Number.atan L (.int i)), ?_, pt_mem i, fun y => open_point _ y⟩
  unfold Interval.acot
  rw [pt_not_empty, e]
  rfl

/-- C58 violated: `coth` of every point interval other than `[0, 0]` is empty. -/
theorem coth_violated (i : Int) (hi : i ≠ 0) (hr : F.r i = i) : ∃ c, Interval.coth L (pt i) = .ok ⟨c, c, false, false⟩ ∧
    (pt i).RMem i ∧ ∀ y, ¬ (⟨c, c, false, false⟩ : Interval).RMem y := by
  refine ⟨.real (XR.div F (toReal F (.int 1)) (XR.tanh L (toReal F (.int i)))), ?_, pt_mem i, fun y => open_point _ y⟩
  unfold Interval.coth
  rw [pt_not_empty]
  have t : (Number.le F (pt i).lo (.int 0) && Number.ge F (pt i).hi (.int 0)) = false := by
    simp only [pt, le, ge, lt, Bool.and_eq_false_iff, decide_eq_false_iff_not, Bool.not_eq_false']
    rcases lt_or_gt_of_ne hi with h | h
    · right; simpa using h
    · left; simpa using h
  rw [t]
  rfl

/-- `Number::asech` is not the inverse hyperbolic secant: it returns the rounded `tanh`, and at 1 gives a
positive number (at least 1/2) where the inverse hyperbolic secant is 0. -/
theorem number_asech_violated : ∃ q : ℚ, Number.asech L (.int 1) = .real (.fin q) ∧ q = L.rr (Real.tanh 1) ∧ 1 / 2 ≤ q ∧
    Real.arcosh (1 / 1) = 0 := by
  refine ⟨L.rr (Real.tanh 1), ?_, rfl, ?_, by simp [Real.arcosh_zero]⟩
  · simp [Number.asech, toReal, r1 L, XR.tanh, XR.app]
  · have hh : L.rr ((1 / 2 : ℚ) : ℝ) = 1 / 2 := by
      rw [L.rr_rat]; have := L.quarter 2 (by decide)
      have e : ((2 : Int) : ℚ) / 4 = 1 / 2 := by norm_num
      rwa [e] at this
    rw [← hh]
    apply L.rr_mono
    push_cast
    rw [Real.tanh_eq_sinh_div_cosh, div_le_div_iff₀ (by norm_num) (Real.cosh_pos 1), Real.sinh_eq, Real.cosh_eq]
    have h1 : (2 : ℝ) < Real.exp 1 := by have := Real.add_one_lt_exp (x := 1) (by norm_num); linarith
    have h2 : Real.exp (-1) ≤ 1 / 2 := by
      rw [Real.exp_neg, inv_eq_one_div]
      apply one_div_le_one_div_of_le <;> linarith
    linarith

end SMT.Num
