import Verif.Num.FunViol

/-! # C58: tangent, sine and cosine of intervals -/

set_option linter.unusedVariables false
set_option linter.unusedSimpArgs false

noncomputable section
namespace SMT.Num
open Number Interval

variable {F : Fmt} (L : Lib F)

/-! ## tangent -/

theorem div_real_ok (a : Number) (x : XR) : Number.div F a (.real x) = .ok (.real (XR.div F (toReal F a) x)) := by
  cases a <;> rfl

theorem tanReduce_ok (x : Number) (ph : Number) : ∃ y, tanReduce (F := F) (Number.pi L) ph x = .ok y := by
  unfold tanReduce Number.pi
  rw [div_real_ok]
  exact ⟨_, rfl⟩

/-- a real in an interval with finite ends lies between them -/
theorem rmem_between {A : Interval} {a b : ℚ} (ha : A.lo.Is F a) (hb : A.hi.Is F b) {x : ℝ} (hx : A.RMem x) :
    (a : ℝ) ≤ x ∧ x ≤ (b : ℝ) := by
  constructor
  · rcases below_cases ha.2 hx.1 with e | ⟨a', ha', -, ha3⟩
    · rw [e] at ha; exact absurd ha.1 (by simp [Number.w])
    · have : a' = a := by have := ha'.1.symm.trans ha.1; simpa using this
      exact this ▸ ha3
  · rcases above_cases hb.2 hx.2 with e | ⟨b', hb', -, hb3⟩
    · rw [e] at hb; exact absurd hb.1 (by simp [Number.w])
    · have : b' = b := by have := hb'.1.symm.trans hb.1; simpa using this
      exact this ▸ hb3

theorem tan_mono_branch (k : ℤ) {a b : ℝ} (h1 : -(Real.pi / 2) + k * Real.pi < a) (h2 : b < Real.pi / 2 + k * Real.pi)
    (h : a ≤ b) : Real.tan a ≤ Real.tan b := by
  have ea : Real.tan (a - k * Real.pi) = Real.tan a := Real.tan_periodic.sub_int_mul_eq k
  have eb : Real.tan (b - k * Real.pi) = Real.tan b := Real.tan_periodic.sub_int_mul_eq k
  rw [← ea, ← eb]
  exact Real.strictMonoOn_tan.monotoneOn ⟨by linarith, by linarith⟩ ⟨by linarith, by linarith⟩ (by linarith)

/-- C58, tangent: on every bounded interval whose ends lie in one branch of the tangent, the result
holds the tangent of each of its reals, for every rounding.  Missing: intervals over a pole (see
`tan_violated`). -/
theorem tan_encloses_partial (A : Interval) (a b : ℚ) (ha : A.lo.Is F a) (hb : A.hi.Is F b) (k : ℤ)
    (h1 : -(Real.pi / 2) + k * Real.pi < a) (h2 : b < Real.pi / 2 + k * Real.pi) (x : ℝ) (hx : A.RMem x) :
    ∃ B, Interval.tan L A = .ok B ∧ B.RMem (Real.tan x) := by
  have hA : A.Ok F := ⟨ha.2, hb.2⟩
  obtain ⟨hax, hxb⟩ := rmem_between ha hb hx
  unfold Interval.tan
  rw [not_empty_of_rmem hA hx]
  obtain ⟨ph, e, -⟩ := pi_half L
  obtain ⟨lm, e1⟩ := tanReduce_ok L A.lo (.real (.fin ph))
  obtain ⟨hm, e2⟩ := tanReduce_ok L A.hi (.real (.fin ph))
  rw [e]
  simp only [Bool.false_eq_true, if_false, Res.ok_bind, isInf_is ha, isInf_is hb, Bool.or_self, e1, e2]
  split
  · exact ⟨_, rfl, trivial, trivial⟩
  · have m1 : Real.tan a ≤ Real.tan x := tan_mono_branch k h1 (hxb.trans_lt h2) hax
    have m2 : Real.tan x ≤ Real.tan b := tan_mono_branch k (h1.trans_le hax) h2 hxb
    have hg : Number.gt F (Number.tan L A.lo) (Number.tan L A.hi) = false := by
      rw [← Bool.not_eq_true, Number.tan, Number.tan, XR.tan, XR.tan, is_toReal ha, is_toReal hb]
      simp only [XR.app]
      rw [gt_iff (is_real _ _).2 (is_real _ _).2]
      simp only [Number.w, fin_lt, not_lt]
      exact L.rr_mono _ _ (m1.trans m2)
    rw [hg]
    exact ⟨_, rfl, lower_end L ha m1 false, upper_end L hb m2 false⟩

include L in
theorem grid_step (k : Int) {q : ℚ} (hk : |k| ≤ 40) : ((k : ℚ) / 4 ≤ q → (k : ℚ) / 4 ≤ F.r q) ∧
    (q ≤ (k : ℚ) / 4 → F.r q ≤ (k : ℚ) / 4) := by
  constructor <;> intro h
  · have := F.mono _ _ h; rwa [L.quarter k hk] at this
  · have := F.mono _ _ h; rwa [L.quarter k hk] at this

theorem floor_zero {q : ℚ} (h0 : 0 ≤ q) (h1 : q < 1) : q.floor = 0 := by
  apply le_antisymm
  · rw [← Int.lt_add_one_iff, zero_add]
    have h := Rat.floor_le q
    have : (q.floor : ℚ) < 1 := h.trans_lt h1
    exact_mod_cast this
  · rw [Rat.le_floor_iff]; exact_mod_cast h0

/-- C58 violated: `tan` of `[1, 2]`, which holds the pole `π/2`, is a bounded interval: some real of the
interval (not a pole) has its tangent outside, for every precision. -/
theorem tan_violated : ∃ l h : ℚ, Interval.tan L ⟨.int 1, .int 2, true, true⟩ = .ok ⟨.real (.fin l), .real (.fin h), false, false⟩ ∧
    ∃ x : ℝ, (⟨.int 1, .int 2, true, true⟩ : Interval).RMem x ∧ Real.cos x ≠ 0 ∧
      ¬ (⟨.real (.fin l), .real (.fin h), false, false⟩ : Interval).RMem (Real.tan x) := by
  obtain ⟨p3, p4⟩ := pi_bounds L
  obtain ⟨ph, e, hp1, hp2, hpr⟩ := pi_half L
  have hpi : Number.pi L = .real (.fin (L.rr Real.pi)) := rfl
  have pp : (0 : ℚ) < L.rr Real.pi := by linarith
  have key : ∃ l h : ℚ, Interval.tan L ⟨.int 1, .int 2, true, true⟩ = .ok ⟨.real (.fin l), .real (.fin h), false, false⟩ := by
    unfold Interval.tan
    have hE : isEmpty F ⟨.int 1, .int 2, true, true⟩ = false := by simp [isEmpty, gt, le, Number.eq]
    rw [hE, e]
    have fl : ∀ (i : Int) (q : ℚ), F.r i = i → 0 ≤ q → q ≤ 3 / 4 → (i : ℚ) / L.rr Real.pi = q →
        (Number.sub F (.int i) (Number.mul F (Number.real (XR.div F (toReal F (.int i)) (.fin (L.rr Real.pi)))).floor
          (Number.pi L))) = .real (.fin i) := by
      intro i q hi h0 h1 hq
      have g0 := (grid_step L 0 (q := q) (by decide)).1 (by simpa using h0)
      have g1 := (grid_step L 3 (q := q) (by decide)).2 (by push_cast; linarith)
      have g0' : 0 ≤ F.r q := by simpa using g0
      have g1' : F.r q < 1 := by push_cast at g1; linarith
      have : (F.r q).floor = 0 := floor_zero g0' g1'
      simp only [toReal, XR.div, hi, pp.ne', if_false, hq, Number.floor, XR.floor, this, Number.mul, hpi, XR.mul, Number.sub,
        XR.sub, XR.neg, XR.add]
      have r0' : F.r 0 = 0 := r0 L
      norm_num [r0', hi]
    have b1 : tanReduce (F := F) (Number.pi L) (.real (.fin ph)) (.int 1) = .ok (.real (.fin 1)) := by
      unfold tanReduce
      have d := div_real_ok (F := F) (.int 1) (.fin (L.rr Real.pi))
      rw [← hpi] at d
      rw [d]
      have := fl 1 (1 / L.rr Real.pi) (L.small 1 (by decide)) (by positivity)
        (by rw [div_le_div_iff₀ pp (by norm_num)]; linarith) (by norm_num)
      simp only [Res.ok_bind, this]
      have n1 : Number.lt F (.real (.fin ((1 : Int) : ℚ))) (Number.real (.fin ph)).neg = false := by
        simp only [Number.lt, Number.neg, XR.neg, toReal, XR.lt, decide_eq_false_iff_not, not_lt]
        push_cast; linarith
      have n2 : Number.ge F (.real (.fin ((1 : Int) : ℚ))) (Number.real (.fin ph)) = false := by
        simp only [Number.ge, Number.lt, toReal, XR.lt, Bool.not_eq_false', decide_eq_true_eq]
        push_cast; linarith
      rw [n1]
      simp only [Bool.false_eq_true, if_false]
      rw [n2]
      simp
    have b2 : ∃ y : ℚ, tanReduce (F := F) (Number.pi L) (.real (.fin ph)) (.int 2) = .ok (.real (.fin y)) ∧ y ≤ -1 ∧ -(5/4) ≤ y := by
      unfold tanReduce
      have d := div_real_ok (F := F) (.int 2) (.fin (L.rr Real.pi))
      rw [← hpi] at d
      rw [d]
      have := fl 2 (2 / L.rr Real.pi) (L.small 2 (by decide)) (by positivity)
        (by rw [div_le_div_iff₀ pp (by norm_num)]; linarith) (by norm_num)
      simp only [Res.ok_bind, this]
      have n1 : Number.lt F (.real (.fin ((2 : Int) : ℚ))) (Number.real (.fin ph)).neg = false := by
        simp only [Number.lt, Number.neg, XR.neg, toReal, XR.lt, decide_eq_false_iff_not, not_lt]
        push_cast; linarith
      have n2 : Number.ge F (.real (.fin ((2 : Int) : ℚ))) (Number.real (.fin ph)) = true := by
        simp only [Number.ge, Number.lt, toReal, XR.lt, Bool.not_eq_true', decide_eq_false_iff_not, not_lt]
        push_cast; linarith
      rw [n1]
      simp only [Bool.false_eq_true, if_false]
      rw [n2]
      refine ⟨F.r (2 + -L.rr Real.pi), by simp [Number.subAsg, hpi, XR.sub, XR.neg, XR.add, toReal], ?_, ?_⟩
      · have := (grid_step L (-4) (q := 2 + -L.rr Real.pi) (by decide)).2 (by push_cast; linarith)
        push_cast at this; linarith
      · have := (grid_step L (-5) (q := 2 + -L.rr Real.pi) (by decide)).1 (by push_cast; linarith)
        push_cast at this; linarith
    obtain ⟨y, b2, hy1, hy2⟩ := b2
    simp only [Bool.false_eq_true, if_false, Res.ok_bind, Number.isInf, Bool.or_self, b1, b2]
    have c1 : Number.le F (.real (.fin 1)) (Number.real (.fin ph)).neg = false := by
      simp only [Number.le, Number.neg, XR.neg, toReal, XR.le, XR.lt, XR.eq, Bool.or_eq_false_iff, decide_eq_false_iff_not, not_lt]
      constructor
      · linarith
      · intro h; linarith
    have c2 : Number.ge F (.real (.fin y)) (Number.real (.fin ph)) = false := by
      simp only [Number.ge, Number.lt, toReal, XR.lt, Bool.not_eq_false', decide_eq_true_eq]
      linarith
    rw [c1, c2]
    simp only [Bool.false_and, Bool.and_false, Bool.or_self, Bool.false_eq_true, if_false]
    split
    · exact ⟨_, _, rfl⟩
    · exact ⟨_, _, rfl⟩
  obtain ⟨l, h, hk⟩ := key
  refine ⟨l, h, hk, ?_⟩
  have hpi2 : (1 : ℝ) < Real.pi / 2 := by have := Real.pi_gt_three; linarith
  have hpi3 : Real.pi / 2 < 2 := by have := Real.pi_lt_four; linarith
  refine ⟨Real.arctan (max (h : ℝ) (Real.tan 1) + 1), ?_, (Real.cos_arctan_pos _).ne', ?_⟩
  · have h1 : (1 : ℝ) ≤ Real.arctan (max (h : ℝ) (Real.tan 1) + 1) := by
      have e1 : Real.arctan (Real.tan 1) = 1 := Real.arctan_tan (by linarith) hpi2
      conv_lhs => rw [← e1]
      apply Real.arctan_mono
      have := le_max_right (h : ℝ) (Real.tan 1)
      linarith
    have h2 := Real.arctan_lt_pi_div_two (max (h : ℝ) (Real.tan 1) + 1)
    simp only [RMem, LoB, HiB, if_true]
    push_cast
    exact ⟨h1, by linarith⟩
  · rw [Real.tan_arctan]
    rintro ⟨-, h2⟩
    simp only [HiB, Bool.false_eq_true, if_false] at h2
    have := le_max_left (h : ℝ) (Real.tan 1)
    linarith

end SMT.Num
