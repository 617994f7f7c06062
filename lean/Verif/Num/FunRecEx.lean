import Verif.Num.FunRec2

/-! # C58: functions through reciprocals: violations and examples -/

set_option linter.unusedVariables false
set_option linter.unusedSimpArgs false

noncomputable section
namespace SMT.Num
open Number Interval

variable {F : Fmt} (L : Lib F)

/-! ## Violations -/

/-- C58 violated: an interval inside the domain with an open end on its border is refused: `asech` of `(0, 1]`, `acsch` of `(0, 1]`,
`acoth` of `(1, 2]` throw, for every precision. -/
theorem reciprocal_border_violated :
    (∀ x : ℝ, (⟨.int 0, .int 1, false, true⟩ : Interval).RMem x ↔ 0 < x ∧ x ≤ 1) ∧
    Interval.asech L ⟨.int 0, .int 1, false, true⟩ = .throw ∧ Interval.acsch L ⟨.int 0, .int 1, false, true⟩ = .throw ∧
    (∀ x : ℝ, (⟨.int 1, .int 2, false, true⟩ : Interval).RMem x ↔ 1 < x ∧ x ≤ 2) ∧
    Interval.acoth L ⟨.int 1, .int 2, false, true⟩ = .throw := by
  refine ⟨fun x => by simp [RMem, LoB, HiB], ?_, ?_, fun x => by simp [RMem, LoB, HiB], ?_⟩
  · simp [Interval.asech, isEmpty, gt, le, Number.eq]
  · simp [Interval.acsch, isEmpty, gt, le, ge, Number.eq, Number.lt]
  · have i1 : (Number.int 1).Is F 1 := one_is L
    have i2 : (Number.int 2).Is F 2 := ⟨by simp [Number.w], L.small 2 (by decide)⟩
    have hA : (⟨.int 1, .int 2, false, true⟩ : Interval).Ok F := ⟨i1.2, i2.2⟩
    have hx : (⟨.int 1, .int 2, false, true⟩ : Interval).RMem 2 := by simp only [RMem, LoB, HiB]; norm_num
    have hs : (⟨.int 1, .int 2, false, true⟩ : Interval).OneSide := by
      left; show fin 0 < (Number.int 1).w; rw [i1.1, fin_lt]; norm_num
    obtain ⟨u, v, hu, hv, e⟩ := divI_one L hA hx hs
    have e1 : invOf F (.int 1) = 1 := by rw [invOf_is i1]; norm_num [r1 L]
    have eh : F.r (1 / 2) = 1 / 2 := by have := L.quarter 2 (by decide); norm_num at this; norm_num [this]
    have e2 : invOf F (.int 2) = 1 / 2 := by rw [invOf_is i2]; exact eh
    simp only [e1, e2] at e hu hv
    unfold Interval.acoth
    rw [not_empty_of_rmem hA hx, e]
    have t : (Number.ge F (.int 1) (.int (-1)) && Number.le F (.int 2) (.int 1)) = false := by simp [le]
    simp only [t, Bool.false_eq_true, if_false, Res.ok_bind]
    norm_num
    unfold Interval.atanh
    have em : isEmpty F ⟨v, u, true, false⟩ = false := by
      unfold isEmpty
      rw [Bool.or_eq_false_iff]
      constructor
      · rw [← Bool.not_eq_true, gt_iff hv.2 hu.2, hu.1, hv.1, fin_lt]; norm_num
      · rw [Bool.and_eq_false_iff]; left
        rw [← Bool.not_eq_true, eq_is hv hu]; norm_num
    rw [em]
    have t2 : Number.ge F u (.int 1) = true := by rw [ge_small L hu one_small]; norm_num
    simp [t2]

theorem grid_r (q : ℚ) (k : ℤ) (h1 : (k : ℚ) ≤ q * 4) (h2 : q * 4 < k + 1) : gridFmt.r q = (k : ℚ) / 4 := by
  show (((q * 4).floor : ℤ) : ℚ) / 4 = _
  have : (q * 4).floor = k := by
    apply le_antisymm
    · have h := Rat.floor_le (q * 4)
      have h3 : (((q * 4).floor : ℤ) : ℚ) < ((k + 1 : ℤ) : ℚ) := by push_cast; linarith
      have h4 : (q * 4).floor < k + 1 := by exact_mod_cast h3
      omega
    · rw [Rat.le_floor_iff]; exact h1
  rw [this]

theorem grid_rr (x : ℝ) (k : ℤ) (h1 : (k : ℝ) ≤ x * 4) (h2 : x * 4 < k + 1) : gridLib.rr x = (k : ℚ) / 4 := by
  show ((⌊x * 4⌋ : ℤ) : ℚ) / 4 = _
  rw [Int.floor_eq_iff.2 ⟨h1, h2⟩]

theorem exp_quarter : Real.exp (1 / 4) < 1.2841 := by
  have h := Real.exp_one_lt_d9
  have e : Real.exp (1 / 4) ^ 4 = Real.exp 1 := by rw [← Real.exp_nat_mul]; norm_num
  by_contra hc
  push Not at hc
  have : (1.2841 : ℝ) ^ 4 ≤ Real.exp (1 / 4) ^ 4 := pow_le_pow_left₀ (by norm_num) hc 4
  rw [e] at this
  norm_num at this h
  linarith

theorem sinh_quarter : Real.sinh (1 / 4) < 1 / 3 := by
  have h := exp_quarter
  have hp := Real.exp_pos (1 / 4)
  have e : Real.exp (-(1 / 4)) = (Real.exp (1 / 4))⁻¹ := Real.exp_neg _
  rw [Real.sinh_eq, e]
  have : (1.2841 : ℝ)⁻¹ ≤ (Real.exp (1 / 4))⁻¹ := inv_anti₀ hp h.le
  norm_num at this ⊢
  linarith

/-- C58 violated by the rounding of the reciprocal: with numbers that are multiples of 1/4, `acsch` of the point 3 does not hold
`arsinh (1/3)`. -/
theorem acsch_rounding_violated : ∃ B, Interval.acsch gridLib (pt 3) = .ok B ∧ (pt 3).RMem 3 ∧ ¬ B.RMem (Real.arsinh (1 / 3)) := by
  have i3 : (Number.int 3).Is gridFmt 3 := ⟨by simp [Number.w], gridLib.small 3 (by decide)⟩
  have hA : (pt 3).Ok gridFmt := ⟨i3.2, i3.2⟩
  have hx : (pt 3).RMem 3 := by have := pt_mem 3; exact_mod_cast this
  have hs : (pt 3).OneSide := by left; show fin 0 < (Number.int 3).w; rw [i3.1, fin_lt]; norm_num
  obtain ⟨u, v, hu, hv, e⟩ := divI_one gridLib hA hx hs
  have ev : invOf gridFmt (.int 3) = 1 / 4 := by
    rw [invOf_is i3, grid_r _ 1 (by norm_num) (by norm_num)]; norm_num
  have e' : Interval.divI gridFmt oneI (pt 3) = .ok ⟨u, u, true, true⟩ := by rw [e]; simp [pt]
  have hu' : u.Is gridFmt (1 / 4) := by rw [← ev]; exact hu
  refine ⟨Interval.asinh gridLib ⟨u, u, true, true⟩, ?_, hx, ?_⟩
  · unfold Interval.acsch
    rw [pt_not_empty]
    have t : (Number.le gridFmt (pt 3).lo (.int 0) && Number.ge gridFmt (pt 3).hi (.int 0)) = false := by simp [pt, le]
    rw [t, e']; rfl
  · have em : isEmpty gridFmt ⟨u, u, true, true⟩ = false := by
      unfold isEmpty
      rw [Bool.or_eq_false_iff]
      refine ⟨?_, by simp⟩
      rw [← Bool.not_eq_true, gt_iff hu'.2 hu'.2]; exact lt_irrefl _
    have q1 : (0 : ℝ) ≤ Real.arsinh (((1 / 4 : ℚ) : ℝ)) := Real.arsinh_nonneg_iff.2 (by norm_num)
    have q2 : Real.arsinh (((1 / 4 : ℚ) : ℝ)) < 1 / 4 := by
      have : Real.arsinh (((1 / 4 : ℚ) : ℝ)) < Real.arsinh (Real.sinh (1 / 4)) := by
        apply Real.arsinh_strictMono
        push_cast
        exact Real.self_lt_sinh_iff.2 (by norm_num)
      rwa [Real.arsinh_sinh] at this
    have hr : gridLib.rr (Real.arsinh (((1 / 4 : ℚ) : ℝ))) = 0 := by
      rw [grid_rr _ 0 (by push_cast; linarith) (by push_cast; linarith)]; norm_num
    unfold Interval.asinh
    rw [em]
    intro h
    have h2 := h.2
    simp only [Bool.false_eq_true, if_false, widen, Number.asinh, XR.asinh, is_toReal hu', XR.app, hr, Number.nextAbove, XR.nextAbove, HiB] at h2
    have h3 : Real.arsinh (1 / 3) < 1 / 4 := by
      have e : gridLib.above 0 = 1 / 4 := by show (0 : ℚ) + 1 / 4 = 1 / 4; norm_num
      rw [e] at h2; push_cast at h2; exact h2
    have h4 := Real.sinh_lt_sinh.2 h3
    rw [Real.sinh_arsinh] at h4
    exact absurd h4 (not_lt.2 sinh_quarter.le)

theorem cosh_two : (15 / 4 : ℝ) ≤ Real.cosh 2 ∧ Real.cosh 2 < 4 := by
  have h1 := Real.exp_one_gt_d9
  have h2 := Real.exp_one_lt_d9
  have e : Real.exp 2 = Real.exp 1 ^ 2 := by rw [← Real.exp_nat_mul]; norm_num
  have en : Real.exp (-2) = (Real.exp 2)⁻¹ := Real.exp_neg _
  have l : (7.38 : ℝ) < Real.exp 2 := by rw [e]; nlinarith
  have h : Real.exp 2 < 7.4 := by rw [e]; nlinarith
  have hp := Real.exp_pos 2
  have i1 : (7.4 : ℝ)⁻¹ ≤ (Real.exp 2)⁻¹ := inv_anti₀ hp h.le
  have i2 : (Real.exp 2)⁻¹ ≤ (7.38 : ℝ)⁻¹ := inv_anti₀ (by norm_num) l.le
  rw [Real.cosh_eq, en]
  norm_num at i1 i2 l h ⊢
  constructor <;> linarith

/-- C58 violated by the rounding of the reciprocal: with numbers that are multiples of 1/4, `sech` of the point 2 is an open interval with
equal ends, which holds nothing. -/
theorem sech_rounding_violated : ∃ c, Interval.sech gridLib (pt 2) = .ok ⟨c, c, false, false⟩ ∧ (pt 2).RMem 2 ∧
    ¬ (⟨c, c, false, false⟩ : Interval).RMem (1 / Real.cosh 2) := by
  have i2 : (Number.int 2).Is gridFmt 2 := ⟨by simp [Number.w], gridLib.small 2 (by decide)⟩
  have hA : (pt 2).Ok gridFmt := ⟨i2.2, i2.2⟩
  have hx : (pt 2).RMem 2 := by have := pt_mem 2; exact_mod_cast this
  have hr : gridLib.rr (Real.cosh ((2 : ℚ) : ℝ)) = 15 / 4 := by
    have := cosh_two
    rw [grid_rr _ 15 (by push_cast; linarith) (by push_cast; linarith)]; norm_num
  have ec : Interval.cosh gridLib (pt 2) = ⟨.real (.fin (7 / 2)), .real (.fin 4), false, false⟩ := by
    unfold Interval.cosh
    rw [pt_not_empty]
    have t : Number.ge gridFmt (pt 2).lo (.int 0) = true := by simp [pt, ge, Number.lt]
    have r : Number.cosh gridLib (.int 2) = .real (.fin (15 / 4)) := by
      unfold Number.cosh XR.cosh
      rw [is_toReal i2]
      simp only [XR.app, hr]
    have b : Number.nextBelow gridLib (.real (.fin (15 / 4))) = .real (.fin (7 / 2)) := by
      show Number.real (.fin (15 / 4 - 1 / 4)) = _; norm_num
    have a : Number.nextAbove gridLib (.real (.fin (15 / 4))) = .real (.fin 4) := by
      show Number.real (.fin (15 / 4 + 1 / 4)) = _; norm_num
    have n : Number.lt gridFmt (.real (.fin (7 / 2))) (.int 1) = false := by
      rw [← Bool.not_eq_true, lt_is (is_real _ _) (one_is gridLib)]; norm_num
    simp only [Bool.false_eq_true, if_false, t, if_true]
    show coshSide gridLib (Number.cosh gridLib (.int 2)) (Number.cosh gridLib (.int 2)) = _
    rw [r]
    unfold coshSide
    simp only [b, a, n, Bool.false_eq_true, if_false]
  have hA' : (⟨.real (.fin (7 / 2)), .real (.fin 4), false, false⟩ : Interval).Ok gridFmt := ⟨trivial, trivial⟩
  have hx' : (⟨.real (.fin (7 / 2)), .real (.fin 4), false, false⟩ : Interval).RMem (15 / 4) := by
    simp only [RMem, LoB, HiB]; norm_num
  have hs : (⟨.real (.fin (7 / 2)), .real (.fin 4), false, false⟩ : Interval).OneSide := by
    left; show fin 0 < fin _; rw [fin_lt]; norm_num
  obtain ⟨u, v, hu, hv, e⟩ := divI_one gridLib hA' hx' hs
  have e1 : invOf gridFmt (.real (.fin (7 / 2))) = 1 / 4 := by
    rw [invOf_is (is_real _ _), grid_r _ 1 (by norm_num) (by norm_num)]; norm_num
  have e2 : invOf gridFmt (.real (.fin 4)) = 1 / 4 := by
    rw [invOf_is (is_real _ _), grid_r _ 1 (by norm_num) (by norm_num)]; norm_num
  simp only [e1, e2, lt_irrefl, if_false] at e hu
  refine ⟨u, ?_, hx, open_point _ _⟩
  unfold Interval.sech
  rw [pt_not_empty, ec, e]
  have t1 : Number.ge gridFmt u (.int 1) = false := by
    rw [← Bool.not_eq_true, ge_small gridLib hu one_small]; norm_num
  have t2 : Number.le gridFmt u (.int 0) = false := by
    rw [← Bool.not_eq_true, le_small gridLib hu zero_small]; norm_num
  simp [t1, t2]

/-! ## Examples -/

/-- the hypotheses are met: `[1, 2]` and rounding to multiples of 1/4 -/
example : ∃ B, Interval.acsch gridLib ⟨.int 1, .int 2, true, true⟩ = .ok B ∧ B.RMem (Real.arsinh (1 / (3 / 2))) := by
  have i1 : (Number.int 1).Is gridFmt 1 := one_is gridLib
  have i2 : (Number.int 2).Is gridFmt 2 := ⟨by simp [Number.w], gridLib.small 2 (by decide)⟩
  refine (acsch_encloses_partial gridLib ⟨.int 1, .int 2, true, true⟩ ⟨i1.2, i2.2⟩ ?_ (3 / 2) (by simp only [RMem, LoB, HiB]; norm_num)).1 ?_
  · left; show fin 0 < (Number.int 1).w; rw [i1.1, fin_lt]; norm_num
  · have un : ∀ {n : Number} {p q : ℚ}, n.Is gridFmt p → n.Is gridFmt q → p = q := by
      intro n p q h h'; have := h.1.symm.trans h'.1; simpa using this
    refine ⟨fun q hq => ?_, fun q hq => ?_⟩
    · rw [← un i1 hq]; have := grid_rep 4; norm_num at this ⊢; exact this
    · rw [← un i2 hq]; have := grid_rep 2; norm_num at this ⊢; exact this
example : ∃ B, Interval.asech gridLib ⟨.real (.fin (1 / 2)), .int 1, true, true⟩ = .ok B ∧
    B.RMem (Real.arcosh (gridLib.rr (1 / (3 / 4)))) := by
  have i1 : (Number.int 1).Is gridFmt 1 := one_is gridLib
  refine (asech_encloses_partial gridLib ⟨.real (.fin (1 / 2)), .int 1, true, true⟩ ⟨trivial, i1.2⟩ ?_ (3 / 4)
    (by simp only [RMem, LoB, HiB]; norm_num)).2 rfl
  refine ⟨?_, ?_⟩
  · show fin 0 < fin _; rw [fin_lt]; norm_num
  · show (Number.int 1).w ≤ _; rw [i1.1]
example : ∃ B, Interval.acsc gridLib ⟨.int 2, .real .pinf, true, false⟩ = .ok B ∧ B.RMem (Real.arcsin (gridLib.rr (1 / 3))) := by
  have i2 : (Number.int 2).Is gridFmt 2 := ⟨by simp [Number.w], gridLib.small 2 (by decide)⟩
  refine (acsc_encloses_partial gridLib ⟨.int 2, .real .pinf, true, false⟩ ⟨i2.2, trivial⟩ ?_ 3
    (by simp only [RMem, LoB, HiB]; norm_num)).2 rfl
  left; show fin 1 ≤ (Number.int 2).w; rw [i2.1, fin_le]; norm_num
example : ∃ B, Interval.asec gridLib ⟨.int 2, .real .pinf, true, false⟩ = .ok B ∧
    B.Hull (gridLib.rr (Real.arccos (gridLib.rr (1 / 3)))) := by
  have i2 : (Number.int 2).Is gridFmt 2 := ⟨by simp [Number.w], gridLib.small 2 (by decide)⟩
  refine (asec_rounded_partial gridLib ⟨.int 2, .real .pinf, true, false⟩ ⟨i2.2, trivial⟩ ?_ 3
    (by simp only [RMem, LoB, HiB]; norm_num)).2 rfl
  left; show fin 1 ≤ (Number.int 2).w; rw [i2.1, fin_le]; norm_num
example : ∃ B, Interval.acoth gridLib ⟨.int 2, .int 4, true, true⟩ = .ok B ∧ B.RMem (Real.artanh (gridLib.rr (1 / 3))) := by
  have i2 : (Number.int 2).Is gridFmt 2 := ⟨by simp [Number.w], gridLib.small 2 (by decide)⟩
  have un : ∀ {n : Number} {p q : ℚ}, n.Is gridFmt p → n.Is gridFmt q → p = q := by
    intro n p q h h'; have := h.1.symm.trans h'.1; simpa using this
  refine (acoth_encloses_partial gridLib ⟨.int 2, .int 4, true, true⟩ ⟨i2.2, ex_is4.2⟩ ⟨?_, fun q hq => ?_, fun q hq => ?_⟩ 3
    (by simp only [RMem, LoB, HiB]; norm_num)).2 rfl
  · left; show fin 1 ≤ (Number.int 2).w; rw [i2.1, fin_le]; norm_num
  · rw [← un i2 hq, grid_r _ 2 (by norm_num) (by norm_num)]; norm_num
  · rw [← un ex_is4 hq, grid_r _ 1 (by norm_num) (by norm_num)]; norm_num
example : ∃ B, Interval.sech gridLib exI = .ok B ∧ B.Hull (gridLib.rr (1 / Real.cosh (3 / 2))) :=
  sech_rounded_partial gridLib exI exI_ok _ exI_mem
/-- `[1, 2)`: the upper end of the enclosure of the hyperbolic sine is above `sinh (3/2) > 0` -/
example : ∃ B, Interval.csch gridLib exI = .ok B ∧ B.Hull (gridLib.rr (1 / Real.sinh (3 / 2))) := by
  refine csch_rounded_partial gridLib exI exI_ok _ exI_mem ?_
  intro h
  obtain ⟨T, eT, hT⟩ := (increasing_enclose gridLib).2.1 exI exI_ok _ (Set.mem_univ _) exI_mem
  cases eT
  have ok : (Interval.sinh gridLib exI).hi.Ok gridFmt := by
    unfold Interval.sinh at hT ⊢
    rw [not_empty_of_rmem exI_ok exI_mem] at hT ⊢
    exact (widen_real_ok gridLib (f := fun n => (toReal gridFmt n).sinh gridLib) hT).1.2
  rcases above_cases ok hT.2 with e | ⟨b, hb, -, h3⟩
  · rw [e] at h; simp only [Number.w, fin] at h
    exact absurd (WithBot.coe_inj.1 h) (by simp)
  · have : b = 0 := by have := hb.1.symm.trans h; simpa using this
    subst this
    have := Real.sinh_pos_iff.2 (show (0 : ℝ) < 3 / 2 by norm_num)
    push_cast at h3; linarith

end SMT.Num
