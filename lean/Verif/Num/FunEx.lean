import Verif.Num.FunSin
import Verif.Num.FunInt
import Verif.Num.FunPow

/-! # C58: the hypotheses of the theorems are met (rounding to multiples of 1/4) -/

set_option linter.unusedVariables false

noncomputable section
namespace SMT.Num
open Number Interval

/-- the interval `[1, 2)` -/
def exI : Interval := ⟨.int 1, .int 2, true, false⟩
theorem exI_ok : exI.Ok gridFmt := ⟨gridLib.small 1 (by decide), gridLib.small 2 (by decide)⟩
theorem exI_lo : exI.lo.Is gridFmt 1 := ⟨by simp [exI, Number.w], exI_ok.1⟩
theorem exI_hi : exI.hi.Is gridFmt 2 := ⟨by simp [exI, Number.w], exI_ok.2⟩
theorem exI_mem : exI.RMem (3 / 2) := by simp only [exI, RMem, LoB, HiB]; norm_num

example : ∃ B, Interval.ln gridLib exI = .ok B ∧ B.RMem (Real.log (3 / 2)) :=
  (logs_enclose gridLib).1 exI exI_ok _ (by norm_num) exI_mem
example : ∃ B, Interval.sqrt gridLib exI = .ok B ∧ B.RMem (Real.sqrt (3 / 2)) :=
  (sqrt_encloses_partial gridLib).1 exI exI_ok _ (by norm_num) exI_mem
example : (Interval.exp gridLib exI).RMem (Real.exp (3 / 2)) := by
  obtain ⟨B, h, h'⟩ := exp_encloses gridLib exI exI_ok _ (Set.mem_univ _) exI_mem
  cases h; exact h'
/-- `[1, 2)` leaves the domain of the arc sine, `[-1, 1]` does not -/
example : Interval.asin gridLib exI = .throw := by
  rcases asin_encloses gridLib exI exI_ok ⟨_, exI_mem⟩ with h | h
  · have := (h.1 _ exI_mem).2; norm_num at this
  · exact h.2
example : ∃ B, Interval.asin gridLib unitI = .ok B ∧ B.RMem (Real.arcsin (1 / 2)) := by
  have hm : unitI.RMem (1 / 2) := by simp only [unitI, RMem, LoB, HiB]; norm_num
  rcases asin_encloses gridLib unitI ⟨gridLib.small _ (by decide), gridLib.small _ (by decide)⟩ ⟨_, hm⟩ with ⟨_, B, h, h'⟩ | ⟨⟨x, h, h'⟩, _⟩
  · exact ⟨B, h, h' _ hm⟩
  · refine absurd ?_ h'
    simp only [unitI, RMem, LoB, HiB, if_true] at h
    push_cast at h
    exact h
example : ∃ B, Interval.acosh gridLib exI = .ok B ∧ B.RMem (Real.arcosh (3 / 2)) := by
  rcases acosh_encloses gridLib exI exI_ok ⟨_, exI_mem⟩ with ⟨_, B, h, h'⟩ | ⟨⟨x, h, h'⟩, _⟩
  · exact ⟨B, h, h' _ exI_mem⟩
  · refine absurd ?_ h'
    simp only [exI, RMem, LoB, HiB, if_true] at h
    push_cast at h
    exact h.1
example : ∃ B, Interval.atanh gridLib ⟨.real (.fin (-1 / 2)), .real (.fin (1 / 2)), true, true⟩ = .ok B ∧ B.RMem (Real.artanh (1 / 4)) :=
  atanh_encloses_partial gridLib _ _ _ (is_real _ _) (is_real _ _) (by norm_num) (by norm_num) _
    (by simp only [RMem, LoB, HiB]; norm_num)
example : ∃ B, Interval.tan gridLib ⟨.int 2, .int 3, true, false⟩ = .ok B ∧ B.RMem (Real.tan (5 / 2)) := by
  have p1 := Real.pi_gt_three
  have p2 := Real.pi_lt_four
  have i2 : (Number.int 2).Is gridFmt 2 := ⟨by simp [Number.w], gridLib.small 2 (by decide)⟩
  have i3 : (Number.int 3).Is gridFmt 3 := ⟨by simp [Number.w], gridLib.small 3 (by decide)⟩
  exact tan_encloses_partial gridLib _ 2 3 i2 i3 1 (by push_cast; linarith) (by push_cast; linarith) _
    (by simp only [RMem, LoB, HiB]; norm_num)
theorem ex_closed : (⟨.int 1, .int 4, true, true⟩ : Interval).RMem 2 := by simp only [RMem, LoB, HiB]; norm_num
theorem ex_is1 : (Number.int 1).Is gridFmt 1 := ⟨by simp [Number.w], gridLib.small 1 (by decide)⟩
theorem ex_is4 : (Number.int 4).Is gridFmt 4 := ⟨by simp [Number.w], gridLib.small 4 (by decide)⟩
/-- `[1, 4]` holds both extremes of the sine and the minimum of the cosine -/
example : ∃ B, Interval.cos gridLib ⟨.int 1, .int 4, true, true⟩ = .ok B ∧ B.RMem (Real.cos 2) :=
  cos_encloses_partial gridLib _ 1 4 ex_is1 ex_is4 (by have := gridLib.small 1 (by decide); simpa using this)
    (by have := gridLib.small 4 (by decide); simpa using this) rfl rfl (by norm_num) (by norm_num) _ ex_closed
theorem grid_half : gridFmt.r (gridLib.rr Real.pi / 2) = gridLib.rr (Real.pi / 2) := by
  have p1 := Real.pi_gt_three
  have p2 := Real.pi_lt_d2
  have f1 : ⌊Real.pi * 4⌋ = 12 := by rw [Int.floor_eq_iff]; push_cast; constructor <;> linarith
  have f2 : ⌊Real.pi / 2 * 4⌋ = 6 := by rw [Int.floor_eq_iff]; push_cast; constructor <;> linarith
  show gridFmt.r (((⌊Real.pi * 4⌋ : ℤ) : ℚ) / 4 / 2) = ((⌊Real.pi / 2 * 4⌋ : ℤ) : ℚ) / 4
  rw [f1, f2]
  have := grid_rep 6
  push_cast at this ⊢
  rw [show (12 : ℚ) / 4 / 2 = 6 / 4 by norm_num]
  exact this
example : ∃ B, Interval.sin gridLib ⟨.int 1, .int 4, true, true⟩ = .ok B ∧ B.RMem (Real.sin 2) :=
  sin_encloses_partial gridLib grid_half _ 1 4 ex_is1 ex_is4 (by have := gridLib.small 1 (by decide); simpa using this)
    (by have := gridLib.small 4 (by decide); simpa using this) rfl rfl (by norm_num) (by norm_num) _ ex_closed

end SMT.Num
