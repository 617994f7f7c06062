import Verif.Num.FunEx

/-! # C58: two more facts about the elementary functions -/

set_option linter.unusedVariables false

noncomputable section
namespace SMT.Num
open Number Interval

variable {F : Fmt} (L : Lib F)

include L in
/-- C58, tangent of an unbounded interval: it takes every value there, and the whole line is returned. -/
theorem tan_unbounded (A : Interval) (hA : A.Ok F) (x : ℝ) (hx : A.RMem x) (hu : A.lo = .real .ninf ∨ A.hi = .real .pinf) (y : ℝ) :
    ∃ B, Interval.tan L A = .ok B ∧ B.RMem y := by
  unfold Interval.tan
  rw [not_empty_of_rmem hA hx]
  obtain ⟨ph, e, -⟩ := pi_half L
  rw [e]
  simp only [Bool.false_eq_true, if_false, Res.ok_bind]
  have : (A.lo.isInf || A.hi.isInf) = true := by
    rcases hu with h | h <;> rw [h] <;> simp [isInf]
  rw [if_pos this]
  exact ⟨_, rfl, trivial, trivial⟩

/-- the range of the hyperbolic cosine of an interval stays in `[1, ∞)` -/
theorem cosh_range (A : Interval) (hA : A.Ok F) (x : ℝ) (hx : A.RMem x) (y : ℝ) (hy : (Interval.cosh L A).RMem y) : 1 ≤ y := by
  unfold Interval.cosh at hy
  rw [not_empty_of_rmem hA hx] at hy
  simp only [Bool.false_eq_true, if_false] at hy
  have one : F.r 1 = 1 := by have := L.quarter 4 (by decide); norm_num at this; exact this
  have key : ∀ p : ℚ, (Number.real (.fin p)).LoB false y → ¬ Number.lt F (.real (.fin p)) (.int 1) = true → 1 ≤ y := by
    intro p h1 h2
    simp only [Number.lt, XR.lt, toReal, Int.cast_one, one, decide_eq_true_eq, not_lt] at h2
    have h3 : (p : ℝ) < y := by simpa [LoB] using h1
    have h4 : (1 : ℝ) ≤ p := by exact_mod_cast h2
    linarith
  have side : ∀ l h : Number, (∃ q, l = .real q) → (coshSide L l h).RMem y → 1 ≤ y := by
    rintro l h ⟨q, rfl⟩ hm
    unfold coshSide at hm
    simp only at hm
    split at hm
    · have := hm.1; simpa [LoB] using this
    · rename_i hlt
      have h1 := hm.1
      cases q with
      | nan => exact absurd h1 (by simp [LoB, Number.nextBelow, XR.nextBelow])
      | ninf => exact absurd hlt (by simp [Number.nextBelow, XR.nextBelow, Number.lt, XR.lt, toReal])
      | pinf => exact key _ h1 hlt
      | fin q => exact key _ h1 hlt
  split at hy
  · exact side _ _ ⟨_, rfl⟩ hy
  · split at hy
    · exact side _ _ ⟨_, rfl⟩ hy
    · have := hy.1; simpa [LoB] using this

example : ∃ B, Interval.tan gridLib ⟨.int 1, .real .pinf, true, false⟩ = .ok B ∧ B.RMem 100 :=
  tan_unbounded gridLib ⟨.int 1, .real .pinf, true, false⟩ ⟨gridLib.small 1 (by decide), trivial⟩ 3 (by simp only [RMem, LoB, HiB]; norm_num) (.inr rfl) 100
example : ∃ y, (Interval.cosh gridLib exI).RMem y ∧ 1 ≤ y := by
  obtain ⟨B, h, h'⟩ := cosh_encloses gridLib exI exI_ok _ (Set.mem_univ _) exI_mem
  cases h
  exact ⟨_, h', cosh_range gridLib exI exI_ok _ exI_mem _ h'⟩

end SMT.Num
