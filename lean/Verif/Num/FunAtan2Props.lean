import Verif.Num.FunAtan2
import Verif.Num.FunSin

/-! # C58: the two-argument arc tangent of intervals -/

set_option linter.unusedVariables false
set_option linter.unusedSimpArgs false

noncomputable section
namespace SMT.Num
open Number Interval

variable {F : Fmt} (L : Lib F)

/-- the exact value at a corner -/
def corner (F : Fmt) (m n : Number) : ℝ := XR.ang (toReal F m) (toReal F n)

theorem atan2_eq {m n : Number} (hm : m.Ok F) (hn : n.Ok F) : Number.atan2 L m n = .real (.fin (L.rr (corner F m n))) := by
  unfold Number.atan2 corner XR.atan2
  rcases m with i | (_ | _ | p | _) <;> rcases n with j | (_ | _ | q | _) <;> first | rfl | exact (show False from hm).elim | exact (show False from hn).elim

theorem corner_le_pi (m n : Number) : corner F m n ≤ Real.pi := by
  have := Real.pi_pos
  unfold corner XR.ang
  split <;> first | exact angle_le_pi _ _ | linarith | (split <;> linarith)

theorem lo_real {A : Interval} (hA : A.Ok F) {y : ℝ} (hy : A.RMem y) :
    (A.lo = .real .ninf) ∨ ∃ a : ℚ, A.lo.Is F a ∧ (a : ℝ) ≤ y := by
  rcases below_cases hA.1 hy.1 with h | ⟨a, h, _, h2⟩
  · exact .inl h
  · exact .inr ⟨a, h, h2⟩
theorem hi_real {A : Interval} (hA : A.Ok F) {y : ℝ} (hy : A.RMem y) :
    (A.hi = .real .pinf) ∨ ∃ a : ℚ, A.hi.Is F a ∧ y ≤ (a : ℝ) := by
  rcases above_cases hA.2 hy.2 with h | ⟨a, h, _, h2⟩
  · exact .inl h
  · exact .inr ⟨a, h, h2⟩

theorem w_lo_fin {A : Interval} (hA : A.Ok F) {y : ℝ} (hy : A.RMem y) (h : fin 0 ≤ A.lo.w) :
    ∃ a : ℚ, A.lo.Is F a ∧ (a : ℝ) ≤ y ∧ 0 ≤ a := by
  rcases lo_real hA hy with e | ⟨a, ha, h2⟩
  · rw [e] at h; exact absurd h (by simp [Number.w, fin])
  · refine ⟨a, ha, h2, ?_⟩
    rw [ha.1] at h; simpa [fin_le] using h
theorem w_hi_fin {A : Interval} (hA : A.Ok F) {y : ℝ} (hy : A.RMem y) (h : A.hi.w ≤ fin 0) :
    ∃ a : ℚ, A.hi.Is F a ∧ y ≤ (a : ℝ) ∧ a ≤ 0 := by
  rcases hi_real hA hy with e | ⟨a, ha, h2⟩
  · rw [e] at h; exact absurd h (not_le.2 (WithBot.coe_lt_coe.2 (WithTop.coe_lt_top _)))
  · refine ⟨a, ha, h2, ?_⟩
    rw [ha.1] at h; simpa [fin_le] using h

theorem arctan_mono {a b : ℝ} (h : a ≤ b) : Real.arctan a ≤ Real.arctan b := Real.arctan_strictMono.monotone h
theorem arctan_nonneg' {a : ℝ} (h : 0 ≤ a) : 0 ≤ Real.arctan a := by have := arctan_mono h; simpa using this
theorem arctan_nonpos' {a : ℝ} (h : a ≤ 0) : Real.arctan a ≤ 0 := by have := arctan_mono h; simpa using this

section quadrants
variable {A B : Interval} (hA : A.Ok F) (hB : B.Ok F) {x y : ℝ} (hy : A.RMem y) (hx : B.RMem x)
include hA hB hy hx

/-- first quadrant -/
theorem quad1 (ha : fin 0 ≤ A.lo.w) (hb : fin 0 ≤ B.lo.w) (hz : fin 0 < A.lo.w ∨ fin 0 < B.lo.w) :
    corner F A.lo B.hi ≤ angle y x ∧ angle y x ≤ corner F A.hi B.lo := by
  obtain ⟨a, ia, ay, a0⟩ := w_lo_fin hA hy ha
  obtain ⟨c, ic, cx, c0⟩ := w_lo_fin hB hx hb
  have hz : 0 < a ∨ 0 < c := by
    rw [ia.1, ic.1] at hz; simpa [fin_lt] using hz
  have a0' : (0 : ℝ) ≤ a := by exact_mod_cast a0
  have c0' : (0 : ℝ) ≤ c := by exact_mod_cast c0
  have y0 : 0 ≤ y := a0'.trans ay
  have x0 : 0 ≤ x := c0'.trans cx
  have lehalf : angle y x ≤ Real.pi / 2 := by
    rcases y0.lt_or_eq with yp | ye
    · rw [angle_up yp]; have := arctan_nonneg' (show 0 ≤ x / y by positivity); linarith
    · have : (0 : ℝ) < x := by
        rcases hz with h | h
        · have h' : (0 : ℝ) < a := by exact_mod_cast h
          linarith
        · have h' : (0 : ℝ) < c := by exact_mod_cast h
          linarith
      rw [← ye, angle_zero_right this]; have := Real.pi_pos; linarith
  constructor
  · unfold corner
    rw [is_toReal ia]
    rcases hi_real hB hx with e | ⟨d, id', xd⟩
    · rw [e]; exact angle_nonneg x y0
    · rw [is_toReal id']
      show angle a d ≤ angle y x
      rcases a0.lt_or_eq with ap | ae
      · have ap' : (0 : ℝ) < a := by exact_mod_cast ap
        have yp : 0 < y := by linarith
        rw [angle_up ap', angle_up yp]
        have : x / y ≤ d / a := div_le_div₀ (x0.trans xd) xd ap' ay
        have := arctan_mono this
        linarith
      · have cp : (0 : ℚ) < c := by rcases hz with h | h; · linarith
                                    · exact h
        have cp' : (0 : ℝ) < c := by exact_mod_cast cp
        rw [← ae, Rat.cast_zero, angle_zero_right (by linarith)]
        exact angle_nonneg x y0
  · unfold corner
    rw [is_toReal ic]
    rcases hi_real hA hy with e | ⟨b, ib, yb⟩
    · rw [e]; exact lehalf
    · rw [is_toReal ib]
      show angle y x ≤ angle b c
      rcases c0.lt_or_eq with cp | ce
      · have cp' : (0 : ℝ) < c := by exact_mod_cast cp
        have xp : 0 < x := by linarith
        rw [angle_right xp, angle_right cp']
        exact arctan_mono (div_le_div₀ (y0.trans yb) yb cp' cx)
      · have ap : (0 : ℚ) < a := by rcases hz with h | h; · exact h
                                    · linarith
        have ap' : (0 : ℝ) < a := by exact_mod_cast ap
        rw [← ce, Rat.cast_zero, angle_up (show (0 : ℝ) < b by linarith)]
        simpa using lehalf

/-- second quadrant -/
theorem quad2 (ha : fin 0 ≤ A.lo.w) (hb : B.hi.w ≤ fin 0) (hz : fin 0 < A.lo.w ∨ B.hi.w < fin 0) :
    corner F A.hi B.hi ≤ angle y x ∧ angle y x ≤ corner F A.lo B.lo := by
  obtain ⟨a, ia, ay, a0⟩ := w_lo_fin hA hy ha
  obtain ⟨d, id', xd, d0⟩ := w_hi_fin hB hx hb
  have hz : 0 < a ∨ d < 0 := by
    rw [ia.1, id'.1] at hz; simpa [fin_lt] using hz
  have a0' : (0 : ℝ) ≤ a := by exact_mod_cast a0
  have d0' : (d : ℝ) ≤ 0 := by exact_mod_cast d0
  have y0 : 0 ≤ y := a0'.trans ay
  have x0 : x ≤ 0 := xd.trans d0'
  have xneg : y = 0 → x < 0 := by
    intro h
    rcases hz with h' | h'
    · have h'' : (0 : ℝ) < a := by exact_mod_cast h'
      linarith
    · have h'' : (d : ℝ) < 0 := by exact_mod_cast h'
      linarith
  constructor
  · unfold corner
    rw [is_toReal id']
    rcases y0.lt_or_eq with yp | ye
    · rcases hi_real hA hy with e | ⟨b, ib, yb⟩
      · rw [e]
        show Real.pi / 2 ≤ angle y x
        rw [angle_up yp]
        have := arctan_nonpos' (div_nonpos_of_nonpos_of_nonneg x0 y0)
        linarith
      · rw [is_toReal ib]
        show angle b d ≤ angle y x
        have bp : (0 : ℝ) < b := by linarith
        rw [angle_up yp, angle_up bp]
        have : x / y ≤ d / b := by
          rw [div_le_div_iff₀ yp bp]
          nlinarith
        have := arctan_mono this
        linarith
    · rw [← ye, angle_zero_neg (xneg ye.symm)]
      have := corner_le_pi (F := F) A.hi (.real (.fin d))
      exact this
  · unfold corner
    rw [is_toReal ia]
    rcases lo_real hB hx with e | ⟨c, ic, cx⟩
    · rw [e]
      show angle y x ≤ if a < 0 then -Real.pi else Real.pi
      rw [if_neg (by linarith)]
      exact angle_le_pi _ _
    · rw [is_toReal ic]
      show angle y x ≤ angle a c
      rcases a0.lt_or_eq with ap | ae
      · have ap' : (0 : ℝ) < a := by exact_mod_cast ap
        have yp : 0 < y := by linarith
        rw [angle_up ap', angle_up yp]
        have : c / a ≤ x / y := by
          rw [div_le_div_iff₀ ap' yp]
          nlinarith
        have := arctan_mono this
        linarith
      · have dn : d < 0 := by rcases hz with h | h; · linarith
                              · exact h
        have dn' : (d : ℝ) < 0 := by exact_mod_cast dn
        rw [← ae, Rat.cast_zero, angle_zero_neg (by linarith)]
        exact angle_le_pi _ _

/-- third quadrant -/
theorem quad3 (ha : A.hi.w < fin 0) (hb : B.hi.w ≤ fin 0) :
    corner F A.hi B.lo ≤ angle y x ∧ angle y x ≤ corner F A.lo B.hi := by
  obtain ⟨b, ib, yb, b0⟩ := w_hi_fin hA hy ha.le
  obtain ⟨d, id', xd, d0⟩ := w_hi_fin hB hx hb
  have bn : (b : ℝ) < 0 := by
    have : b < 0 := by rw [ib.1] at ha; simpa [fin_lt] using ha
    exact_mod_cast this
  have d0' : (d : ℝ) ≤ 0 := by exact_mod_cast d0
  have yn : y < 0 := by linarith
  have x0 : x ≤ 0 := xd.trans d0'
  constructor
  · unfold corner
    rw [is_toReal ib]
    rcases lo_real hB hx with e | ⟨c, ic, cx⟩
    · rw [e]
      show (if b < 0 then -Real.pi else Real.pi) ≤ angle y x
      rw [if_pos (by exact_mod_cast bn)]
      exact (neg_pi_lt_angle _ _).le
    · rw [is_toReal ic]
      show angle b c ≤ angle y x
      rw [angle_down bn, angle_down yn]
      have : x / y ≤ c / b := by
        rw [← neg_div_neg_eq x y, ← neg_div_neg_eq (c : ℝ) b, div_le_div_iff₀ (by linarith) (by linarith)]
        nlinarith
      have := arctan_mono this
      linarith
  · unfold corner
    rw [is_toReal id']
    rcases lo_real hA hy with e | ⟨a, ia, ay⟩
    · rw [e]
      show angle y x ≤ -(Real.pi / 2)
      rw [angle_down yn]
      have := arctan_nonneg' (div_nonneg_of_nonpos x0 yn.le)
      linarith
    · rw [is_toReal ia]
      show angle y x ≤ angle a d
      have an : (a : ℝ) < 0 := by linarith
      rw [angle_down an, angle_down yn]
      have : d / a ≤ x / y := by
        rw [← neg_div_neg_eq x y, ← neg_div_neg_eq (d : ℝ) a, div_le_div_iff₀ (by linarith) (by linarith)]
        nlinarith
      have := arctan_mono this
      linarith

/-- fourth quadrant -/
theorem quad4 (ha : A.hi.w ≤ fin 0) (hb : fin 0 ≤ B.lo.w) (hz : A.hi.w < fin 0 ∨ fin 0 < B.lo.w) :
    corner F A.lo B.lo ≤ angle y x ∧ angle y x ≤ corner F A.hi B.hi := by
  obtain ⟨b, ib, yb, b0⟩ := w_hi_fin hA hy ha
  obtain ⟨c, ic, cx, c0⟩ := w_lo_fin hB hx hb
  have hz : b < 0 ∨ 0 < c := by
    rw [ib.1, ic.1] at hz; simpa [fin_lt] using hz
  have b0' : (b : ℝ) ≤ 0 := by exact_mod_cast b0
  have c0' : (0 : ℝ) ≤ c := by exact_mod_cast c0
  have y0 : y ≤ 0 := by linarith
  have x0 : 0 ≤ x := by linarith
  have xpos : y = 0 → 0 < x := by
    intro h
    rcases hz with h' | h'
    · have h'' : (b : ℝ) < 0 := by exact_mod_cast h'
      linarith
    · have h'' : (0 : ℝ) < c := by exact_mod_cast h'
      linarith
  have gehalf : -(Real.pi / 2) ≤ angle y x := by
    rcases y0.lt_or_eq with yn | ye
    · rw [angle_down yn]; have := arctan_nonpos' (div_nonpos_of_nonneg_of_nonpos x0 y0); linarith
    · rw [ye, angle_zero_right (xpos ye)]; have := Real.pi_pos; linarith
  have nonpos : angle y x ≤ 0 := by
    rcases y0.lt_or_eq with yn | ye
    · exact (angle_neg_of x yn).le
    · rw [ye, angle_zero_right (xpos ye)]
  constructor
  · unfold corner
    rw [is_toReal ic]
    rcases lo_real hA hy with e | ⟨a, ia, ay⟩
    · rw [e]; exact gehalf
    · rw [is_toReal ia]
      show angle a c ≤ angle y x
      rcases c0.lt_or_eq with cp | ce
      · have cp' : (0 : ℝ) < c := by exact_mod_cast cp
        have xp : 0 < x := by linarith
        rw [angle_right xp, angle_right cp']
        apply arctan_mono
        rw [div_le_div_iff₀ cp' xp]
        nlinarith
      · have bn : b < 0 := by rcases hz with h | h; · exact h
                              · linarith
        have bn' : (b : ℝ) < 0 := by exact_mod_cast bn
        rw [← ce, Rat.cast_zero, angle_down (show (a : ℝ) < 0 by linarith)]
        simpa using gehalf
  · unfold corner
    rw [is_toReal ib]
    rcases hi_real hB hx with e | ⟨d, id', xd⟩
    · rw [e]; exact nonpos
    · rw [is_toReal id']
      show angle y x ≤ angle b d
      rcases b0.lt_or_eq with bn | be
      · have bn' : (b : ℝ) < 0 := by exact_mod_cast bn
        have yn : y < 0 := by linarith
        rw [angle_down bn', angle_down yn]
        have : d / b ≤ x / y := by
          rw [← neg_div_neg_eq x y, ← neg_div_neg_eq (d : ℝ) b, neg_div, neg_div, neg_le_neg_iff]
          exact div_le_div₀ (x0.trans xd) xd (by linarith) (by linarith)
        have := arctan_mono this
        linarith
      · have cp : (0 : ℚ) < c := by rcases hz with h | h; · linarith
                                    · exact h
        have cp' : (0 : ℝ) < c := by exact_mod_cast cp
        rw [be, Rat.cast_zero, angle_zero_right (by linarith)]
        exact nonpos
end quadrants

/-! ## The ends of the result -/

/-- the lower end bounds the value; or it is the code's rounding of `-π` or of `-π/2`, which bound the value exactly -/
def LowerOk (R : Interval) (v : ℝ) : Prop :=
  R.lo.LoB R.lc v ∨ (R.lc = true ∧ ((R.lo = .real (.fin (-L.rr Real.pi)) ∧ -Real.pi ≤ v) ∨
    (R.lo = .real (.fin (F.r (-L.rr Real.pi / 2))) ∧ -(Real.pi / 2) ≤ v)))
/-- the upper end bounds the value; or it is the code's rounding of `π` or of `π/2`, which bound the value exactly -/
def UpperOk (R : Interval) (v : ℝ) : Prop :=
  R.hi.HiB R.rc v ∨ (R.rc = true ∧ ((R.hi = .real (.fin (L.rr Real.pi)) ∧ v ≤ Real.pi) ∨
    (R.hi = .real (.fin (F.r (L.rr Real.pi / 2))) ∧ v ≤ Real.pi / 2)))

theorem pi_eq : Number.pi L = .real (.fin (L.rr Real.pi)) := rfl
theorem npi_eq : Number.neg (Number.pi L) = .real (.fin (-L.rr Real.pi)) := rfl

theorem full_ok (y x : ℝ) : LowerOk L ⟨Number.neg (Number.pi L), Number.pi L, true, true⟩ (angle y x) ∧
    UpperOk L ⟨Number.neg (Number.pi L), Number.pi L, true, true⟩ (angle y x) :=
  ⟨.inr ⟨rfl, .inl ⟨rfl, (neg_pi_lt_angle y x).le⟩⟩, .inr ⟨rfl, .inl ⟨rfl, angle_le_pi y x⟩⟩⟩

theorem clamp_ok {l h : ℚ} {v : ℝ} {c C : ℝ} (hl : l ≤ L.rr c) (lr : F.r l = l) (hc : c ≤ v) (hh : L.rr C ≤ h) (hr : F.r h = h) (hC : v ≤ C)
    (h1 : -Real.pi ≤ v) (h2 : v ≤ Real.pi) :
    LowerOk L (clampPi L (.real (.fin l)) (.real (.fin h))) v ∧ UpperOk L (clampPi L (.real (.fin l)) (.real (.fin h))) v := by
  unfold clampPi
  constructor
  · unfold LowerOk
    by_cases e : Number.lt F (.real (.fin l)) (Number.neg (Number.pi L)) = true
    · simp only [e, if_true]
      exact .inr ⟨trivial, .inl ⟨rfl, h1⟩⟩
    · simp only [e, if_false]
      left
      show ((L.below l : ℚ) : ℝ) < v
      by_contra hn
      push Not at hn
      have h1 := L.rr_mono _ _ (hc.trans hn)
      rw [L.rr_rat, L.below_rep _ lr] at h1
      have := L.below_lt _ lr
      linarith
  · unfold UpperOk
    by_cases e : Number.gt F (.real (.fin h)) (Number.pi L) = true
    · simp only [e, if_true]
      exact .inr ⟨trivial, .inl ⟨rfl, h2⟩⟩
    · simp only [e, if_false]
      left
      show v < ((L.above h : ℚ) : ℝ)
      by_contra hn
      push Not at hn
      have h1 := L.rr_mono _ _ (hn.trans hC)
      rw [L.rr_rat, L.above_rep _ hr] at h1
      have := L.lt_above _ hr
      linarith

/-- minimum and maximum of four finite reals -/
theorem four (p q r s : ℚ) : ∃ m M : ℚ,
    minL F (.real (.fin p)) [.real (.fin q), .real (.fin r), .real (.fin s)] = .real (.fin m) ∧
    maxL F (.real (.fin p)) [.real (.fin q), .real (.fin r), .real (.fin s)] = .real (.fin M) ∧
    (m ≤ p ∧ m ≤ q ∧ m ≤ r ∧ m ≤ s) ∧ (p ≤ M ∧ q ≤ M ∧ r ≤ M ∧ s ≤ M) ∧
    (m = p ∨ m = q ∨ m = r ∨ m = s) ∧ (M = p ∨ M = q ∨ M = r ∨ M = s) := by
  have mn : ∀ a b : ℚ, smin F (.real (.fin a)) (.real (.fin b)) = .real (.fin (min a b)) := by
    intro a b
    by_cases h : b < a
    · simp [smin, Number.lt, toReal, XR.lt, h, min_eq_right h.le]
    · simp [smin, Number.lt, toReal, XR.lt, h, min_eq_left (not_lt.1 h)]
  have mx : ∀ a b : ℚ, smax F (.real (.fin a)) (.real (.fin b)) = .real (.fin (max a b)) := by
    intro a b
    by_cases h : a < b
    · simp [smax, Number.lt, toReal, XR.lt, h, max_eq_right h.le]
    · simp [smax, Number.lt, toReal, XR.lt, h, max_eq_left (not_lt.1 h)]
  refine ⟨min (min (min p q) r) s, max (max (max p q) r) s, ?_, ?_, ?_, ?_, ?_, ?_⟩
  · simp [minL, mn]
  · simp [maxL, mx]
  · refine ⟨?_, ?_, ?_, ?_⟩ <;> simp
  · refine ⟨?_, ?_, ?_, ?_⟩ <;> simp
  · rcases min_choice (min (min p q) r) s with h | h <;> rw [h]
    · rcases min_choice (min p q) r with h | h <;> rw [h]
      · rcases min_choice p q with h | h <;> rw [h] <;> simp
      · simp
    · simp
  · rcases max_choice (max (max p q) r) s with h | h <;> rw [h]
    · rcases max_choice (max p q) r with h | h <;> rw [h]
      · rcases max_choice p q with h | h <;> rw [h] <;> simp
      · simp
    · simp

include L in
theorem div_two_real (q : ℚ) : Number.div F (.real (.fin q)) (.int 2) = .ok (.real (.fin (F.r (q / 2)))) := by
  simp [Number.div, toReal, XR.div, r2 L]

theorem neg_or {y x : ℝ} (hy : y < 0) (hx : x ≤ 0) : angle y x ≤ -(Real.pi / 2) := by
  rw [angle_down hy]
  have := arctan_nonneg' (div_nonneg_of_nonpos hx hy.le)
  linarith

/-- C58, `atan2` of two intervals: the function returns, and each end of its result bounds every angle, or is the code's rounding of
the exact bound `±π`, `±π/2` of every angle. -/
theorem atan2_rounded_partial (A B : Interval) (hA : A.Ok F) (hB : B.Ok F) :
    ∃ R, Interval.atan2I L A B = .ok R ∧
      ∀ y x : ℝ, A.RMem y → B.RMem x → LowerOk L R (angle y x) ∧ UpperOk L R (angle y x) := by
  have z : (Number.int 0).Ok F := L.small 0 (by decide)
  have zw : (Number.int 0).w = fin 0 := by simp [Number.w]
  unfold atan2I
  by_cases hE : (isEmpty F A || isEmpty F B) = true
  · rw [if_pos hE]
    refine ⟨_, rfl, ?_⟩
    intro y x hy hx
    rw [not_empty_of_rmem hA hy, not_empty_of_rmem hB hx] at hE
    exact absurd hE (by simp)
  rw [if_neg hE]
  have C1 : ((Number.le F A.lo (.int 0) && Number.ge F A.hi (.int 0)) && (Number.le F B.lo (.int 0) && Number.ge F B.hi (.int 0))) = true ↔
      (A.lo.w ≤ fin 0 ∧ fin 0 ≤ A.hi.w) ∧ (B.lo.w ≤ fin 0 ∧ fin 0 ≤ B.hi.w) := by
    simp only [Bool.and_eq_true, le_iff hA.1 z, le_iff hB.1 z, ge_iff hA.2 z, ge_iff hB.2 z, zw]
  by_cases c1 : ((Number.le F A.lo (.int 0) && Number.ge F A.hi (.int 0)) && (Number.le F B.lo (.int 0) && Number.ge F B.hi (.int 0))) = true
  · rw [if_pos c1]
    exact ⟨_, rfl, fun y x _ _ => full_ok L y x⟩
  rw [if_neg c1]
  rw [C1] at c1
  have C2 : ((Number.lt F A.lo (.int 0) && Number.gt F A.hi (.int 0)) && Number.lt F B.hi (.int 0)) = true ↔
      (A.lo.w < fin 0 ∧ fin 0 < A.hi.w) ∧ B.hi.w < fin 0 := by
    simp only [Bool.and_eq_true, lt_iff hA.1 z, lt_iff hB.2 z, gt_iff hA.2 z, zw]
  by_cases c2 : ((Number.lt F A.lo (.int 0) && Number.gt F A.hi (.int 0)) && Number.lt F B.hi (.int 0)) = true
  · rw [if_pos c2]
    exact ⟨_, rfl, fun y x _ _ => full_ok L y x⟩
  rw [if_neg c2]
  rw [C2] at c2
  have C3 : ((Number.lt F A.lo (.int 0) && Number.gt F A.hi (.int 0)) && Number.gt F B.lo (.int 0)) = true ↔
      (A.lo.w < fin 0 ∧ fin 0 < A.hi.w) ∧ fin 0 < B.lo.w := by
    simp only [Bool.and_eq_true, lt_iff hA.1 z, gt_iff hB.1 z, gt_iff hA.2 z, zw]
  by_cases c3 : ((Number.lt F A.lo (.int 0) && Number.gt F A.hi (.int 0)) && Number.gt F B.lo (.int 0)) = true
  · rw [if_pos c3, npi_eq, pi_eq, div_two_real L, div_two_real L]
    rw [C3] at c3
    refine ⟨_, rfl, ?_⟩
    intro y x hy hx
    obtain ⟨c, ic, cx, c0⟩ := w_lo_fin hB hx c3.2.le
    have cp : (0 : ℝ) < c := by
      have := c3.2; rw [ic.1] at this
      have : 0 < c := by simpa [fin_lt] using this
      exact_mod_cast this
    have e := angle_right (y := y) (show 0 < x by linarith)
    refine ⟨.inr ⟨rfl, .inr ⟨rfl, ?_⟩⟩, .inr ⟨rfl, .inr ⟨rfl, ?_⟩⟩⟩
    · rw [e]; exact (Real.neg_pi_div_two_lt_arctan _).le
    · rw [e]; exact (Real.arctan_lt_pi_div_two _).le
  rw [if_neg c3]
  rw [C3] at c3
  have C4 : ((Number.lt F B.lo (.int 0) && Number.gt F B.hi (.int 0)) && Number.gt F A.lo (.int 0)) = true ↔
      (B.lo.w < fin 0 ∧ fin 0 < B.hi.w) ∧ fin 0 < A.lo.w := by
    simp only [Bool.and_eq_true, lt_iff hB.1 z, gt_iff hA.1 z, gt_iff hB.2 z, zw]
  by_cases c4 : ((Number.lt F B.lo (.int 0) && Number.gt F B.hi (.int 0)) && Number.gt F A.lo (.int 0)) = true
  · rw [if_pos c4]
    rw [C4] at c4
    refine ⟨_, rfl, ?_⟩
    intro y x hy hx
    obtain ⟨a, ia, ay, a0⟩ := w_lo_fin hA hy c4.2.le
    have a0' : (0 : ℝ) ≤ a := by exact_mod_cast a0
    refine ⟨.inl ?_, .inr ⟨rfl, .inl ⟨rfl, angle_le_pi _ _⟩⟩⟩
    have := angle_nonneg x (a0'.trans ay)
    simpa [LoB] using this
  rw [if_neg c4]
  rw [C4] at c4
  have C5 : ((Number.lt F B.lo (.int 0) && Number.gt F B.hi (.int 0)) && Number.lt F A.hi (.int 0)) = true ↔
      (B.lo.w < fin 0 ∧ fin 0 < B.hi.w) ∧ A.hi.w < fin 0 := by
    simp only [Bool.and_eq_true, lt_iff hB.1 z, lt_iff hA.2 z, gt_iff hB.2 z, zw]
  by_cases c5 : ((Number.lt F B.lo (.int 0) && Number.gt F B.hi (.int 0)) && Number.lt F A.hi (.int 0)) = true
  · rw [if_pos c5]
    rw [C5] at c5
    refine ⟨_, rfl, ?_⟩
    intro y x hy hx
    obtain ⟨b, ib, yb, b0⟩ := w_hi_fin hA hy c5.2.le
    have bn : (b : ℝ) < 0 := by
      have := c5.2; rw [ib.1] at this
      have : b < 0 := by simpa [fin_lt] using this
      exact_mod_cast this
    refine ⟨.inr ⟨rfl, .inl ⟨rfl, (neg_pi_lt_angle _ _).le⟩⟩, .inl ?_⟩
    have := angle_neg_of x (show y < 0 by linarith)
    simpa [HiB] using this.le
  rw [if_neg c5]
  rw [C5] at c5
  rw [atan2_eq L hA.1 hB.1, atan2_eq L hA.1 hB.2, atan2_eq L hA.2 hB.1, atan2_eq L hA.2 hB.2]
  obtain ⟨m, M, em, eM, ⟨m0, m1, m2, m3⟩, ⟨M0, M1, M2, M3⟩, mc, Mc⟩ := four (F := F) (L.rr (corner F A.lo B.lo)) (L.rr (corner F A.lo B.hi))
    (L.rr (corner F A.hi B.lo)) (L.rr (corner F A.hi B.hi))
  simp only [em, eM]
  have mr : F.r m = m := by rcases mc with h | h | h | h <;> rw [h] <;> exact L.rr_rep _
  have Mr : F.r M = M := by rcases Mc with h | h | h | h <;> rw [h] <;> exact L.rr_rep _
  by_cases cg : Number.gt F (Number.sub F (.real (.fin M)) (.real (.fin m))) (Number.pi L) = true
  · rw [if_pos cg]
    exact ⟨_, rfl, fun y x _ _ => full_ok L y x⟩
  rw [if_neg cg]
  refine ⟨_, rfl, ?_⟩
  intro y x hy hx
  have b1 := (neg_pi_lt_angle y x).le
  have b2 := angle_le_pi y x
  -- the ends are ordered
  have oA : A.lo.w ≤ A.hi.w := by
    have := not_empty_of_rmem hA hy
    unfold isEmpty at this
    rw [Bool.or_eq_false_iff] at this
    have := this.1
    rw [← Bool.not_eq_true, gt_iff hA.1 hA.2] at this
    exact not_lt.1 this
  have oB : B.lo.w ≤ B.hi.w := by
    have := not_empty_of_rmem hB hx
    unfold isEmpty at this
    rw [Bool.or_eq_false_iff] at this
    have := this.1
    rw [← Bool.not_eq_true, gt_iff hB.1 hB.2] at this
    exact not_lt.1 this
  rcases lt_or_ge A.hi.w (fin 0) with hAn | hAn
  · rcases le_or_gt B.hi.w (fin 0) with hBn | hBn
    · obtain ⟨k1, k2⟩ := quad3 hA hB hy hx hAn hBn
      exact clamp_ok L m2 mr k1 M1 Mr k2 b1 b2
    · have hB0 : fin 0 ≤ B.lo.w := by
        by_contra h
        exact c5 ⟨⟨not_le.1 h, hBn⟩, hAn⟩
      obtain ⟨k1, k2⟩ := quad4 hA hB hy hx hAn.le hB0 (.inl hAn)
      exact clamp_ok L m0 mr k1 M3 Mr k2 b1 b2
  · rcases lt_or_ge (fin 0) A.lo.w with hAp | hAp
    · rcases le_or_gt B.hi.w (fin 0) with hBn | hBn
      · obtain ⟨k1, k2⟩ := quad2 hA hB hy hx hAp.le hBn (.inl hAp)
        exact clamp_ok L m3 mr k1 M0 Mr k2 b1 b2
      · have hB0 : fin 0 ≤ B.lo.w := by
          by_contra h
          exact c4 ⟨⟨not_le.1 h, hBn⟩, hAp⟩
        obtain ⟨k1, k2⟩ := quad1 hA hB hy hx hAp.le hB0 (.inl hAp)
        exact clamp_ok L m1 mr k1 M2 Mr k2 b1 b2
    · -- `A` reaches zero, so `B` does not
      have hB0 : fin 0 < B.lo.w ∨ B.hi.w < fin 0 := by
        by_contra h
        push Not at h
        exact c1 ⟨⟨hAp, hAn⟩, h⟩
      have hA0 : fin 0 ≤ A.lo.w ∨ A.hi.w ≤ fin 0 := by
        by_contra h
        push Not at h
        rcases hB0 with h' | h'
        · exact c3 ⟨h, h'⟩
        · exact c2 ⟨h, h'⟩
      rcases hA0 with h0 | h0
      · rcases hB0 with hb | hb
        · obtain ⟨k1, k2⟩ := quad1 hA hB hy hx h0 hb.le (.inr hb)
          exact clamp_ok L m1 mr k1 M2 Mr k2 b1 b2
        · obtain ⟨k1, k2⟩ := quad2 hA hB hy hx h0 hb.le (.inr hb)
          exact clamp_ok L m3 mr k1 M0 Mr k2 b1 b2
      · rcases hB0 with hb | hb
        · obtain ⟨k1, k2⟩ := quad4 hA hB hy hx h0 hb.le (.inr hb)
          exact clamp_ok L m0 mr k1 M3 Mr k2 b1 b2
        · -- the angles jump from `π` to `-π`
          rcases le_or_gt (fin 0) A.lo.w with h1 | h1
          · obtain ⟨k1, k2⟩ := quad2 hA hB hy hx h1 hb.le (.inr hb)
            exact clamp_ok L m3 mr k1 M0 Mr k2 b1 b2
          · exfalso
            apply cg
            obtain ⟨b, ib, yb, b0⟩ := w_hi_fin hA hy h0
            obtain ⟨d, id', xd, d0⟩ := w_hi_fin hB hx hb.le
            have bz : b = 0 := by
              rw [ib.1] at hAn
              have : 0 ≤ b := by simpa [fin_le] using hAn
              linarith
            have dn : (d : ℝ) < 0 := by
              rw [id'.1] at hb
              have : d < 0 := by simpa [fin_lt] using hb
              exact_mod_cast this
            have e3 : corner F A.hi B.hi = Real.pi := by
              unfold corner
              rw [is_toReal ib, is_toReal id', bz]
              show angle ((0 : ℚ) : ℝ) d = Real.pi
              rw [Rat.cast_zero, angle_zero_neg dn]
            have e1 : corner F A.lo B.hi ≤ -(Real.pi / 2) := by
              unfold corner
              rw [is_toReal id']
              rcases lo_real hA hy with e | ⟨a, ia, ay⟩
              · rw [e]; exact le_refl _
              · rw [is_toReal ia]
                show angle a d ≤ _
                apply neg_or _ dn.le
                rw [ia.1] at h1
                have : a < 0 := by simpa [fin_lt] using h1
                exact_mod_cast this
            have p3 := Real.pi_gt_three
            have M3' : L.rr Real.pi ≤ M := by rw [← e3]; exact M3
            have m1' : m ≤ -(3 / 2) := by
              refine m1.trans ?_
              have := L.rr_mono _ (((-(3 / 2) : ℚ)) : ℝ) (e1.trans (by push_cast; linarith))
              rw [L.rr_rat] at this
              have q := L.quarter (-6) (by decide)
              have e : ((-6 : ℤ) : ℚ) / 4 = -(3 / 2) := by norm_num
              rw [e] at q
              rwa [q] at this
            obtain ⟨q1, q2⟩ := pi_bounds L
            have es : Number.sub F (.real (.fin M)) (.real (.fin m)) = .real (.fin (F.r (M + -m))) := by
              simp [Number.sub, toReal, XR.sub, XR.neg, XR.add]
            rw [es, pi_eq, gt_iff (is_real _ _).2 (is_real _ _).2]
            simp only [Number.w, fin_lt]
            have g := (grid_step L 18 (q := M + -m) (by decide)).1 (by push_cast; linarith)
            push_cast at g
            linarith

theorem right_half {y x : ℝ} (hx : 0 ≤ x) : -(Real.pi / 2) ≤ angle y x ∧ angle y x ≤ Real.pi / 2 := by
  have p := Real.pi_pos
  rcases hx.lt_or_eq with h | h
  · rw [angle_right h]
    exact ⟨(Real.neg_pi_div_two_lt_arctan _).le, (Real.arctan_lt_pi_div_two _).le⟩
  · subst h
    rcases lt_trichotomy y 0 with h | h | h
    · rw [angle_down h]; simp; linarith
    · subst h
      have : angle 0 0 = 0 := by unfold angle; exact Complex.arg_zero
      rw [this]; constructor <;> linarith
    · rw [angle_up h]; simp; linarith

/-- for a fixed `x ≥ 0` the angle grows with `y` -/
theorem angle_mono {x y z : ℝ} (hx : 0 ≤ x) (h : y ≤ z) : angle y x ≤ angle z x := by
  have p := Real.pi_pos
  rcases hx.lt_or_eq with hp | he
  · rw [angle_right hp, angle_right hp]
    exact arctan_mono (div_le_div_of_nonneg_right h hp.le)
  · subst he
    have z0 : angle 0 0 = 0 := by unfold angle; exact Complex.arg_zero
    have up : ∀ {t : ℝ}, 0 < t → angle t 0 = Real.pi / 2 := fun ht => by rw [angle_up ht]; simp
    have dn : ∀ {t : ℝ}, t < 0 → angle t 0 = -(Real.pi / 2) := fun ht => by rw [angle_down ht]; simp
    rcases lt_trichotomy y 0 with h1 | h1 | h1 <;> rcases lt_trichotomy z 0 with h2 | h2 | h2 <;>
      first | (exfalso; linarith) | (simp only [h1, h2, z0, up h1, up h2, dn h1, dn h2]; linarith) | (simp only [h1, h2, z0, up h2, dn h1]; linarith) | skip
    all_goals first | (rw [dn h1, dn h2]) | (rw [dn h1, h2, z0]; linarith) | (rw [dn h1, up h2]; linarith) | (rw [h1, h2]) | (rw [h1, up h2, z0]; linarith) | (rw [up h1, up h2])

/-- C58, `atan2` of an interval and a number, off the case refuted by `atan2_number_violated` (a negative number and an interval that
ends at zero from below): each end of the result bounds every angle, or is the code's rounding of the exact bound `±π`. -/
theorem atan2_number_rounded_partial (A : Interval) (hA : A.Ok F) (n : Number) (x : ℚ) (hn : n.Is F x)
    (hj : ¬ (x < 0 ∧ A.lo.w < fin 0 ∧ A.hi.w = fin 0)) (y : ℝ) (hy : A.RMem y) :
    LowerOk L (Interval.atan2N L A n) (angle y x) ∧ UpperOk L (Interval.atan2N L A n) (angle y x) := by
  have z : (Number.int 0).Ok F := L.small 0 (by decide)
  have zw : (Number.int 0).w = fin 0 := by simp [Number.w]
  have b1 := (neg_pi_lt_angle y x).le
  have b2 := angle_le_pi y x
  have hB : (⟨n, n, true, true⟩ : Interval).Ok F := ⟨hn.2, hn.2⟩
  have hx : (⟨n, n, true, true⟩ : Interval).RMem (x : ℝ) := ⟨lob_of_le hn (le_refl _), hib_of_le hn (le_refl _)⟩
  have nn : n.isNaN = false := by
    rcases n with i | (_ | _ | p | _) <;> first | rfl | exact (show False from hn.2).elim
  unfold atan2N
  rw [not_empty_of_rmem hA hy, nn, Bool.or_false, if_neg (by simp)]
  have C : ((Number.lt F A.lo (.int 0) && Number.gt F A.hi (.int 0)) && Number.lt F n (.int 0)) = true ↔
      (A.lo.w < fin 0 ∧ fin 0 < A.hi.w) ∧ n.w < fin 0 := by
    simp only [Bool.and_eq_true, lt_iff hA.1 z, lt_iff hn.2 z, gt_iff hA.2 z, zw]
  simp only [atan2_eq L hA.1 hn.2, atan2_eq L hA.2 hn.2]
  by_cases c : ((Number.lt F A.lo (.int 0) && Number.gt F A.hi (.int 0)) && Number.lt F n (.int 0)) = true
  · rw [if_pos c]
    exact full_ok L y x
  rw [if_neg c]
  rw [C, hn.1, fin_lt] at c
  have key : ∀ l h : ℚ, (if Number.gt F (.real (.fin l)) (.real (.fin h)) = true then clampPi L (.real (.fin h)) (.real (.fin l))
      else clampPi L (.real (.fin l)) (.real (.fin h))) = clampPi L (.real (.fin (min l h))) (.real (.fin (max l h))) := by
    intro l h
    by_cases e : h < l
    · rw [if_pos (by rw [gt_iff (is_real _ _).2 (is_real _ _).2]; simpa [Number.w, fin_lt] using e), min_eq_right e.le, max_eq_left e.le]
    · rw [if_neg (by rw [gt_iff (is_real _ _).2 (is_real _ _).2]; simpa [Number.w, fin_lt] using e), min_eq_left (not_lt.1 e),
        max_eq_right (not_lt.1 e)]
  rw [key]
  have rmin : F.r (min (L.rr (corner F A.lo n)) (L.rr (corner F A.hi n))) = min (L.rr (corner F A.lo n)) (L.rr (corner F A.hi n)) := by
    rcases min_choice (L.rr (corner F A.lo n)) (L.rr (corner F A.hi n)) with h | h <;> rw [h] <;> exact L.rr_rep _
  have rmax : F.r (max (L.rr (corner F A.lo n)) (L.rr (corner F A.hi n))) = max (L.rr (corner F A.lo n)) (L.rr (corner F A.hi n)) := by
    rcases max_choice (L.rr (corner F A.lo n)) (L.rr (corner F A.hi n)) with h | h <;> rw [h] <;> exact L.rr_rep _
  rcases le_or_gt 0 x with x0 | x0
  · have x0' : (0 : ℝ) ≤ x := by exact_mod_cast x0
    have k1 : corner F A.lo n ≤ angle y x := by
      unfold corner
      rw [is_toReal hn]
      rcases lo_real hA hy with e | ⟨a, ia, ay⟩
      · rw [e]; exact (right_half x0').1
      · rw [is_toReal ia]; exact angle_mono x0' ay
    have k2 : angle y x ≤ corner F A.hi n := by
      unfold corner
      rw [is_toReal hn]
      rcases hi_real hA hy with e | ⟨a, ia, ay⟩
      · rw [e]; exact (right_half x0').2
      · rw [is_toReal ia]; exact angle_mono x0' ay
    exact clamp_ok L (min_le_left _ _) rmin k1 (le_max_right _ _) rmax k2 b1 b2
  · have hB0 : (⟨n, n, true, true⟩ : Interval).hi.w < fin 0 := by show n.w < fin 0; rw [hn.1, fin_lt]; exact x0
    rcases lt_or_ge A.hi.w (fin 0) with hAn | hAn
    · obtain ⟨k1, k2⟩ := quad3 hA hB hy hx hAn hB0.le
      exact clamp_ok L (min_le_right _ _) rmin k1 (le_max_left _ _) rmax k2 b1 b2
    · rcases le_or_gt (fin 0) A.lo.w with h0 | h0
      · obtain ⟨k1, k2⟩ := quad2 hA hB hy hx h0 hB0.le (.inr hB0)
        exact clamp_ok L (min_le_right _ _) rmin k1 (le_max_left _ _) rmax k2 b1 b2
      · exfalso
        rcases hAn.lt_or_eq with h | h
        · exact c ⟨⟨h0, h⟩, x0⟩
        · exact hj ⟨x0, h0, h.symm⟩

/-- the rounding of π and of its half is not below them -/
def PiUp (L : Lib F) : Prop :=
  Real.pi ≤ L.rr Real.pi ∧ Real.pi / 2 ≤ F.r (L.rr Real.pi / 2) ∧ F.r (-L.rr Real.pi / 2) ≤ -(Real.pi / 2)

theorem ends_mem (hp : PiUp L) {R : Interval} {v : ℝ} (h : LowerOk L R v ∧ UpperOk L R v) : R.RMem v := by
  obtain ⟨hl, hu⟩ := h
  obtain ⟨p1, p2, p3⟩ := hp
  constructor
  · rcases hl with h | ⟨hc, h⟩
    · exact h
    · rw [hc]
      rcases h with ⟨e, h⟩ | ⟨e, h⟩
      · rw [e]; show ((-L.rr Real.pi : ℚ) : ℝ) ≤ v; push_cast; linarith
      · rw [e]; show ((F.r (-L.rr Real.pi / 2) : ℚ) : ℝ) ≤ v; linarith
  · rcases hu with h | ⟨hc, h⟩
    · exact h
    · rw [hc]
      rcases h with ⟨e, h⟩ | ⟨e, h⟩
      · rw [e]; show v ≤ ((L.rr Real.pi : ℚ) : ℝ); linarith
      · rw [e]; show v ≤ ((F.r (L.rr Real.pi / 2) : ℚ) : ℝ); linarith

/-- C58, `atan2`: when the precision rounds π away from zero, the result holds every angle. -/
theorem atan2_encloses_partial (hp : PiUp L) (A B : Interval) (hA : A.Ok F) (hB : B.Ok F) (y x : ℝ) (hy : A.RMem y) (hx : B.RMem x) :
    ∃ R, Interval.atan2I L A B = .ok R ∧ R.RMem (angle y x) := by
  obtain ⟨R, e, h⟩ := atan2_rounded_partial L A B hA hB
  exact ⟨R, e, ends_mem L hp (h y x hy hx)⟩

/-- C58 violated when the precision rounds π towards zero: `atan2` of `[-1, 1]` and `[-1, -1]` does not hold the angle π of `(-1, 0)`. -/
theorem atan2_pi_violated (h : L.rr Real.pi < Real.pi) :
    ∃ R, Interval.atan2I L ⟨.int (-1), .int 1, true, true⟩ (pt (-1)) = .ok R ∧
      (⟨.int (-1), .int 1, true, true⟩ : Interval).RMem 0 ∧ (pt (-1)).RMem (-1) ∧ angle 0 (-1) = Real.pi ∧ ¬ R.RMem (angle 0 (-1)) := by
  refine ⟨⟨Number.neg (Number.pi L), Number.pi L, true, true⟩, ?_, ?_, by simpa using pt_mem (-1), angle_zero_neg (by norm_num), ?_⟩
  · unfold atan2I
    rw [pt_not_empty]
    simp [isEmpty, gt, ge, le, lt, Number.eq, pt]
  · simp [RMem, LoB, HiB]
  · rw [angle_zero_neg (by norm_num)]
    intro hc
    have := hc.2
    simp only [pi_eq, HiB, if_true] at this
    linarith

/-- C58 violated, for every precision: `atan2` of `[-1, 0]` and the number `-1` loses the angles below `-11/4`. -/
theorem atan2_number_violated : (⟨.int (-1), .int 0, true, true⟩ : Interval).RMem (-(1 / 4)) ∧
    ¬ (Interval.atan2N L ⟨.int (-1), .int 0, true, true⟩ (.int (-1))).RMem (angle (-(1 / 4)) (-1)) := by
  refine ⟨by constructor <;> simp [LoB, HiB] <;> norm_num, ?_⟩
  have p3 := Real.pi_gt_d2
  have p4 := Real.pi_lt_d2
  have rm : F.r (-1) = -1 := by have := L.small (-1) (by decide); simpa using this
  have c1 : corner F (.int (-1)) (.int (-1)) = -(3 * Real.pi / 4) := by
    unfold corner
    simp only [toReal, Int.cast_neg, Int.cast_one, rm]
    show angle ((-1 : ℚ) : ℝ) ((-1 : ℚ) : ℝ) = _
    push_cast
    rw [angle_down (by norm_num)]
    simp
    ring
  have c2 : corner F (.int 0) (.int (-1)) = Real.pi := by
    unfold corner
    simp only [toReal, Int.cast_neg, Int.cast_one, Int.cast_zero, rm, r0 L]
    show angle ((0 : ℚ) : ℝ) ((-1 : ℚ) : ℝ) = _
    push_cast
    exact angle_zero_neg (by norm_num)
  have oz : (Number.int 0).Ok F := L.small 0 (by decide)
  have om : (Number.int (-1)).Ok F := L.small (-1) (by decide)
  obtain ⟨q1, q2⟩ := pi_bounds L
  set l := L.rr (-(3 * Real.pi / 4)) with hl
  have l1 : -(5 / 2) ≤ l := by
    have := L.rr_mono (((-(5 / 2) : ℚ)) : ℝ) (-(3 * Real.pi / 4)) (by push_cast; linarith)
    rw [L.rr_rat] at this
    have q := L.quarter (-10) (by decide)
    have e : ((-10 : ℤ) : ℚ) / 4 = -(5 / 2) := by norm_num
    rw [e] at q; rw [q] at this; exact this
  have lb : -(11 / 4) ≤ L.below l := by
    have q := L.quarter (-11) (by decide)
    have e : ((-11 : ℤ) : ℚ) / 4 = -(11 / 4) := by norm_num
    rw [e] at q
    exact L.below_next l (-(11 / 4)) (L.rr_rep _) q (by linarith)
  have l0 : l ≤ 0 := by
    have := L.rr_mono (-(3 * Real.pi / 4)) (((0 : ℚ)) : ℝ) (by push_cast; linarith)
    rw [L.rr_rat, r0 L] at this; exact this
  intro h
  have h := h.1
  unfold atan2N at h
  rw [show isEmpty F ⟨.int (-1), .int 0, true, true⟩ = false by simp [isEmpty, gt, le, Number.eq],
    show (Number.int (-1)).isNaN = false from rfl] at h
  simp only [Bool.or_false, Bool.false_eq_true, if_false, atan2_eq L om om, atan2_eq L oz om, c1, c2] at h
  rw [show (Number.lt F (.int (-1)) (.int 0) && Number.gt F (.int 0) (.int 0) && Number.lt F (.int (-1)) (.int 0)) = false by
    simp [Number.lt, Number.gt, Number.le]] at h
  rw [← hl, show Number.gt F (.real (.fin l)) (.real (.fin (L.rr Real.pi))) = false by
    rw [← Bool.not_eq_true, gt_iff (is_real _ _).2 (is_real _ _).2]
    simp only [Number.w, fin_lt]; linarith] at h
  simp only [Bool.false_eq_true, if_false] at h
  unfold clampPi at h
  dsimp only at h
  rw [show Number.lt F (.real (.fin l)) (Number.neg (Number.pi L)) = false by
    rw [npi_eq, ← Bool.not_eq_true, lt_iff (is_real _ _).2 (is_real _ _).2]
    simp only [Number.w, fin_lt]; linarith] at h
  simp only [Bool.false_eq_true, if_false, Number.nextBelow, XR.nextBelow, LoB] at h
  have e : angle (-(1 / 4)) (-1) = -(Real.pi / 2) - Real.arctan 4 := by
    rw [angle_down (by norm_num)]; norm_num
  have a4 : Real.pi / 2 - 1 / 4 ≤ Real.arctan 4 := by
    have i := Real.arctan_inv_of_pos (show (0 : ℝ) < 4 by norm_num)
    have : Real.arctan (4⁻¹) ≤ 1 / 4 := by
      rw [show (4 : ℝ)⁻¹ = 1 / 4 by norm_num]
      have := Real.le_tan (arctan_nonneg' (show (0 : ℝ) ≤ 1 / 4 by norm_num)) (Real.arctan_lt_pi_div_two _)
      rwa [Real.tan_arctan] at this
    linarith
  have lb' : (-(11 / 4) : ℝ) ≤ ((L.below l : ℚ) : ℝ) := by
    have : (((-(11 / 4) : ℚ)) : ℝ) ≤ ((L.below l : ℚ) : ℝ) := by exact_mod_cast lb
    push_cast at this
    linarith
  rw [e] at h
  linarith

/-! ## The hypotheses are met -/

/-- rounding away from zero to a multiple of 1/4 -/
def awayR (x : ℝ) : ℚ := if 0 ≤ x then ((⌈x * 4⌉ : ℤ) : ℚ) / 4 else ((⌊x * 4⌋ : ℤ) : ℚ) / 4

theorem away_grid (k : ℤ) : awayR ((k : ℝ) / 4) = (k : ℚ) / 4 := by
  unfold awayR
  have : (k : ℝ) / 4 * 4 = (k : ℝ) := by ring
  rw [this, Int.floor_intCast, Int.ceil_intCast, ite_self]

theorem away_mono {a b : ℝ} (h : a ≤ b) : awayR a ≤ awayR b := by
  unfold awayR
  by_cases h0 : 0 ≤ a
  · rw [if_pos h0, if_pos (h0.trans h)]
    have : ⌈a * 4⌉ ≤ ⌈b * 4⌉ := Int.ceil_mono (by linarith)
    have : ((⌈a * 4⌉ : ℤ) : ℚ) ≤ ((⌈b * 4⌉ : ℤ) : ℚ) := by exact_mod_cast this
    linarith
  · rw [if_neg h0]
    push Not at h0
    by_cases h1 : 0 ≤ b
    · rw [if_pos h1]
      have t1 : ⌊a * 4⌋ ≤ ⌈b * 4⌉ := (Int.floor_le_ceil _).trans (Int.ceil_mono (by linarith))
      have : ((⌊a * 4⌋ : ℤ) : ℚ) ≤ ((⌈b * 4⌉ : ℤ) : ℚ) := by exact_mod_cast t1
      linarith
    · rw [if_neg h1]
      have : ⌊a * 4⌋ ≤ ⌊b * 4⌋ := Int.floor_mono (by linarith)
      have : ((⌊a * 4⌋ : ℤ) : ℚ) ≤ ((⌊b * 4⌋ : ℤ) : ℚ) := by exact_mod_cast this
      linarith

theorem away_form (x : ℝ) : ∃ k : ℤ, awayR x = (k : ℚ) / 4 := by
  unfold awayR
  split <;> exact ⟨_, rfl⟩

theorem away_rat (k : ℤ) : awayR (((k : ℚ) / 4 : ℚ) : ℝ) = (k : ℚ) / 4 := by
  have e : (((k : ℚ) / 4 : ℚ) : ℝ) = (k : ℝ) / 4 := by push_cast; rfl
  rw [e, away_grid]

/-- the format rounding away from zero -/
def awayFmt : Fmt where
  r q := awayR (q : ℝ)
  mono a b h := away_mono (by exact_mod_cast h)
  idem a := by
    obtain ⟨k, hk⟩ := away_form (a : ℝ)
    rw [hk, away_rat]

/-- a library rounding away from zero -/
def awayLib : Lib awayFmt where
  rr := awayR
  rr_mono _ _ h := away_mono h
  rr_rat _ := rfl
  rr_rep a := by
    obtain ⟨k, hk⟩ := away_form a
    show awayR ((awayR a : ℚ) : ℝ) = awayR a
    rw [hk, away_rat]
  below q := q - 1 / 4
  above q := q + 1 / 4
  big := 1000000
  below_rep q h := by
    obtain ⟨k, hk⟩ := away_form (q : ℝ)
    have h' : awayR (q : ℝ) = q := h
    rw [h'] at hk
    have e : q - 1 / 4 = ((k - 1 : ℤ) : ℚ) / 4 := by rw [hk]; push_cast; ring
    rw [e]; exact away_rat _
  above_rep q h := by
    obtain ⟨k, hk⟩ := away_form (q : ℝ)
    have h' : awayR (q : ℝ) = q := h
    rw [h'] at hk
    have e : q + 1 / 4 = ((k + 1 : ℤ) : ℚ) / 4 := by rw [hk]; push_cast; ring
    rw [e]; exact away_rat _
  below_lt q _ := by linarith
  lt_above q _ := by linarith
  below_next q p hq hp h := by
    obtain ⟨k, hk⟩ := away_form (q : ℝ)
    obtain ⟨j, hj⟩ := away_form (p : ℝ)
    rw [show awayR (q : ℝ) = q from hq] at hk
    rw [show awayR (p : ℝ) = p from hp] at hj
    have h1 : (j : ℚ) < (k : ℚ) := by linarith
    have h2 : j + 1 ≤ k := by exact_mod_cast h1
    have h3 : (j : ℚ) + 1 ≤ (k : ℚ) := by exact_mod_cast h2
    linarith
  above_next q p hq hp h := by
    obtain ⟨k, hk⟩ := away_form (q : ℝ)
    obtain ⟨j, hj⟩ := away_form (p : ℝ)
    rw [show awayR (q : ℝ) = q from hq] at hk
    rw [show awayR (p : ℝ) = p from hp] at hj
    have h1 : (k : ℚ) < (j : ℚ) := by linarith
    have h2 : k + 1 ≤ j := by exact_mod_cast h1
    have h3 : (k : ℚ) + 1 ≤ (j : ℚ) := by exact_mod_cast h2
    linarith
  quarter i _ := away_rat i

theorem away_ge {x : ℝ} (h : 0 ≤ x) : x ≤ awayR x := by
  unfold awayR
  rw [if_pos h]
  have := Int.le_ceil (x * 4)
  push_cast
  linarith
theorem away_le {x : ℝ} (h : x < 0) : awayR x ≤ x := by
  unfold awayR
  rw [if_neg (not_le.2 h)]
  have := Int.floor_le (x * 4)
  push_cast
  linarith

theorem away_pi : PiUp awayLib := by
  have p := Real.pi_pos
  have h : Real.pi ≤ ((awayR Real.pi : ℚ) : ℝ) := away_ge p.le
  refine ⟨h, ?_, ?_⟩
  · show Real.pi / 2 ≤ ((awayR (((awayR Real.pi / 2 : ℚ)) : ℝ) : ℚ) : ℝ)
    refine le_trans ?_ (away_ge ?_) <;> push_cast <;> linarith
  · show ((awayR (((-awayR Real.pi / 2 : ℚ)) : ℝ) : ℚ) : ℝ) ≤ -(Real.pi / 2)
    refine le_trans (away_le ?_) ?_ <;> push_cast <;> linarith

/-- a run of the enclosing theorem: `[1, +oo)` and `[-2, -1]` -/
example : ∃ R, Interval.atan2I awayLib ⟨.int 1, .real .pinf, true, false⟩ ⟨.int (-2), .int (-1), true, true⟩ = .ok R ∧
    R.RMem (angle 5 (-1)) :=
  atan2_encloses_partial awayLib away_pi ⟨.int 1, .real .pinf, true, false⟩ ⟨.int (-2), .int (-1), true, true⟩ ⟨awayLib.small 1 (by decide), trivial⟩
    ⟨awayLib.small (-2) (by decide), awayLib.small (-1) (by decide)⟩ 5 (-1) (by simp [RMem, LoB, HiB])
    (by simp [RMem, LoB, HiB])

/-- the other rounding occurs -/
example : gridLib.rr Real.pi < Real.pi := by
  have h := Int.floor_le (Real.pi * 4)
  have e : ((gridLib.rr Real.pi : ℚ) : ℝ) = (⌊Real.pi * 4⌋ : ℝ) / 4 := by
    show ((((⌊Real.pi * 4⌋ : ℤ) : ℚ) / 4 : ℚ) : ℝ) = _
    push_cast; rfl
  rcases lt_or_eq_of_le h with h | h
  · rw [e]; linarith
  · exfalso
    exact irrational_pi ⟨(⌊Real.pi * 4⌋ : ℚ) / 4, by push_cast; rw [h]; ring⟩

end SMT.Num
