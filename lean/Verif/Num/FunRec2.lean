import Verif.Num.FunInv

/-! # C58: reciprocals of functions (`sech`, `csch`, `sec`, `csc`, `cot`) -/

set_option linter.unusedVariables false
set_option linter.unusedSimpArgs false

noncomputable section
namespace SMT.Num
open Number Interval

variable {F : Fmt} (L : Lib F)

theorem full_hull (y : ℝ) : Hull fullI y := ⟨trivial, trivial⟩

/-- the reciprocal of an interval that holds `y ≠ 0`, one end of which may be zero: the rounded reciprocal of `y` is between the ends -/
theorem recip_hull {T : Interval} (hT : T.Ok F) {y : ℝ} (hy : T.RMem y) (h0 : T.lo ≠ .int 0) (hn : T.hi.w ≠ fin 0) :
    ∃ B, Interval.divI F oneI T = .ok B ∧ B.Hull (L.rr (1 / y)) := by
  have e1 : Number.eq F (.int 1) (.int 0) = false := by simp [Number.eq]
  have emp1 : isEmpty F oneI = false := by simp [oneI, isEmpty, gt, le, Number.eq]
  cases hz : hasZero F T with
  | true =>
    refine ⟨fullI, ?_, full_hull _⟩
    unfold Interval.divI
    rw [emp1, not_empty_of_rmem hT hy, hz]
    rfl
  | false =>
    by_cases hs : T.OneSide
    · obtain ⟨B, e, -, h⟩ := recip_encloses_partial L T hT hs y hy
      exact ⟨B, e, h⟩
    · unfold OneSide at hs
      rw [not_or, not_lt, not_lt] at hs
      have hpos : fin 0 < T.hi.w := lt_of_le_of_ne hs.2 (Ne.symm hn)
      unfold hasZero at hz
      simp only [Bool.or_eq_false_iff, Bool.and_eq_false_iff] at hz
      have hlo : T.lo.w = fin 0 := by
        rcases hs.1.lt_or_eq with h | h
        · rcases hz.1.1 with h' | h'
          · rw [← Bool.not_eq_true, lt_iff hT.1 (zero_ok L), zero_is'] at h'; exact absurd h h'
          · rw [← Bool.not_eq_true, gt_iff hT.2 (zero_ok L), zero_is'] at h'; exact absurd hpos h'
        · exact h
      have hlc : T.lc = false := by
        rcases hz.1.2 with h' | h'
        · rw [← Bool.not_eq_true, eq_iff hT.1 (zero_ok L), zero_is'] at h'; exact absurd hlo h'
        · exact h'
      have hl : T.lo = .real (.fin 0) := by
        rcases is_cases (⟨hlo, hT.1⟩ : T.lo.Is F 0) with ⟨i, e, hi, -⟩ | e
        · have : i = 0 := by exact_mod_cast hi
          subst this; exact absurd e h0
        · exact e
      have hypos : 0 < y := by
        have := hy.1
        rw [hl, hlc] at this
        simpa [LoB] using this
      have du : Number.div F (.int 1) T.lo = .ok (.real .pinf) := by
        rw [hl]
        simp only [Number.div, toReal, Int.cast_one, r1 L, XR.div, if_true, infOf_one]
      obtain ⟨v, V, dv, hv, hV⟩ : ∃ v V, Number.div F (.int 1) T.hi = .ok v ∧ v.Is F V ∧ V ≤ L.rr (1 / y) := by
        rcases above_cases hT.2 hy.2 with e | ⟨b, hb, -, hb3⟩
        · refine ⟨_, 0, by rw [e]; exact div_one_inf (.inl rfl), is_real _ _, ?_⟩
          have : (0 : ℝ) ≤ 1 / y := by positivity
          have := L.rr_mono _ _ this
          rwa [rr_zero] at this
        · have hb0 : b ≠ 0 := by rintro rfl; exact hn hb.1
          obtain ⟨v, dv, hv⟩ := div_one L hb hb0
          refine ⟨v, _, dv, hv, ?_⟩
          rw [← rr_inv L]
          exact L.rr_mono _ _ (inv_anti (.inl hypos) hb3)
      have pok : (Number.real .pinf).Ok F := trivial
      have vp : Number.lt F v (.real .pinf) = true := by
        rw [lt_iff hv.2 pok, hv.1]; simp only [Number.w, fin]
        exact lt_of_le_of_ne le_top (by intro h; exact absurd (WithBot.coe_inj.1 h) (by simp))
      have pv : Number.lt F (.real .pinf) v = false := by
        rw [← Bool.not_eq_true, lt_iff pok hv.2]; exact not_lt.2 le_top
      have vv : Number.lt F v v = false := by rw [← Bool.not_eq_true, lt_is hv hv]; exact lt_irrefl _
      have pp : Number.lt F (.real .pinf) (.real .pinf) = false := by
        rw [← Bool.not_eq_true, lt_iff pok pok]; exact lt_irrefl _
      have hz' : hasZero F T = false := by
        unfold hasZero
        simp only [Bool.or_eq_false_iff, Bool.and_eq_false_iff]
        exact hz
      refine ⟨corners F oneI T (.real .pinf) v (.real .pinf) v, ?_, ?_⟩
      · unfold Interval.divI
        rw [emp1, not_empty_of_rmem hT hy, hz']
        simp only [Bool.or_self, Bool.false_eq_true, if_false]
        have c1 : oneI.lo = .int 1 := rfl
        have c2 : oneI.hi = .int 1 := rfl
        rw [c1, c2, e1]
        simp only [Bool.false_and, Bool.false_eq_true, if_false, du, dv, Res.ok_bind]
      · unfold corners
        simp only [minL, maxL, List.foldl_cons, List.foldl_nil, smin, smax, vp, pv, pp, vv, if_true, Bool.false_eq_true, if_false]
        exact ⟨lob_of_le hv (by exact_mod_cast hV), trivial⟩

/-! ## Hyperbolic secant and cosecant -/

/-- C58, hyperbolic secant, every interval: the rounding of `1 / cosh x` is between the ends of the result, for every real of
the interval. -/
theorem sech_rounded_partial (A : Interval) (hA : A.Ok F) (x : ℝ) (hx : A.RMem x) :
    ∃ B, Interval.sech L A = .ok B ∧ B.Hull (L.rr (1 / Real.cosh x)) := by
  obtain ⟨T, eT, hT⟩ := cosh_encloses L A hA x (Set.mem_univ _) hx
  cases eT
  have hrange : ∀ z, (Interval.cosh L A).RMem z → 1 ≤ z := fun z => cosh_range L A hA x hx z
  have shape : (Interval.cosh L A).Ok F ∧ (Interval.cosh L A).lo ≠ .int 0 ∧ fin 0 < (Interval.cosh L A).lo.w := by
    have fok : ∀ n : Number, (∃ y, n = .real y) → ∀ z, ((n.nextAbove L).HiB false z) → (n.nextAbove L).Ok F := by
      rintro n ⟨y, rfl⟩ z hz
      cases y <;> simp_all [Number.nextAbove, XR.nextAbove, HiB, Number.Ok]
    have lok : ∀ n : Number, (∃ y, n = .real y) → ¬ Number.lt F (n.nextBelow L) (.int 1) = true → (n.nextBelow L).LoB false (Real.cosh x) →
        (n.nextBelow L).Ok F ∧ n.nextBelow L ≠ .int 0 ∧ fin 0 < (n.nextBelow L).w := by
      rintro n ⟨y, rfl⟩ h1 h2
      cases y with
      | nan => exact absurd h2 (by simp [Number.nextBelow, XR.nextBelow, LoB])
      | ninf => exact absurd (by simp [Number.nextBelow, XR.nextBelow, Number.lt, XR.lt, toReal]) h1
      | pinf =>
        refine ⟨trivial, by simp [Number.nextBelow], ?_⟩
        simp only [Number.nextBelow, XR.nextBelow, Number.lt, XR.lt, toReal, Int.cast_one, r1 L, decide_eq_true_eq, not_lt] at h1
        simp only [Number.nextBelow, XR.nextBelow, Number.w, fin_lt]; linarith
      | fin q =>
        refine ⟨trivial, by simp [Number.nextBelow], ?_⟩
        simp only [Number.nextBelow, XR.nextBelow, Number.lt, XR.lt, toReal, Int.cast_one, r1 L, decide_eq_true_eq, not_lt] at h1
        simp only [Number.nextBelow, XR.nextBelow, Number.w, fin_lt]; linarith
    have one : (Number.int 1).Ok F ∧ (Number.int 1 ≠ .int 0) ∧ fin 0 < (Number.int 1).w := by
      refine ⟨(one_is L).2, by simp, ?_⟩
      rw [(one_is L).1, fin_lt]; norm_num
    have side : ∀ l h : Number, (∃ y, l = .real y) → (∃ y, h = .real y) → (coshSide L l h).RMem (Real.cosh x) →
        (coshSide L l h).Ok F ∧ (coshSide L l h).lo ≠ .int 0 ∧ fin 0 < (coshSide L l h).lo.w := by
      intro l h hl hh hm
      unfold coshSide at hm ⊢
      simp only at hm ⊢
      split at hm
      · rename_i hc
        rw [if_pos hc]
        exact ⟨⟨one.1, fok h hh _ hm.2⟩, one.2⟩
      · rename_i hc
        rw [if_neg hc]
        have := lok l hl hc hm.1
        exact ⟨⟨this.1, fok h hh _ hm.2⟩, this.2⟩
    have hT' := hT
    unfold Interval.cosh at hT' ⊢
    rw [not_empty_of_rmem hA hx] at hT' ⊢
    simp only [Bool.false_eq_true, if_false] at hT' ⊢
    split at hT'
    · rename_i hc; rw [if_pos hc]
      exact side _ _ ⟨_, rfl⟩ ⟨_, rfl⟩ hT'
    · rename_i hc; rw [if_neg hc]
      split at hT'
      · rename_i hc; rw [if_pos hc]
        exact side _ _ ⟨_, rfl⟩ ⟨_, rfl⟩ hT'
      · rename_i hc; rw [if_neg hc]
        refine ⟨⟨one.1, fok _ ?_ _ hT'.2⟩, one.2⟩
        unfold smax; split
        · exact ⟨_, rfl⟩
        · exact ⟨_, rfl⟩
  obtain ⟨C, e, hC⟩ := (recip_encloses_partial L _ shape.1 (.inl shape.2.2) _ hT)
  have hH := hC.2
  unfold Interval.sech
  rw [not_empty_of_rmem hA hx, e]
  simp only [Bool.false_eq_true, if_false, Res.ok_bind]
  have hc1 : Real.cosh x ≥ 1 := Real.one_le_cosh x
  have hle1 : L.rr (1 / Real.cosh x) ≤ 1 := by
    have : 1 / Real.cosh x ≤ ((1 : ℚ) : ℝ) := by push_cast; rw [div_le_one (by linarith)]; exact hc1
    exact rep_ge L (r1 L) this
  have hge0 : 0 ≤ L.rr (1 / Real.cosh x) := by
    have : ((0 : ℚ) : ℝ) ≤ 1 / Real.cosh x := by push_cast; positivity
    exact grid_is_rep L (r0 L) this
  refine ⟨_, rfl, ?_, ?_⟩
  · simp only
    split
    · simp only [LoB, if_true, Int.cast_zero]; exact_mod_cast hge0
    · exact hH.1
  · simp only
    split
    · simp only [HiB, if_true, Int.cast_one]; exact_mod_cast hle1
    · exact hH.2

theorem widen_real_ok {f : Number → XR} {A : Interval} {y : ℝ} (hy : (widen L (.real (f A.lo)) (.real (f A.hi))).RMem y) :
    (widen L (.real (f A.lo)) (.real (f A.hi))).Ok F ∧ (widen L (.real (f A.lo)) (.real (f A.hi))).lo ≠ .int 0 := by
  obtain ⟨h1, h2⟩ := hy
  unfold widen at h1 h2 ⊢
  refine ⟨⟨?_, ?_⟩, by simp [Number.nextBelow]⟩
  · revert h1; cases f A.lo <;> simp [Number.nextBelow, XR.nextBelow, LoB, Number.Ok]
  · revert h2; cases f A.hi <;> simp [Number.nextAbove, XR.nextAbove, HiB, Number.Ok]

/-- C58, hyperbolic cosecant, every interval and every real `x ≠ 0` of it: the rounding of `1 / sinh x` is between the ends of the
result, unless the upper end of the enclosure of the hyperbolic sine is zero (its sign as a floating-point zero is not modelled). -/
theorem csch_rounded_partial (A : Interval) (hA : A.Ok F) (x : ℝ) (hx : A.RMem x) (hn : (Interval.sinh L A).hi.w ≠ fin 0) :
    ∃ B, Interval.csch L A = .ok B ∧ B.Hull (L.rr (1 / Real.sinh x)) := by
  obtain ⟨T, eT, hT⟩ := (increasing_enclose L).2.1 A hA x (Set.mem_univ _) hx
  cases eT
  unfold Interval.csch
  rw [not_empty_of_rmem hA hx]
  simp only [Bool.false_eq_true, if_false]
  split
  · exact ⟨_, rfl, full_hull _⟩
  · have hok : (Interval.sinh L A).Ok F ∧ (Interval.sinh L A).lo ≠ .int 0 := by
      unfold Interval.sinh at hT ⊢
      rw [not_empty_of_rmem hA hx] at hT ⊢
      exact widen_real_ok L (f := fun n => (toReal F n).sinh L) hT
    obtain ⟨B, e, h⟩ := recip_hull L hok.1 hT hok.2 hn
    rw [e]
    exact ⟨_, rfl, h⟩

/-! ## Trigonometric functions -/

/-- the end of a result of `sinLike`: a real number or ±1 -/
def GoodEnd (n : Number) : Prop := (∃ y, n = .real y) ∨ n = .int 1 ∨ n = .int (-1)

theorem sinLike_ends {f : Number → Number} (hf : ∀ n, ∃ y, f n = .real y) {top bot : Number} {A B : Interval}
    (h : sinLike L f top bot A = .ok B) (hne : isEmpty F A = false) : GoodEnd B.lo ∧ GoodEnd B.hi := by
  unfold sinLike at h
  rw [hne] at h
  simp only [Bool.false_eq_true, if_false] at h
  split at h
  · cases h; exact ⟨.inr (.inr rfl), .inr (.inl rfl)⟩
  · split at h
    · cases h; exact ⟨.inr (.inr rfl), .inr (.inl rfl)⟩
    · have p2e : ∃ y, Number.mul F (.int 2) (Number.pi L) = .real y := ⟨_, rfl⟩
      obtain ⟨y2, e2⟩ := p2e
      obtain ⟨r1, e1⟩ : ∃ r, reduce (F := F) (Number.mul F (.int 2) (Number.pi L)) A.lo = .ok r := by
        rw [e2]; unfold reduce; rw [div_real_ok]; exact ⟨_, rfl⟩
      obtain ⟨r2, e3⟩ : ∃ r, reduce (F := F) (Number.mul F (.int 2) (Number.pi L)) A.hi = .ok r := by
        rw [e2]; unfold reduce; rw [div_real_ok]; exact ⟨_, rfl⟩
      rw [e1, e3] at h
      simp only [Res.ok_bind] at h
      injection h with h
      subst h
      simp only
      have realmin : ∀ a b : Number, ∃ y, smin F (f a) (f b) = .real y := by
        intro a b; unfold smin; split
        · exact hf b
        · exact hf a
      have realmax : ∀ a b : Number, ∃ y, smax F (f a) (f b) = .real y := by
        intro a b; unfold smax; split
        · exact hf b
        · exact hf a
      generalize (if Number.lt F r2 r1 = true then Number.addAsg F r2 (Number.mul F (.int 2) (Number.pi L)) else r2) = hh
      obtain ⟨mn, em⟩ := realmin r1 hh
      obtain ⟨mx, ex⟩ := realmax r1 hh
      rw [em, ex]
      generalize (if Number.lt F (f r1) (f hh) = true then A.lc else A.rc) = c1
      generalize (if Number.lt F (f r1) (f hh) = true then A.rc else A.lc) = c2
      generalize (Number.le F r1 top && Number.ge F hh top || Number.le F r1 (Number.add F top (Number.mul F (.int 2) (Number.pi L))) &&
        Number.ge F hh (Number.add F top (Number.mul F (.int 2) (Number.pi L)))) = ht
      generalize (Number.le F r1 bot && Number.ge F hh bot || Number.le F r1 (Number.add F bot (Number.mul F (.int 2) (Number.pi L))) &&
        Number.ge F hh (Number.add F bot (Number.mul F (.int 2) (Number.pi L)))) = hb
      constructor
      · cases hb
        · simp only [Bool.false_eq_true, if_false]
          split <;> exact .inl ⟨_, rfl⟩
        · simp only [if_true]
          rw [if_neg (by simp [gt, le])]
          exact .inr (.inr rfl)
      · cases ht
        · simp only [Bool.false_eq_true, if_false]
          split <;> exact .inl ⟨_, rfl⟩
        · simp only [if_true]
          rw [if_neg (by simp [Number.lt])]
          exact .inr (.inl rfl)

include L in
theorem good_lo {n : Number} {c : Bool} {y : ℝ} (h : GoodEnd n) (hy : n.LoB c y) : n.Ok F ∧ n ≠ .int 0 := by
  rcases h with ⟨x, rfl⟩ | rfl | rfl
  · refine ⟨?_, by simp⟩
    revert hy; cases x <;> simp [LoB, Number.Ok]
  · exact ⟨(one_is L).2, by simp⟩
  · exact ⟨(mone_is L).2, by simp⟩
include L in
theorem good_hi {n : Number} {c : Bool} {y : ℝ} (h : GoodEnd n) (hy : n.HiB c y) : n.Ok F := by
  rcases h with ⟨x, rfl⟩ | rfl | rfl
  · revert hy; cases x <;> simp [HiB, Number.Ok]
  · exact (one_is L).2
  · exact (mone_is L).2

/-- C58, secant: for a closed interval with ends in `[0, 9/2]` (as for the cosine) the rounding of `1 / cos x` is between the
ends of the result. -/
theorem sec_rounded_partial (A : Interval) (a b : ℚ) (ha : A.lo.Is F a) (hb : A.hi.Is F b) (ra : F.r a = a) (rb : F.r b = b)
    (hlc : A.lc = true) (hrc : A.rc = true) (h0 : 0 ≤ a) (h9 : b ≤ 9 / 2) (x : ℝ) (hx : A.RMem x)
    (hn : ∀ T, Interval.cos L A = .ok T → T.hi.w ≠ fin 0) :
    ∃ B, Interval.sec L A = .ok B ∧ B.Hull (L.rr (1 / Real.cos x)) := by
  have hA : A.Ok F := ⟨ha.2, hb.2⟩
  obtain ⟨T, e, hT⟩ := cos_encloses_partial L A a b ha hb ra rb hlc hrc h0 h9 x hx
  unfold Interval.sec
  rw [not_empty_of_rmem hA hx, e]
  simp only [Bool.false_eq_true, if_false, Res.ok_bind]
  split
  · exact ⟨_, rfl, full_hull _⟩
  · obtain ⟨g1, g2⟩ := sinLike_ends L (fun n => ⟨_, rfl⟩) e (not_empty_of_rmem hA hx)
    have k := good_lo L g1 hT.1
    exact recip_hull L ⟨k.1, good_hi L g2 hT.2⟩ hT k.2 (hn T e)

/-- C58, cosecant, as for the secant -/
theorem csc_rounded_partial (hhalf : F.r (L.rr Real.pi / 2) = L.rr (Real.pi / 2))
    (A : Interval) (a b : ℚ) (ha : A.lo.Is F a) (hb : A.hi.Is F b) (ra : F.r a = a) (rb : F.r b = b)
    (hlc : A.lc = true) (hrc : A.rc = true) (h0 : 0 ≤ a) (h9 : b ≤ 9 / 2) (x : ℝ) (hx : A.RMem x)
    (hn : ∀ T, Interval.sin L A = .ok T → T.hi.w ≠ fin 0) :
    ∃ B, Interval.csc L A = .ok B ∧ B.Hull (L.rr (1 / Real.sin x)) := by
  have hA : A.Ok F := ⟨ha.2, hb.2⟩
  obtain ⟨T, e, hT⟩ := sin_encloses_partial L hhalf A a b ha hb ra rb hlc hrc h0 h9 x hx
  unfold Interval.csc
  rw [not_empty_of_rmem hA hx, e]
  simp only [Bool.false_eq_true, if_false, Res.ok_bind]
  split
  · exact ⟨_, rfl, full_hull _⟩
  · have e' := e
    obtain ⟨p, e1, -⟩ := pi_half L
    obtain ⟨t, e2, -⟩ := three_half_pi L
    unfold Interval.sin at e'
    rw [e1, e2] at e'
    simp only [Res.ok_bind] at e'
    obtain ⟨g1, g2⟩ := sinLike_ends L (fun n => ⟨_, rfl⟩) e' (not_empty_of_rmem hA hx)
    have k := good_lo L g1 hT.1
    exact recip_hull L ⟨k.1, good_hi L g2 hT.2⟩ hT k.2 (hn T e)

/-- C58, cotangent: for an interval whose ends lie in one branch of the tangent, the rounding of `1 / tan x` is between the ends of the
result. -/
theorem cot_rounded_partial (A : Interval) (a b : ℚ) (ha : A.lo.Is F a) (hb : A.hi.Is F b) (k : ℤ)
    (h1 : -(Real.pi / 2) + k * Real.pi < a) (h2 : b < Real.pi / 2 + k * Real.pi) (x : ℝ) (hx : A.RMem x)
    (hn : ∀ T, Interval.tan L A = .ok T → T.hi.w ≠ fin 0) :
    ∃ B, Interval.cot L A = .ok B ∧ B.Hull (L.rr (1 / Real.tan x)) := by
  have hA : A.Ok F := ⟨ha.2, hb.2⟩
  obtain ⟨T, e, hT⟩ := tan_encloses_partial L A a b ha hb k h1 h2 x hx
  unfold Interval.cot
  rw [not_empty_of_rmem hA hx, e]
  simp only [Bool.false_eq_true, if_false, Res.ok_bind]
  split
  · exact ⟨_, rfl, full_hull _⟩
  · have g : GoodEnd T.lo ∧ GoodEnd T.hi := by
      unfold Interval.tan at e
      obtain ⟨ph, ep, -⟩ := pi_half L
      obtain ⟨lm, el⟩ := tanReduce_ok L A.lo (.real (.fin ph))
      obtain ⟨hm, eh⟩ := tanReduce_ok L A.hi (.real (.fin ph))
      rw [not_empty_of_rmem hA hx, ep] at e
      simp only [Bool.false_eq_true, if_false, Res.ok_bind, isInf_is ha, isInf_is hb, Bool.or_self, el, eh] at e
      split at e
      · cases e; exact ⟨.inl ⟨_, rfl⟩, .inl ⟨_, rfl⟩⟩
      · split at e <;> (cases e; exact ⟨.inl ⟨_, rfl⟩, .inl ⟨_, rfl⟩⟩)
    have k' := good_lo L g.1 hT.1
    exact recip_hull L ⟨k'.1, good_hi L g.2 hT.2⟩ hT k'.2 (hn T e)

end SMT.Num
