import Verif.Num.FunProps

/-! # C58: interval functions with a domain, and the even function `cosh` -/

set_option linter.unusedVariables false
set_option linter.unusedSimpArgs false

noncomputable section
namespace SMT.Num
open Number Interval

variable {F : Fmt} (L : Lib F)

theorem hib_mono {c : Bool} {n : Number} {x y : ℝ} (h : n.HiB c x) (hy : y ≤ x) : n.HiB c y := by
  rcases n with i | (_ | _ | p | _) <;> cases c <;> simp only [HiB, if_true, if_false, Bool.false_eq_true] at h ⊢ <;>
    linarith
theorem lob_mono {c : Bool} {n : Number} {x y : ℝ} (h : n.LoB c x) (hy : x ≤ y) : n.LoB c y := by
  rcases n with i | (_ | _ | p | _) <;> cases c <;> simp only [LoB, if_true, if_false, Bool.false_eq_true] at h ⊢ <;>
    linarith
theorem lob_of_lt {c : Bool} {n : Number} {q : ℚ} {x : ℝ} (h : n.Is F q) (hx : (q : ℝ) < x) : n.LoB c x := by
  rcases is_cases h with ⟨i, rfl, ei, _⟩ | rfl
  · have : (i : ℝ) < x := by rw [← ei] at hx; simpa using hx
    cases c <;> simp [LoB, this, this.le]
  · cases c <;> simp [LoB, hx, hx.le]
theorem hib_of_lt {c : Bool} {n : Number} {q : ℚ} {x : ℝ} (h : n.Is F q) (hx : x < (q : ℝ)) : n.HiB c x := by
  rcases is_cases h with ⟨i, rfl, ei, _⟩ | rfl
  · have : x < (i : ℝ) := by rw [← ei] at hx; simpa using hx
    cases c <;> simp [HiB, this, this.le]
  · cases c <;> simp [HiB, hx, hx.le]
theorem lob_of_le {n : Number} {q : ℚ} {x : ℝ} (h : n.Is F q) (hx : (q : ℝ) ≤ x) : n.LoB true x := by
  rcases is_cases h with ⟨i, rfl, ei, _⟩ | rfl
  · have : (i : ℝ) ≤ x := by rw [← ei] at hx; simpa using hx
    simpa [LoB] using this
  · simpa [LoB] using hx
theorem hib_of_le {n : Number} {q : ℚ} {x : ℝ} (h : n.Is F q) (hx : x ≤ (q : ℝ)) : n.HiB true x := by
  rcases is_cases h with ⟨i, rfl, ei, _⟩ | rfl
  · have : x ≤ (i : ℝ) := by rw [← ei] at hx; simpa using hx
    simpa [HiB] using this
  · simpa [HiB] using hx

include L in
/-- the test `lower < k` says that some real of the interval is below `k` -/
theorem lo_lt_iff {A : Interval} (hA : A.Ok F) (hne : ∃ x, A.RMem x) {k : Int} (hk : |k| ≤ 10) :
    Number.lt F A.lo (.int k) = true ↔ ∃ x, A.RMem x ∧ x < k := by
  obtain ⟨x, hx⟩ := hne
  rcases below_cases hA.1 hx.1 with e | ⟨q, hq, hq2, hq3⟩
  · constructor
    · intro _
      refine ⟨min x (k - 1), ⟨by rw [e]; trivial, hib_mono hx.2 (min_le_left _ _)⟩, ?_⟩
      have := min_le_right x ((k : ℝ) - 1)
      linarith
    · intro _; rw [e]; simp [lt, XR.lt, toReal]
  · rw [lt_small L hq hk]
    constructor
    · intro h
      have h' : (q : ℝ) < k := by exact_mod_cast h
      rcases lt_or_ge x k with hxk | hxk
      · exact ⟨x, hx, hxk⟩
      · exact ⟨(q + k) / 2, ⟨lob_of_lt hq (by linarith), hib_mono hx.2 (by linarith)⟩, by linarith⟩
    · rintro ⟨y, hy, hyk⟩
      rcases below_cases hA.1 hy.1 with e | ⟨q', hq', -, hq3'⟩
      · rw [e] at hq; exact absurd hq.1 (by simp [Number.w])
      · have : q = q' := by have := hq.1.symm.trans hq'.1; simpa using this
        subst this
        exact_mod_cast hq3'.trans_lt hyk

include L in
/-- the test `upper > k` says that some real of the interval is above `k` -/
theorem hi_gt_iff {A : Interval} (hA : A.Ok F) (hne : ∃ x, A.RMem x) {k : Int} (hk : |k| ≤ 10) :
    Number.gt F A.hi (.int k) = true ↔ ∃ x, A.RMem x ∧ k < x := by
  obtain ⟨x, hx⟩ := hne
  rcases above_cases hA.2 hx.2 with e | ⟨q, hq, hq2, hq3⟩
  · constructor
    · intro _
      refine ⟨max x (k + 1), ⟨lob_mono hx.1 (le_max_left _ _), by rw [e]; trivial⟩, ?_⟩
      have := le_max_right x ((k : ℝ) + 1)
      linarith
    · intro _; rw [e]; simp [gt, le, XR.le, XR.eq, XR.lt, toReal]
  · rw [gt_small L hq hk]
    constructor
    · intro h
      have h' : (k : ℝ) < q := by exact_mod_cast h
      rcases lt_or_ge (k : ℝ) x with hxk | hxk
      · exact ⟨x, hx, hxk⟩
      · exact ⟨(q + k) / 2, ⟨lob_mono hx.1 (by linarith), hib_of_lt hq (by linarith)⟩, by linarith⟩
    · rintro ⟨y, hy, hyk⟩
      rcases above_cases hA.2 hy.2 with e | ⟨q', hq', -, hq3'⟩
      · rw [e] at hq; exact absurd hq.1 (by simp [Number.w])
      · have : q = q' := by have := hq.1.symm.trans hq'.1; simpa using this
        subst this
        exact_mod_cast hyk.trans_le hq3'

theorem neg_one_small : |(-1 : Int)| ≤ 10 := by decide
theorem one_small : |(1 : Int)| ≤ 10 := by decide
theorem zero_small : |(0 : Int)| ≤ 10 := by decide

/-- C58, arc sine: throws exactly when some real of the interval lies outside `[-1, 1]`, and otherwise
holds the arc sine of every real of the interval. -/
theorem asin_encloses : EnclosesOrThrows F (Set.Icc (-1) 1) Real.arcsin (Interval.asin L) := by
  intro A hA hne
  have hE : isEmpty F A = false := by obtain ⟨x, hx⟩ := hne; exact not_empty_of_rmem hA hx
  unfold Interval.asin
  rw [hE]
  simp only [Bool.false_eq_true, if_false]
  by_cases hc : (Number.lt F A.lo (.int (-1)) || Number.gt F A.hi (.int 1)) = true
  · right
    rw [if_pos hc]
    refine ⟨?_, rfl⟩
    rw [Bool.or_eq_true, lo_lt_iff L hA hne neg_one_small, hi_gt_iff L hA hne one_small] at hc
    rcases hc with ⟨x, hx, h⟩ | ⟨x, hx, h⟩
    · exact ⟨x, hx, fun hm => by have := hm.1; push_cast at h; linarith⟩
    · exact ⟨x, hx, fun hm => by have := hm.2; push_cast at h; linarith⟩
  · left
    rw [if_neg hc]
    rw [Bool.or_eq_true, not_or, lo_lt_iff L hA hne neg_one_small, hi_gt_iff L hA hne one_small] at hc
    obtain ⟨hc1, hc2⟩ := hc
    have hdom : ∀ x, A.RMem x → x ∈ Set.Icc (-1 : ℝ) 1 := by
      intro x hx
      constructor
      · by_contra h; exact hc1 ⟨x, hx, by push_cast; push Not at h; exact h⟩
      · by_contra h; exact hc2 ⟨x, hx, by push_cast; push Not at h; exact h⟩
    refine ⟨hdom, ?_⟩
    obtain ⟨x0, hx0⟩ := hne
    have hlo : ∃ a, A.lo.Is F a ∧ (-1 : ℚ) ≤ a ∧ a ≤ 1 := by
      rcases below_cases hA.1 hx0.1 with e | ⟨a, ha, -, ha3⟩
      · exfalso; apply hc1
        refine ⟨min x0 (-2), ⟨by rw [e]; trivial, hib_mono hx0.2 (min_le_left _ _)⟩, ?_⟩
        have := min_le_right x0 (-2 : ℝ)
        push_cast; linarith
      · refine ⟨a, ha, ?_, ?_⟩
        · by_contra h
          push Not at h
          exact hc1 ((lo_lt_iff L hA ⟨x0, hx0⟩ neg_one_small).1 ((lt_small L ha neg_one_small).2 (by push_cast; exact h)))
        · exact_mod_cast ha3.trans (hdom x0 hx0).2
    have hhi : ∃ b, A.hi.Is F b ∧ (-1 : ℚ) ≤ b ∧ b ≤ 1 := by
      rcases above_cases hA.2 hx0.2 with e | ⟨b, hb, -, hb3⟩
      · exfalso; apply hc2
        refine ⟨max x0 2, ⟨lob_mono hx0.1 (le_max_left _ _), by rw [e]; trivial⟩, ?_⟩
        have := le_max_right x0 (2 : ℝ)
        push_cast; linarith
      · refine ⟨b, hb, ?_, ?_⟩
        · have := (hdom x0 hx0).1.trans hb3
          exact_mod_cast this
        · by_contra h
          push Not at h
          exact hc2 ((hi_gt_iff L hA ⟨x0, hx0⟩ one_small).1 ((gt_small L hb one_small).2 (by push_cast; exact h)))
    obtain ⟨a, ha, ha1, ha2⟩ := hlo
    obtain ⟨b, hb, hb1, hb2⟩ := hhi
    have g : ∀ {n : Number} {q : ℚ}, n.Is F q → -1 ≤ q → q ≤ 1 →
        Number.asin L n = .ok (.real (XR.app L Real.arcsin .nan .nan (toReal F n))) := by
      intro n q h h1 h2
      unfold Number.asin XR.asin
      have : (XR.lt (toReal F n) (.fin (-1)) || XR.lt (.fin 1) (toReal F n)) = false := by
        rw [is_toReal h]; simp [XR.lt, h1, h2]
      rw [this]; rfl
    rw [g ha ha1 ha2, g hb hb1 hb2]
    refine ⟨_, rfl, fun x hx => ⟨?_, ?_⟩⟩
    · rcases below_cases hA.1 hx.1 with e | ⟨a', ha', -, ha3⟩
      · rw [e] at ha; exact absurd ha.1 (by simp [Number.w])
      · exact lower_end L ha' (Real.monotone_arcsin ha3) false
    · rcases above_cases hA.2 hx.2 with e | ⟨b', hb', -, hb3⟩
      · rw [e] at hb; exact absurd hb.1 (by simp [Number.w])
      · exact upper_end L hb' (Real.monotone_arcsin hb3) false

/-- C58, inverse hyperbolic cosine: throws exactly when some real of the interval is below 1. -/
theorem acosh_encloses : EnclosesOrThrows F (Set.Ici 1) Real.arcosh (Interval.acosh L) := by
  intro A hA hne
  have hE : isEmpty F A = false := by obtain ⟨x, hx⟩ := hne; exact not_empty_of_rmem hA hx
  unfold Interval.acosh
  rw [hE]
  simp only [Bool.false_eq_true, if_false]
  by_cases hc : Number.lt F A.lo (.int 1) = true
  · right
    rw [if_pos hc]
    refine ⟨?_, rfl⟩
    rw [lo_lt_iff L hA hne one_small] at hc
    obtain ⟨x, hx, h⟩ := hc
    exact ⟨x, hx, fun hm => by have : (1 : ℝ) ≤ x := hm; push_cast at h; linarith⟩
  · left
    rw [if_neg hc]
    rw [lo_lt_iff L hA hne one_small] at hc
    have hdom : ∀ x, A.RMem x → x ∈ Set.Ici (1 : ℝ) := by
      intro x hx
      by_contra h; exact hc ⟨x, hx, by push_cast; simpa using h⟩
    refine ⟨hdom, ?_⟩
    obtain ⟨x0, hx0⟩ := hne
    have hlo : ∃ a, A.lo.Is F a ∧ (1 : ℚ) ≤ a := by
      rcases below_cases hA.1 hx0.1 with e | ⟨a, ha, -, ha3⟩
      · exfalso; apply hc
        refine ⟨min x0 0, ⟨by rw [e]; trivial, hib_mono hx0.2 (min_le_left _ _)⟩, ?_⟩
        have := min_le_right x0 (0 : ℝ)
        push_cast; linarith
      · refine ⟨a, ha, ?_⟩
        by_contra h
        push Not at h
        exact hc ((lo_lt_iff L hA ⟨x0, hx0⟩ one_small).1 ((lt_small L ha one_small).2 (by push_cast; exact h)))
    obtain ⟨a, ha, ha1⟩ := hlo
    have g : ∀ {n : Number} {q : ℚ}, n.Is F q → 1 ≤ q →
        Number.acosh L n = .ok (.real (XR.app L Real.arcosh .nan .pinf (toReal F n))) := by
      intro n q h h1
      unfold Number.acosh XR.acosh
      have : XR.lt (toReal F n) (.fin 1) = false := by
        rw [is_toReal h]; simp [XR.lt, h1]
      rw [this]; rfl
    have mono : ∀ {u v : ℝ}, 1 ≤ u → u ≤ v → Real.arcosh u ≤ Real.arcosh v := by
      intro u v hu huv
      exact (Real.arcosh_le_arcosh (by linarith) (by linarith)).2 huv
    rcases above_cases hA.2 hx0.2 with e | ⟨b, hb, -, hb3⟩
    · have ghi : Number.acosh L A.hi = .ok (.real .pinf) := by rw [e]; rfl
      rw [g ha ha1, ghi]
      refine ⟨_, rfl, fun x hx => ⟨?_, trivial⟩⟩
      rcases below_cases hA.1 hx.1 with e | ⟨a', ha', -, ha3⟩
      · rw [e] at ha; exact absurd ha.1 (by simp [Number.w])
      · have : a' = a := by have := ha'.1.symm.trans ha.1; simpa using this
        subst this
        exact lower_end L ha' (mono (by exact_mod_cast ha1) ha3) false
    · have hb1 : (1 : ℚ) ≤ b := by
        have h1 : (1 : ℝ) ≤ x0 := hdom x0 hx0
        exact_mod_cast h1.trans hb3
      rw [g ha ha1, g hb hb1]
      refine ⟨_, rfl, fun x hx => ⟨?_, ?_⟩⟩
      · rcases below_cases hA.1 hx.1 with e | ⟨a', ha', -, ha3⟩
        · rw [e] at ha; exact absurd ha.1 (by simp [Number.w])
        · have : a' = a := by have := ha'.1.symm.trans ha.1; simpa using this
          subst this
          exact lower_end L ha' (mono (by exact_mod_cast ha1) ha3) false
      · rcases above_cases hA.2 hx.2 with e | ⟨b', hb', -, hb3⟩
        · rw [e] at hb; exact absurd hb.1 (by simp [Number.w])
        · exact upper_end L hb' (mono (hdom x hx) hb3) false

/-- C58, inverse hyperbolic tangent: every interval whose two ends lie strictly between -1 and 1 -/
theorem atanh_encloses_partial (A : Interval) (a b : ℚ) (ha : A.lo.Is F a) (hb : A.hi.Is F b) (h1 : -1 < a) (h2 : b < 1)
    (x : ℝ) (hx : A.RMem x) : ∃ B, Interval.atanh L A = .ok B ∧ B.RMem (Real.artanh x) := by
  have hA : A.Ok F := ⟨ha.2, hb.2⟩
  unfold Interval.atanh
  rw [not_empty_of_rmem hA hx]
  have hax : (a : ℝ) ≤ x := by
    rcases below_cases hA.1 hx.1 with e | ⟨a', ha', -, ha3⟩
    · rw [e] at ha; exact absurd ha.1 (by simp [Number.w])
    · have : a' = a := by have := ha'.1.symm.trans ha.1; simpa using this
      exact this ▸ ha3
  have hxb : x ≤ (b : ℝ) := by
    rcases above_cases hA.2 hx.2 with e | ⟨b', hb', -, hb3⟩
    · rw [e] at hb; exact absurd hb.1 (by simp [Number.w])
    · have : b' = b := by have := hb'.1.symm.trans hb.1; simpa using this
      exact this ▸ hb3
  have hab : a ≤ b := by exact_mod_cast hax.trans hxb
  have t : (Number.le F A.lo (.int (-1)) || Number.ge F A.hi (.int 1)) = false := by
    rw [Bool.or_eq_false_iff]
    constructor
    · rw [← Bool.not_eq_true, le_small L ha neg_one_small]; push_cast; exact not_le.2 h1
    · rw [← Bool.not_eq_true, ge_small L hb one_small]; push_cast; exact not_le.2 h2
  rw [t]
  have g : ∀ {n : Number} {q : ℚ}, n.Is F q → -1 < q → q < 1 →
      Number.atanh L n = .ok (.real (XR.app L Real.artanh .nan .nan (toReal F n))) := by
    intro n q h h1 h2
    unfold Number.atanh XR.atanh
    have : (XR.le (toReal F n) (.fin (-1)) || XR.le (.fin 1) (toReal F n)) = false := by
      rw [is_toReal h]; simp [XR.le, XR.lt, XR.eq, h1.le, h2.le, h1.ne', h2.ne']
    rw [this]; rfl
  simp only [Bool.false_eq_true, if_false]
  rw [g ha h1 (hab.trans_lt h2), g hb (h1.trans_le hab) h2]
  have h1' : (-1 : ℝ) < a := by exact_mod_cast h1
  have h2' : (b : ℝ) < 1 := by exact_mod_cast h2
  refine ⟨_, rfl, ?_, ?_⟩
  · exact lower_end L ha (Real.artanh_le_artanh h1' (hxb.trans_lt h2') hax) false
  · exact upper_end L hb (Real.artanh_le_artanh (h1'.trans_le hax) h2' hxb) false

/-- C58 violated: the open interval `(-1, 1)` lies in the domain of the inverse hyperbolic tangent, but
the function throws. -/
theorem atanh_violated :
    (⟨.int (-1), .int 1, false, false⟩ : Interval).Ok F ∧
    (∀ x : ℝ, (⟨.int (-1), .int 1, false, false⟩ : Interval).RMem x ↔ -1 < x ∧ x < 1) ∧
    Interval.atanh L ⟨.int (-1), .int 1, false, false⟩ = .throw := by
  refine ⟨⟨L.small _ (by decide), L.small _ (by decide)⟩, fun x => by simp [RMem, LoB, HiB], ?_⟩
  simp [Interval.atanh, isEmpty, gt, le, Number.eq]

/-- C58, hyperbolic cosine -/
theorem cosh_encloses : Encloses F Set.univ Real.cosh (fun A => .ok (Interval.cosh L A)) := by
  intro A hA x _ hx
  refine ⟨_, rfl, ?_⟩
  unfold Interval.cosh
  rw [not_empty_of_rmem hA hx]
  simp only [Bool.false_eq_true, if_false]
  have side : ∀ (l h : Number) , (l.nextBelow L).LoB false (Real.cosh x) → (h.nextAbove L).HiB false (Real.cosh x) →
      (coshSide L l h).RMem (Real.cosh x) := by
    intro l h h1 h2
    unfold coshSide
    simp only
    split
    · exact ⟨by simp [LoB, Real.one_le_cosh], h2⟩
    · exact ⟨h1, h2⟩
  by_cases h0 : Number.ge F A.lo (.int 0) = true
  · rw [if_pos h0]
    apply side
    · rcases below_cases hA.1 hx.1 with e | ⟨a, ha, -, ha3⟩
      · rw [e] at h0; simp [ge, lt, XR.lt, toReal] at h0
      · have h0' := (ge_small L ha zero_small).1 h0
        have : (0 : ℝ) ≤ a := by exact_mod_cast h0'
        exact lower_end L ha (Real.cosh_le_cosh.2 (by rw [abs_of_nonneg this, abs_of_nonneg (this.trans ha3)]; exact ha3)) false
    · rcases above_cases hA.2 hx.2 with e | ⟨b, hb, -, hb3⟩
      · rw [e]; trivial
      · rcases below_cases hA.1 hx.1 with e | ⟨a, ha, -, ha3⟩
        · rw [e] at h0; simp [ge, lt, XR.lt, toReal] at h0
        · have h0' := (ge_small L ha zero_small).1 h0
          have : (0 : ℝ) ≤ a := by exact_mod_cast h0'
          have hx0 := this.trans ha3
          exact upper_end L hb (Real.cosh_le_cosh.2 (by rw [abs_of_nonneg hx0, abs_of_nonneg (hx0.trans hb3)]; exact hb3)) false
  · rw [if_neg h0]
    by_cases h1 : Number.le F A.hi (.int 0) = true
    · rw [if_pos h1]
      rcases above_cases hA.2 hx.2 with e | ⟨b, hb, -, hb3⟩
      · rw [e] at h1; simp [le, XR.le, XR.eq, XR.lt, toReal] at h1
      · have h1' := (le_small L hb zero_small).1 h1
        have hb0 : (b : ℝ) ≤ 0 := by exact_mod_cast h1'
        have hx0 := hb3.trans hb0
        apply side
        · exact lower_end L hb (Real.cosh_le_cosh.2 (by rw [abs_of_nonpos hb0, abs_of_nonpos hx0]; linarith)) false
        · rcases below_cases hA.1 hx.1 with e | ⟨a, ha, -, ha3⟩
          · rw [e]; trivial
          · exact upper_end L ha (Real.cosh_le_cosh.2 (by rw [abs_of_nonpos hx0, abs_of_nonpos (ha3.trans hx0)]; linarith)) false
    · rw [if_neg h1]
      refine ⟨by simp [LoB, Real.one_le_cosh], ?_⟩
      show HiB false _ _
      unfold smax
      rcases below_cases hA.1 hx.1 with e | ⟨a, ha, -, ha3⟩ <;> rcases above_cases hA.2 hx.2 with e' | ⟨b, hb, -, hb3⟩
      · rw [e, e']; simp [Number.cosh, toReal, XR.cosh, XR.app, Number.lt, XR.lt, Number.nextAbove, XR.nextAbove, HiB]
      · have : Number.cosh L A.hi = .real (.fin (L.rr (Real.cosh b))) := by
          unfold Number.cosh; rw [is_toReal hb]; rfl
        rw [e, this]; simp [Number.cosh, toReal, XR.cosh, XR.app, Number.lt, XR.lt, Number.nextAbove, XR.nextAbove, HiB]
      · have : Number.cosh L A.lo = .real (.fin (L.rr (Real.cosh a))) := by
          unfold Number.cosh; rw [is_toReal ha]; rfl
        rw [e', this]; simp [Number.cosh, toReal, XR.cosh, XR.app, Number.lt, XR.lt, Number.nextAbove, XR.nextAbove, HiB]
      · have ea : Number.cosh L A.lo = .real (.fin (L.rr (Real.cosh a))) := by
          unfold Number.cosh; rw [is_toReal ha]; rfl
        have eb : Number.cosh L A.hi = .real (.fin (L.rr (Real.cosh b))) := by
          unfold Number.cosh; rw [is_toReal hb]; rfl
        rw [ea, eb]
        have key : Real.cosh x ≤ max (Real.cosh a) (Real.cosh b) := by
          rcases le_total 0 x with h | h
          · exact le_max_of_le_right (Real.cosh_le_cosh.2 (by rw [abs_of_nonneg h, abs_of_nonneg (h.trans hb3)]; exact hb3))
          · exact le_max_of_le_left (Real.cosh_le_cosh.2 (by rw [abs_of_nonpos h, abs_of_nonpos (ha3.trans h)]; linarith))
        have m : L.rr (max (Real.cosh a) (Real.cosh b)) = max (L.rr (Real.cosh a)) (L.rr (Real.cosh b)) :=
          (show Monotone L.rr from fun u v h => L.rr_mono u v h).map_max
        have hfin := above_rr L key
        rw [m] at hfin
        simp only [Number.lt, toReal, XR.lt, decide_eq_true_eq]
        split
        · rename_i hlt
          rw [max_eq_right hlt.le] at hfin
          simpa [Number.nextAbove, XR.nextAbove, HiB] using hfin
        · rename_i hlt
          rw [max_eq_left (not_lt.1 hlt)] at hfin
          simpa [Number.nextAbove, XR.nextAbove, HiB] using hfin

end SMT.Num
