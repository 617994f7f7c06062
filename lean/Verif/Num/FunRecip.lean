import Verif.Num.FunMore

/-!
# C58: functions through reciprocals

`asec`, `acsc`, `acoth`, `asech`, `acsch` are computed as a function of the rounded interval `1 / A`; `cot`, `sec`, `csc`, `sech`,
`csch` are the rounded reciprocal of an enclosure.  The reciprocal is rounded to nearest and not widened, so what holds is:
the result encloses the value when the reciprocals of the ends fit the precision, and otherwise it holds the value
of the rounded reciprocal (or the rounded value).
-/

set_option linter.unusedVariables false
set_option linter.unusedSimpArgs false

noncomputable section
namespace SMT.Num
open Number Interval

variable {F : Fmt} (L : Lib F)

/-! ## Specification -/

/-- the real lies between the ends of the interval, the ends included -/
def Interval.Hull (B : Interval) (y : ℝ) : Prop := B.lo.LoB true y ∧ B.hi.HiB true y

/-- the reciprocals of the finite ends fit the precision -/
def Interval.InvExact (F : Fmt) (A : Interval) : Prop :=
  (∀ q, A.lo.Is F q → F.r (1 / q) = 1 / q) ∧ (∀ q, A.hi.Is F q → F.r (1 / q) = 1 / q)

/-- all numbers of the interval are positive, or all are negative, ends included -/
def Interval.OneSide (A : Interval) : Prop := fin 0 < A.lo.w ∨ A.hi.w < fin 0

/-! ## The reciprocal of an interval -/

/-- the rounded reciprocal of an end -/
def invOf (F : Fmt) (n : Number) : ℚ :=
  match toReal F n with
  | .fin q => F.r (1 / q)
  | _ => 0

theorem invOf_is {n : Number} {q : ℚ} (h : n.Is F q) : invOf F n = F.r (1 / q) := by
  unfold invOf; rw [is_toReal h]

include L in
theorem rm1 : F.r (-1) = -1 := by have := L.small (-1) (by decide); simpa using this

include L in
theorem div_one {n : Number} {q : ℚ} (h : n.Is F q) (hq : q ≠ 0) :
    ∃ u, Number.div F (.int 1) n = .ok u ∧ u.Is F (F.r (1 / q)) := by
  rcases is_cases h with ⟨i, rfl, h1, h2⟩ | rfl
  · have hi : i ≠ 0 := by rintro rfl; exact hq (by rw [← h1]; simp)
    unfold Number.div
    simp only [hi, if_false]
    by_cases hm : (1 : Int).tmod i = 0
    · rw [if_pos hm]
      have hd : i ∣ 1 := Int.dvd_of_tmod_eq_zero hm
      rcases Int.isUnit_iff.1 (isUnit_of_dvd_one hd) with rfl | rfl
      · refine ⟨_, rfl, ?_⟩
        rw [← h1]
        simp [Number.Is, Number.w, Number.Ok, r1 L]
      · refine ⟨_, rfl, ?_⟩
        rw [← h1]
        simp [Number.Is, Number.w, Number.Ok, rm1 L]
    · rw [if_neg hm]
      refine ⟨_, rfl, ?_⟩
      simp only [toReal, Int.cast_one, r1 L, XR.div]
      rw [h2, h1, if_neg hq]
      exact is_real _ _
  · refine ⟨_, rfl, ?_⟩
    simp only [toReal, Int.cast_one, r1 L, XR.div, hq, if_false]
    exact is_real _ _

theorem div_one_inf {x : XR} (h : x = .pinf ∨ x = .ninf) : Number.div F (.int 1) (.real x) = .ok (.real (.fin 0)) := by
  rcases h with rfl | rfl <;> simp [Number.div, toReal, XR.div]

theorem lt_is {m n : Number} {p q : ℚ} (hm : m.Is F p) (hn : n.Is F q) : Number.lt F m n = true ↔ p < q := by
  rw [lt_iff hm.2 hn.2, hm.1, hn.1, fin_lt]
theorem eq_is {m n : Number} {p q : ℚ} (hm : m.Is F p) (hn : n.Is F q) : Number.eq F m n = true ↔ p = q := by
  rw [eq_iff hm.2 hn.2, hm.1, hn.1]; simp [fin]

theorem corners_one {A : Interval} {u v : Number} {U V : ℚ} (hu : u.Is F U) (hv : v.Is F V) (h : V ≤ U) :
    corners F oneI A u v u v = ⟨if V < U then v else u, u, if V < U then A.rc else A.lc, A.lc⟩ := by
  have uu : Number.lt F u u = false := by rw [← Bool.not_eq_true, lt_is hu hu]; exact lt_irrefl _
  have vv : Number.lt F v v = false := by rw [← Bool.not_eq_true, lt_is hv hv]; exact lt_irrefl _
  have uv : Number.lt F u v = false := by rw [← Bool.not_eq_true, lt_is hu hv]; exact not_lt.2 h
  have euu : Number.eq F u u = true := (eq_is hu hu).2 rfl
  have evv : Number.eq F v v = true := (eq_is hv hv).2 rfl
  by_cases hlt : V < U
  · have vu : Number.lt F v u = true := (lt_is hv hu).2 hlt
    have euv : Number.eq F u v = false := by rw [← Bool.not_eq_true, eq_is hu hv]; exact hlt.ne'
    simp [corners, minL, maxL, smin, smax, uu, vv, uv, vu, euu, evv, euv, pick, oneI, hlt]
  · have vu : Number.lt F v u = false := by rw [← Bool.not_eq_true, lt_is hv hu]; exact hlt
    simp [corners, minL, maxL, smin, smax, uu, vv, uv, vu, euu, evv, pick, oneI, hlt]

/-- the shapes of an interval on one side of zero that holds a real -/
theorem one_side_cases {A : Interval} (hA : A.Ok F) {x : ℝ} (hx : A.RMem x) (hs : A.OneSide) :
    (∃ a b : ℚ, A.lo.Is F a ∧ A.hi.Is F b ∧ (0 < a ∨ b < 0) ∧ (if A.lc then (a : ℝ) ≤ x else (a : ℝ) < x) ∧
      (if A.rc then x ≤ (b : ℝ) else x < (b : ℝ)) ∧ (a : ℝ) ≤ x ∧ x ≤ (b : ℝ)) ∨
    (∃ a : ℚ, A.lo.Is F a ∧ A.hi = .real .pinf ∧ 0 < a ∧ (if A.lc then (a : ℝ) ≤ x else (a : ℝ) < x) ∧ (a : ℝ) ≤ x) ∨
    (∃ b : ℚ, A.hi.Is F b ∧ A.lo = .real .ninf ∧ b < 0 ∧ (if A.rc then x ≤ (b : ℝ) else x < (b : ℝ)) ∧ x ≤ (b : ℝ)) := by
  rcases below_cases hA.1 hx.1 with hl | ⟨a, ha, ha2, ha3⟩ <;> rcases above_cases hA.2 hx.2 with hh | ⟨b, hb, hb2, hb3⟩
  · exfalso
    unfold OneSide at hs
    rw [hl, hh] at hs
    simp [Number.w] at hs
  · right; right
    unfold OneSide at hs
    rw [hl, hb.1, fin_lt] at hs
    simp [Number.w] at hs
    exact ⟨b, hb, hl, hs, hb2, hb3⟩
  · right; left
    unfold OneSide at hs
    rw [hh, ha.1, fin_lt] at hs
    simp [Number.w] at hs
    exact ⟨a, ha, hh, hs, ha2, ha3⟩
  · left
    unfold OneSide at hs
    rw [ha.1, hb.1, fin_lt, fin_lt] at hs
    exact ⟨a, b, ha, hb, hs, ha2, hb2, ha3, hb3⟩

theorem inv_anti {a x : ℝ} (h : 0 < a ∨ x < 0) (hle : a ≤ x) : 1 / x ≤ 1 / a := by
  rcases h with h | h
  · exact one_div_le_one_div_of_le h hle
  · exact one_div_le_one_div_of_neg_of_le h hle
theorem inv_strict {a x : ℝ} (h : 0 < a ∨ x < 0) (hlt : a < x) : 1 / x < 1 / a := by
  rcases h with h | h
  · exact one_div_lt_one_div_of_lt h hlt
  · exact one_div_lt_one_div_of_neg_of_lt h hlt

theorem rr_inv (q : ℚ) : L.rr (1 / (q : ℝ)) = F.r (1 / q) := by
  have := L.rr_rat (1 / q); push_cast at this; exact this

theorem rr_zero : L.rr 0 = 0 := by
  have := L.rr_rat 0; rw [r0 L] at this; simpa using this

/-- the bounds of the rounded reciprocal -/
theorem inv_bounds {A : Interval} (hA : A.Ok F) {x : ℝ} (hx : A.RMem x) (hs : A.OneSide) :
    invOf F A.hi ≤ L.rr (1 / x) ∧ L.rr (1 / x) ≤ invOf F A.lo := by
  rcases one_side_cases hA hx hs with ⟨a, b, ha, hb, h0, -, -, h1, h2⟩ | ⟨a, ha, hh, h0, -, h1⟩ | ⟨b, hb, hl, h0, -, h2⟩
  · rw [invOf_is ha, invOf_is hb, ← rr_inv L, ← rr_inv L]
    have hp : ((0 : ℝ) < a ∨ x < 0) ∧ (0 < x ∨ (b : ℝ) < 0) := by
      rcases h0 with h | h
      · have : (0 : ℝ) < a := by exact_mod_cast h
        exact ⟨.inl this, .inl (this.trans_le h1)⟩
      · have : (b : ℝ) < 0 := by exact_mod_cast h
        exact ⟨.inr (h2.trans_lt this), .inr this⟩
    exact ⟨L.rr_mono _ _ (inv_anti hp.2 h2), L.rr_mono _ _ (inv_anti hp.1 h1)⟩
  · rw [invOf_is ha, ← rr_inv L, hh]
    have h0' : (0 : ℝ) < a := by exact_mod_cast h0
    refine ⟨?_, L.rr_mono _ _ (inv_anti (.inl h0') h1)⟩
    have : (0 : ℝ) ≤ 1 / x := by have := h0'.trans_le h1; positivity
    have := L.rr_mono _ _ this
    rwa [rr_zero] at this
  · rw [invOf_is hb, ← rr_inv L, hl]
    have h0' : (b : ℝ) < 0 := by exact_mod_cast h0
    refine ⟨L.rr_mono _ _ (inv_anti (.inr h0') h2), ?_⟩
    have : 1 / x ≤ (0 : ℝ) := one_div_nonpos.2 (h2.trans h0'.le)
    have := L.rr_mono _ _ this
    rwa [rr_zero] at this

include L in
/-- the reciprocal of an interval on one side of zero -/
theorem divI_one {A : Interval} (hA : A.Ok F) {x : ℝ} (hx : A.RMem x) (hs : A.OneSide) :
    ∃ u v : Number, u.Is F (invOf F A.lo) ∧ v.Is F (invOf F A.hi) ∧ Interval.divI F oneI A =
      .ok ⟨if invOf F A.hi < invOf F A.lo then v else u, u, if invOf F A.hi < invOf F A.lo then A.rc else A.lc, A.lc⟩ := by
  have hle := (inv_bounds L hA hx hs).1.trans (inv_bounds L hA hx hs).2
  have zi : (Number.int 0).Is F 0 := ⟨by simp [Number.w], small_ok L (by decide)⟩
  have oi : (Number.int 1).Is F 1 := ⟨by simp [Number.w], small_ok L (by decide)⟩
  have e1 : Number.eq F (.int 1) (.int 0) = false := by simp [Number.eq]
  have emp1 : isEmpty F oneI = false := by simp [oneI, isEmpty, gt, le, Number.eq]
  have hz : hasZero F A = false := by
    unfold hasZero
    have l0 : Number.eq F A.lo (.int 0) = false ∨ A.lo.w = fin 0 := by
      by_cases h : A.lo.w = fin 0
      · exact .inr h
      · left; rw [← Bool.not_eq_true, eq_iff hA.1 zi.2, zi.1]; exact h
    have h0 : Number.eq F A.hi (.int 0) = false ∨ A.hi.w = fin 0 := by
      by_cases h : A.hi.w = fin 0
      · exact .inr h
      · left; rw [← Bool.not_eq_true, eq_iff hA.2 zi.2, zi.1]; exact h
    have hord : A.lo.w ≤ A.hi.w := by
      rcases one_side_cases hA hx hs with ⟨a, b, ha, hb, h0, -, -, h1, h2⟩ | ⟨a, ha, hh, h0, -, h1⟩ | ⟨b, hb, hl, h0, -, h2⟩
      · rw [ha.1, hb.1, fin_le]; exact_mod_cast h1.trans h2
      · rw [hh]; exact le_top
      · rw [hl]; exact bot_le
    have nl : A.lo.w ≠ fin 0 := by
      rcases hs with h | h
      · exact h.ne'
      · exact (hord.trans_lt h).ne
    have nh : A.hi.w ≠ fin 0 := by
      rcases hs with h | h
      · exact (h.trans_le hord).ne'
      · exact h.ne
    have nb : (Number.lt F A.lo (.int 0) && Number.gt F A.hi (.int 0)) = false := by
      rw [Bool.and_eq_false_iff]
      rcases hs with h | h
      · left; rw [← Bool.not_eq_true, lt_iff hA.1 zi.2, zi.1]; exact not_lt.2 h.le
      · right; rw [← Bool.not_eq_true, gt_iff hA.2 zi.2, zi.1]; exact not_lt.2 h.le
    rcases l0 with l0 | l0
    · rcases h0 with h0 | h0
      · rw [nb, l0, h0]; rfl
      · exact absurd h0 nh
    · exact absurd l0 nl
  have divs : (∃ u, Number.div F (.int 1) A.lo = .ok u ∧ u.Is F (invOf F A.lo)) ∧
      (∃ v, Number.div F (.int 1) A.hi = .ok v ∧ v.Is F (invOf F A.hi)) := by
    have inf : ∀ {y : XR}, y = .pinf ∨ y = .ninf → ∃ u, Number.div F (.int 1) (.real y) = .ok u ∧ u.Is F (invOf F (.real y)) := by
      intro y hy
      refine ⟨_, div_one_inf hy, ?_⟩
      rcases hy with rfl | rfl <;> exact is_real _ _
    have fi : ∀ {n : Number} {q : ℚ}, n.Is F q → q ≠ 0 → ∃ u, Number.div F (.int 1) n = .ok u ∧ u.Is F (invOf F n) := by
      intro n q h hq
      rw [invOf_is h]; exact div_one L h hq
    rcases one_side_cases hA hx hs with ⟨a, b, ha, hb, h0, -, -, h1, h2⟩ | ⟨a, ha, hh, h0, -, h1⟩ | ⟨b, hb, hl, h0, -, h2⟩
    · have hab : a ≤ b := by exact_mod_cast h1.trans h2
      refine ⟨fi ha ?_, fi hb ?_⟩ <;> rcases h0 with h | h <;> intro e <;> linarith
    · refine ⟨fi ha h0.ne', ?_⟩
      rw [hh]; exact inf (.inl rfl)
    · refine ⟨?_, fi hb h0.ne⟩
      rw [hl]; exact inf (.inr rfl)
  obtain ⟨⟨u, du, hu⟩, ⟨v, dv, hv⟩⟩ := divs
  refine ⟨u, v, hu, hv, ?_⟩
  unfold Interval.divI
  rw [emp1, not_empty_of_rmem hA hx, hz]
  simp only [Bool.or_self, Bool.false_eq_true, if_false]
  have c1 : oneI.lo = .int 1 := rfl
  have c2 : oneI.hi = .int 1 := rfl
  rw [c1, c2, e1]
  simp only [Bool.false_and, Bool.false_eq_true, if_false, du, dv, Res.ok_bind]
  rw [corners_one hu hv hle]

theorem inv_exact_mem {A : Interval} (hA : A.Ok F) {x : ℝ} (hx : A.RMem x) (hs : A.OneSide) (he : A.InvExact F) :
    ((invOf F A.hi : ℚ) : ℝ) ≤ 1 / x ∧ 1 / x ≤ ((invOf F A.lo : ℚ) : ℝ) := by
  rcases one_side_cases hA hx hs with ⟨a, b, ha, hb, h0, -, -, h1, h2⟩ | ⟨a, ha, hh, h0, -, h1⟩ | ⟨b, hb, hl, h0, -, h2⟩
  · rw [invOf_is ha, invOf_is hb, he.1 a ha, he.2 b hb]
    push_cast
    have hp : ((0 : ℝ) < a ∨ x < 0) ∧ (0 < x ∨ (b : ℝ) < 0) := by
      rcases h0 with h | h
      · have : (0 : ℝ) < a := by exact_mod_cast h
        exact ⟨.inl this, .inl (this.trans_le h1)⟩
      · have : (b : ℝ) < 0 := by exact_mod_cast h
        exact ⟨.inr (h2.trans_lt this), .inr this⟩
    exact ⟨inv_anti hp.2 h2, inv_anti hp.1 h1⟩
  · rw [invOf_is ha, he.1 a ha, hh]
    have h0' : (0 : ℝ) < a := by exact_mod_cast h0
    push_cast
    refine ⟨?_, inv_anti (.inl h0') h1⟩
    have : (0 : ℝ) ≤ 1 / x := by have := h0'.trans_le h1; positivity
    simpa [invOf, toReal] using this
  · rw [invOf_is hb, he.2 b hb, hl]
    have h0' : (b : ℝ) < 0 := by exact_mod_cast h0
    push_cast
    refine ⟨inv_anti (.inr h0') h2, ?_⟩
    have : 1 / x ≤ (0 : ℝ) := one_div_nonpos.2 (h2.trans h0'.le)
    simpa [invOf, toReal] using this

/-- when both reciprocals fit and agree, the interval is a point and closed -/
theorem inv_exact_point {A : Interval} (hA : A.Ok F) {x : ℝ} (hx : A.RMem x) (hs : A.OneSide) (he : A.InvExact F)
    (e : ¬ invOf F A.hi < invOf F A.lo) : A.lc = true := by
  obtain ⟨m1, m2⟩ := inv_exact_mem hA hx hs he
  have le : ((invOf F A.lo : ℚ) : ℝ) ≤ ((invOf F A.hi : ℚ) : ℝ) := by exact_mod_cast not_lt.1 e
  have ex : 1 / x = ((invOf F A.lo : ℚ) : ℝ) := le_antisymm m2 (le.trans m1)
  rcases one_side_cases hA hx hs with ⟨a, b, ha, hb, h0, c1, -, h1, h2⟩ | ⟨a, ha, hh, h0, c1, h1⟩ | ⟨b, hb, hl, h0, -, h2⟩
  · rw [invOf_is ha, he.1 a ha] at ex
    push_cast at ex
    by_contra hc
    rw [if_neg hc] at c1
    have hp : (0 : ℝ) < a ∨ x < 0 := by
      rcases h0 with h | h
      · exact .inl (by exact_mod_cast h)
      · exact .inr (h2.trans_lt (by exact_mod_cast h))
    exact absurd ex (inv_strict hp c1).ne
  · rw [invOf_is ha, he.1 a ha] at ex
    push_cast at ex
    by_contra hc
    rw [if_neg hc] at c1
    exact absurd ex (inv_strict (.inl (by exact_mod_cast h0)) c1).ne
  · have h0' : (b : ℝ) < 0 := by exact_mod_cast h0
    rw [hl] at ex
    have : 1 / x < 0 := one_div_neg.2 (h2.trans_lt h0')
    simp [invOf, toReal] at ex
    rw [ex] at h2
    linarith

/-- C44, C58: the reciprocal of an interval on one side of zero holds the reciprocal of each of its reals when the reciprocals
of the ends fit the precision; otherwise the rounded reciprocal is between its ends. -/
theorem recip_encloses_partial (A : Interval) (hA : A.Ok F) (hs : A.OneSide) (x : ℝ) (hx : A.RMem x) :
    ∃ B, Interval.divI F oneI A = .ok B ∧ (A.InvExact F → B.RMem (1 / x)) ∧ B.Hull (L.rr (1 / x)) := by
  obtain ⟨u, v, hu, hv, e⟩ := divI_one L hA hx hs
  obtain ⟨b1, b2⟩ := inv_bounds L hA hx hs
  refine ⟨_, e, fun he => ?_, ?_⟩
  · obtain ⟨m1, m2⟩ := inv_exact_mem hA hx hs he
    by_cases hlt : invOf F A.hi < invOf F A.lo
    · simp only [hlt, if_true, RMem]
      rcases one_side_cases hA hx hs with ⟨a, b, ha, hb, h0, c1, c2, h1, h2⟩ | ⟨a, ha, hh, h0, c1, h1⟩ | ⟨b, hb, hl, h0, c2, h2⟩
      · have hp : ((0 : ℝ) < a ∨ x < 0) ∧ (0 < x ∨ (b : ℝ) < 0) := by
          rcases h0 with h | h
          · have : (0 : ℝ) < a := by exact_mod_cast h
            exact ⟨.inl this, .inl (this.trans_le h1)⟩
          · have : (b : ℝ) < 0 := by exact_mod_cast h
            exact ⟨.inr (h2.trans_lt this), .inr this⟩
        rw [invOf_is ha, he.1 a ha] at hu
        rw [invOf_is hb, he.2 b hb] at hv
        constructor
        · cases hc : A.rc
          · rw [hc] at c2
            refine lob_of_lt hv ?_
            push_cast; exact inv_strict hp.2 (by simpa using c2)
          · refine lob_of_le hv ?_
            push_cast; exact inv_anti hp.2 h2
        · cases hc : A.lc
          · rw [hc] at c1
            refine hib_of_lt hu ?_
            push_cast; exact inv_strict hp.1 (by simpa using c1)
          · refine hib_of_le hu ?_
            push_cast; exact inv_anti hp.1 h1
      · have h0' : (0 : ℝ) < a := by exact_mod_cast h0
        rw [invOf_is ha, he.1 a ha] at hu
        have hv' : v.Is F 0 := by rw [hh] at hv; exact hv
        constructor
        · refine lob_of_lt hv' ?_
          have := h0'.trans_le h1
          push_cast; positivity
        · cases hc : A.lc
          · rw [hc] at c1
            refine hib_of_lt hu ?_
            push_cast; exact inv_strict (.inl h0') (by simpa using c1)
          · refine hib_of_le hu ?_
            push_cast; exact inv_anti (.inl h0') h1
      · have h0' : (b : ℝ) < 0 := by exact_mod_cast h0
        rw [invOf_is hb, he.2 b hb] at hv
        have hu' : u.Is F 0 := by rw [hl] at hu; exact hu
        constructor
        · cases hc : A.rc
          · rw [hc] at c2
            refine lob_of_lt hv ?_
            push_cast; exact inv_strict (.inr h0') (by simpa using c2)
          · refine lob_of_le hv ?_
            push_cast; exact inv_anti (.inr h0') h2
        · refine hib_of_lt hu' ?_
          push_cast; exact one_div_neg.2 (h2.trans_lt h0')
    · have hc := inv_exact_point hA hx hs he hlt
      simp only [hlt, if_false, RMem, hc]
      have le : ((invOf F A.lo : ℚ) : ℝ) ≤ ((invOf F A.hi : ℚ) : ℝ) := by exact_mod_cast not_lt.1 hlt
      exact ⟨lob_of_le hu (le.trans m1), hib_of_le hu m2⟩
  · refine ⟨?_, hib_of_le hu (by exact_mod_cast b2)⟩
    by_cases hlt : invOf F A.hi < invOf F A.lo
    · simp only [hlt, if_true]; exact lob_of_le hv (by exact_mod_cast b1)
    · simp only [hlt, if_false]
      exact lob_of_le hu (by exact_mod_cast (not_lt.1 hlt).trans b1)

end SMT.Num
