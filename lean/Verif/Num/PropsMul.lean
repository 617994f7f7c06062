import Verif.Num.PropsArith
import Mathlib.Algebra.Order.Field.Basic

/-! # C44 (product, quotient, powers) -/

namespace SMT.Num
open Number Interval

theorem le_of_ite {b : Bool} {p q : EQ} (h : if b = true then p ≤ q else p < q) : p ≤ q := by
  cases b
  · exact le_of_lt (by simpa using h)
  · simpa using h

theorem infOf_one : XR.infOf 1 = .pinf := by unfold XR.infOf; norm_num
theorem infOf_two : XR.infOf 2 = .pinf := by unfold XR.infOf; norm_num
theorem infOf_mone : XR.infOf (-1) = .ninf := by unfold XR.infOf; norm_num
theorem infOf_zero : XR.infOf 0 = .nan := by unfold XR.infOf; norm_num

theorem minL_spec (a : Number) (l : List Number) (ha : a.Ok exact) (hl : ∀ b ∈ l, b.Ok exact) :
    minL exact a l ∈ a :: l ∧ (minL exact a l).Ok exact ∧ ∀ b ∈ a :: l, (minL exact a l).w ≤ b.w := by
  induction l generalizing a with
  | nil => exact ⟨by simp [minL], ha, by simp [minL]⟩
  | cons b l ih =>
    have hb := hl b (by simp)
    have hs := smin_w (F := exact) ha hb
    obtain ⟨h1, h2, h3⟩ := ih (smin exact a b) hs.2 (fun c hc => hl c (by simp [hc]))
    have e : minL exact a (b :: l) = minL exact (smin exact a b) l := rfl
    rw [e]
    refine ⟨?_, h2, ?_⟩
    · rcases List.mem_cons.mp h1 with h | h
      · rw [h]; unfold smin; split <;> simp
      · simp [h]
    · intro c hc
      have hm := h3 (smin exact a b) (by simp)
      rw [hs.1] at hm
      rcases List.mem_cons.mp hc with rfl | hc
      · exact hm.trans (min_le_left _ _)
      · rcases List.mem_cons.mp hc with rfl | hc
        · exact hm.trans (min_le_right _ _)
        · exact h3 c (by simp [hc])

theorem maxL_spec (a : Number) (l : List Number) (ha : a.Ok exact) (hl : ∀ b ∈ l, b.Ok exact) :
    maxL exact a l ∈ a :: l ∧ (maxL exact a l).Ok exact ∧ ∀ b ∈ a :: l, b.w ≤ (maxL exact a l).w := by
  induction l generalizing a with
  | nil => exact ⟨by simp [maxL], ha, by simp [maxL]⟩
  | cons b l ih =>
    have hb := hl b (by simp)
    have hs := smax_w (F := exact) ha hb
    obtain ⟨h1, h2, h3⟩ := ih (smax exact a b) hs.2 (fun c hc => hl c (by simp [hc]))
    have e : maxL exact a (b :: l) = maxL exact (smax exact a b) l := rfl
    rw [e]
    refine ⟨?_, h2, ?_⟩
    · rcases List.mem_cons.mp h1 with h | h
      · rw [h]; unfold smax; split <;> simp
      · simp [h]
    · intro c hc
      have hm := h3 (smax exact a b) (by simp)
      rw [hs.1] at hm
      rcases List.mem_cons.mp hc with rfl | hc
      · exact (le_max_left _ _).trans hm
      · rcases List.mem_cons.mp hc with rfl | hc
        · exact (le_max_right _ _).trans hm
        · exact h3 c (by simp [hc])

theorem pick_closed {A B : Interval} (h : A.lc = true ∧ A.rc = true ∧ B.lc = true ∧ B.rc = true)
    {p1 p2 p3 p4 m : Number} (hm : m ∈ [p1, p2, p3, p4]) (hok : ∀ b ∈ [p1, p2, p3, p4], b.Ok exact) :
    pick exact A B p1 p2 p3 p4 m = true := by
  have e : ∀ p ∈ [p1, p2, p3, p4], p = m → eq exact p m = true := by
    rintro p hp rfl; exact (eq_iff (hok p hp) (hok p hp)).mpr rfl
  unfold pick
  rw [h.1, h.2.1, h.2.2.1, h.2.2.2]
  simp only [List.mem_cons, List.not_mem_nil, or_false] at hm
  rcases hm with hm | hm | hm | hm
  · rw [e p1 (by simp) hm.symm]; simp
  · rw [e p2 (by simp) hm.symm]; simp
  · rw [e p3 (by simp) hm.symm]; simp
  · rw [e p4 (by simp) hm.symm]; simp

/-- closed corners: a value between two of them is in the spanned interval -/
theorem corners_closed {A B : Interval} (h : A.lc = true ∧ A.rc = true ∧ B.lc = true ∧ B.rc = true)
    {p1 p2 p3 p4 : Number} (hok : ∀ b ∈ [p1, p2, p3, p4], b.Ok exact) {x : EQ}
    (h1 : ∃ p ∈ [p1, p2, p3, p4], p.w ≤ x) (h2 : ∃ p ∈ [p1, p2, p3, p4], x ≤ p.w) :
    Mem x (corners exact A B p1 p2 p3 p4) := by
  have hm := minL_spec p1 [p2, p3, p4] (hok p1 (by simp)) (fun b hb => hok b (by simp [hb]))
  have hx := maxL_spec p1 [p2, p3, p4] (hok p1 (by simp)) (fun b hb => hok b (by simp [hb]))
  unfold corners Mem
  simp only [pick_closed h hm.1 hok, pick_closed h hx.1 hok, if_true]
  obtain ⟨p, hp, hpx⟩ := h1
  obtain ⟨q, hq, hqx⟩ := h2
  exact ⟨(hm.2.2 p hp).trans hpx, hqx.trans (hx.2.2 q hq)⟩

/-- the product of two numbers lies between two of the corner products -/
theorem product_corners {a b c d x y : ℚ} (h1 : a ≤ x) (h2 : x ≤ b) (h3 : c ≤ y) (h4 : y ≤ d) :
    (a * c ≤ x * y ∨ a * d ≤ x * y ∨ b * c ≤ x * y ∨ b * d ≤ x * y) ∧
    (x * y ≤ a * c ∨ x * y ≤ a * d ∨ x * y ≤ b * c ∨ x * y ≤ b * d) := by
  constructor
  · rcases le_total 0 y with hy | hy
    · have : a * y ≤ x * y := mul_le_mul_of_nonneg_right h1 hy
      rcases le_total 0 a with ha | ha
      · left; nlinarith
      · right; left; nlinarith
    · have : b * y ≤ x * y := mul_le_mul_of_nonpos_right h2 hy
      rcases le_total 0 b with hb | hb
      · right; right; left; nlinarith
      · right; right; right; nlinarith
  · rcases le_total 0 y with hy | hy
    · have : x * y ≤ b * y := mul_le_mul_of_nonneg_right h2 hy
      rcases le_total 0 b with hb | hb
      · right; right; right; nlinarith
      · right; right; left; nlinarith
    · have : x * y ≤ a * y := mul_le_mul_of_nonpos_right h1 hy
      rcases le_total 0 a with ha | ha
      · right; left; nlinarith
      · left; nlinarith

/-- C44: product of two bounded closed intervals, unless they are the same interval around zero
(which the code takes for a square, see `mulI_square_violated`). -/
theorem mulI_closed_partial (A B : Interval) (a b c d : ℚ) (ha : A.lo.Is exact a) (hb : A.hi.Is exact b)
    (hc : B.lo.Is exact c) (hd : B.hi.Is exact d)
    (hcl : A.lc = true ∧ A.rc = true ∧ B.lc = true ∧ B.rc = true)
    (hsq : ¬ (a = c ∧ b = d ∧ a ≤ 0 ∧ 0 ≤ b))
    (x y : ℚ) (hx : Mem (fin x) A) (hy : Mem (fin y) B) : Mem (fin (x * y)) (mulI exact A B) := by
  have hA : A.Ok exact := ⟨ha.2, hb.2⟩
  have hB : B.Ok exact := ⟨hc.2, hd.2⟩
  have eA := not_empty_of_mem hA hx
  have eB := not_empty_of_mem hB hy
  simp only [Mem, hcl, if_true, ha.1, hb.1, hc.1, hd.1, fin_le] at hx hy
  have hs : (sameAs exact A B && (le exact A.lo (.int 0) && ge exact A.hi (.int 0))) = false := by
    rw [← Bool.not_eq_true]
    simp only [sameAs, Bool.and_eq_true, eq_iff ha.2 hc.2, eq_iff hb.2 hd.2, le_iff ha.2 zero_is.2,
      ge_iff hb.2 zero_is.2, ha.1, hb.1, hc.1, hd.1, zero_is.1, fin_le, fin_inj]
    rintro ⟨⟨⟨⟨h1, h2⟩, _⟩, _⟩, h3, h4⟩; exact hsq ⟨h1, h2, h3, h4⟩
  unfold mulI
  simp only [eA, eB, Bool.or_self, Bool.false_eq_true, if_false, hs]
  have i1 := mul_is ha hc
  have i2 := mul_is ha hd
  have i3 := mul_is hb hc
  have i4 := mul_is hb hd
  obtain ⟨k1, k2⟩ := product_corners hx.1 hx.2 hy.1 hy.2
  refine corners_closed hcl ?_ ?_ ?_
  · intro p hp
    simp only [List.mem_cons, List.not_mem_nil, or_false] at hp
    rcases hp with rfl | rfl | rfl | rfl
    exacts [i1.2, i2.2, i3.2, i4.2]
  · simp only [List.mem_cons, List.not_mem_nil, or_false, exists_eq_or_imp, exists_eq_left, i1.1, i2.1, i3.1, i4.1, fin_le]
    exact k1
  · simp only [List.mem_cons, List.not_mem_nil, or_false, exists_eq_or_imp, exists_eq_left, i1.1, i2.1, i3.1, i4.1, fin_le]
    exact k2

example : Mem (fin (-3)) ⟨.int (-4), .int 5, true, true⟩ ∧ (Number.int (-4)).Is exact (-4) ∧
    Mem (fin (1/2)) ⟨.int 0, .int 7, true, true⟩ := by
  refine ⟨?_, ⟨by simp [Number.w], rfl⟩, ?_⟩ <;>
    simp only [Mem, Number.w, if_true, fin_le] <;> norm_num

/-- C44, where it fails (1): two different variables with the same range around zero: the product of
`[-1,1]` and `[-1,1]` is reported `[0,1]`, without `-1 * 1`. -/
theorem mulI_square_violated :
    Mem (fin (-1)) ⟨.int (-1), .int 1, true, true⟩ ∧ Mem (fin 1) ⟨.int (-1), .int 1, true, true⟩ ∧
    ¬ Mem (fin (-1 * 1)) (mulI exact ⟨.int (-1), .int 1, true, true⟩ ⟨.int (-1), .int 1, true, true⟩) := by
  refine ⟨?_, ?_, ?_⟩
  · simp only [Mem, Number.w, if_true, fin_le]; norm_num
  · simp only [Mem, Number.w, if_true, fin_le]; norm_num
  · have : mulI exact ⟨.int (-1), .int 1, true, true⟩ ⟨.int (-1), .int 1, true, true⟩ =
      ⟨.int 0, .int 1, true, true⟩ := rfl
    rw [this]; simp only [Mem, Number.w, if_true, fin_le]; norm_num

/-- C44, where it fails (2): an open corner hides a closed one with the same value:
`[0,1] * (2,3]` is reported `(0,3]`, without `0 * 3`. -/
theorem mulI_tie_violated :
    Mem (fin 0) ⟨.int 0, .int 1, true, true⟩ ∧ Mem (fin 3) ⟨.int 2, .int 3, false, true⟩ ∧
    ¬ Mem (fin (0 * 3)) (mulI exact ⟨.int 0, .int 1, true, true⟩ ⟨.int 2, .int 3, false, true⟩) := by
  refine ⟨?_, ?_, ?_⟩
  · simp only [Mem, Number.w, if_true, fin_le]; norm_num
  · simp only [Mem, Number.w, if_true, if_false, fin_le, fin_lt, Bool.false_eq_true]; norm_num
  · have : mulI exact ⟨.int 0, .int 1, true, true⟩ ⟨.int 2, .int 3, false, true⟩ =
      ⟨.int 0, .int 3, false, true⟩ := rfl
    rw [this]; simp [Mem, Number.w]

theorem fullI_mem (x : ℚ) : Mem (fin x) fullI := by
  simp only [fullI, Mem, Number.w, Bool.false_eq_true, if_false]
  exact ⟨bot_lt_fin x, fin_lt_top x⟩

/-- C44, where it fails (3): the whole line times `[0,1]` is reported empty (0 * oo is NaN). -/
theorem mulI_unbounded_violated :
    Mem (fin 5) fullI ∧ Mem (fin 1) ⟨.real (.fin 0), .real (.fin 1), true, true⟩ ∧
    isEmpty exact (mulI exact fullI ⟨.real (.fin 0), .real (.fin 1), true, true⟩) = true ∧
    contains exact (mulI exact fullI ⟨.real (.fin 0), .real (.fin 1), true, true⟩) (.int (5 * 1)) = false := by
  have e : isEmpty exact ⟨.real (.fin 0), .real (.fin 1), true, true⟩ = false :=
    (isEmpty_room (F := exact) (A := ⟨.real (.fin 0), .real (.fin 1), true, true⟩) ⟨trivial, trivial⟩).mpr
      (.inl (by simp [Number.w]))
  have e2 : isEmpty exact fullI = false := rfl
  have hm : (mulI exact fullI ⟨.real (.fin 0), .real (.fin 1), true, true⟩).lo = .real .nan := by
    unfold mulI
    simp only [e, e2, Bool.or_self, Bool.false_eq_true, if_false]
    have : sameAs exact fullI ⟨.real (.fin 0), .real (.fin 1), true, true⟩ = false := rfl
    simp only [this, Bool.false_and, Bool.false_eq_true, if_false, corners]
    simp [minL, smin, Number.mul, Number.lt, XR.mul, infOf_one, infOf_mone, infOf_zero, fullI, toReal, XR.lt]
  have he : ∀ I : Interval, I.lo = .real .nan → isEmpty exact I = true := by
    intro I hI
    simp [isEmpty, hI, Number.gt, Number.le, toReal, XR.le, XR.lt, XR.eq]
  refine ⟨fullI_mem 5, ?_, he _ hm, ?_⟩
  · simp only [Mem, Number.w, if_true, fin_le]; norm_num
  · simp [contains, he _ hm]

/-- C44: product of two strictly positive intervals, with open, closed or infinite ends. -/
theorem mulI_positive_partial (A B : Interval) (hA : A.Ok exact) (hB : B.Ok exact) (a c : ℚ)
    (ha : A.lo.Is exact a) (hc : B.lo.Is exact c) (pa : 0 < a) (pc : 0 < c)
    (x y : ℚ) (hx : Mem (fin x) A) (hy : Mem (fin y) B) : Mem (fin (x * y)) (mulI exact A B) := by
  have eA := not_empty_of_mem hA hx
  have eB := not_empty_of_mem hB hy
  obtain ⟨a1, a2⟩ := (mem_lb_ub hA).mp hx
  obtain ⟨b1, b2⟩ := (mem_lb_ub hB).mp hy
  have hs : (sameAs exact A B && (le exact A.lo (.int 0) && ge exact A.hi (.int 0))) = false := by
    rw [← Bool.not_eq_true]
    simp only [Bool.and_eq_true, le_iff ha.2 zero_is.2, ha.1, zero_is.1, fin_le]
    rintro ⟨_, h, _⟩; linarith
  unfold mulI
  simp only [eA, eB, Bool.or_self, Bool.false_eq_true, if_false, hs]
  have i1 := mul_is ha hc
  have hx1 : if A.lc then a ≤ x else a < x := by
    have := a1.2; rw [ha.1] at this; revert this; cases A.lc <;> simp
  have hy1 : if B.lc then c ≤ y else c < y := by
    have := b1.2; rw [hc.1] at this; revert this; cases B.lc <;> simp
  have hxa : a ≤ x := by revert hx1; cases A.lc <;> simp <;> intro h <;> linarith
  have hyc : c ≤ y := by revert hy1; cases B.lc <;> simp <;> intro h <;> linarith
  have px : 0 < x := by linarith
  have py : 0 < y := by linarith
  -- the lower corner bounds x*y below, the upper one above
  have l1 : if (A.lc && B.lc) then a * c ≤ x * y else a * c < x * y := by
    revert hx1 hy1
    cases A.lc <;> cases B.lc <;> simp <;> intro h1 h2 <;> nlinarith
  -- facts about the four corners as extended rationals
  have key : ∃ b d : EQ, A.hi.w = b ∧ B.hi.w = d ∧
      (mul exact A.lo B.hi).Ok exact ∧ (mul exact A.hi B.lo).Ok exact ∧ (mul exact A.hi B.hi).Ok exact ∧
      fin (a * c) ≤ (mul exact A.lo B.hi).w ∧ fin (a * c) ≤ (mul exact A.hi B.lo).w ∧
      (mul exact A.lo B.hi).w ≤ (mul exact A.hi B.hi).w ∧
      (mul exact A.hi B.lo).w ≤ (mul exact A.hi B.hi).w ∧
      (if (A.rc && B.rc) then fin (x * y) ≤ (mul exact A.hi B.hi).w else fin (x * y) < (mul exact A.hi B.hi).w) ∧
      ((mul exact A.lo B.hi).w = (mul exact A.hi B.hi).w → A.lc = false → fin (x * y) < (mul exact A.hi B.hi).w) ∧
      ((mul exact A.hi B.lo).w = (mul exact A.hi B.hi).w → B.lc = false → fin (x * y) < (mul exact A.hi B.hi).w) := by
    refine ⟨_, _, rfl, rfl, ?_⟩
    rcases ub_cases a2 with eb | ⟨b, hb, hb2⟩ <;> rcases ub_cases b2 with ed | ⟨d, hd, hd2⟩
    · rw [eb, ed, ((mul_pinf_is hc).1 pc).2.1, ((mul_pinf_is ha).1 pa).2.2.1]
      refine ⟨trivial, trivial, trivial, le_top, le_top, le_refl _, le_refl _, ?_, ?_, ?_⟩
      · cases A.rc <;> cases B.rc <;> simp [Number.mul, XR.mul, toReal, Number.w]
      · intros; exact fin_lt_top _
      · intros; exact fin_lt_top _
    · have pd : 0 < d := by revert hd2; cases B.rc <;> simp <;> intro h <;> linarith
      have hyd : y ≤ d := by revert hd2; cases B.rc <;> simp <;> intro h <;> linarith
      have i2 := mul_is ha hd
      rw [eb, ((mul_pinf_is hc).1 pc).2.1, ((mul_pinf_is hd).1 pd).2.1]
      refine ⟨i2.2, trivial, trivial, ?_, le_top, le_top, le_refl _, ?_, ?_, ?_⟩
      · rw [i2.1, fin_le]; nlinarith
      · cases A.rc <;> cases B.rc <;> simp [Number.w]
      · intros; exact fin_lt_top _
      · intros; exact fin_lt_top _
    · have pb : 0 < b := by revert hb2; cases A.rc <;> simp <;> intro h <;> linarith
      have hxb : x ≤ b := by revert hb2; cases A.rc <;> simp <;> intro h <;> linarith
      have i3 := mul_is hb hc
      rw [ed, ((mul_pinf_is ha).1 pa).2.2.1, ((mul_pinf_is hb).1 pb).2.2.1]
      refine ⟨trivial, i3.2, trivial, le_top, ?_, le_refl _, le_top, ?_, ?_, ?_⟩
      · rw [i3.1, fin_le]; nlinarith
      · cases A.rc <;> cases B.rc <;> simp [Number.w]
      · intros; exact fin_lt_top _
      · intros; exact fin_lt_top _
    · have hyd : y ≤ d := by revert hd2; cases B.rc <;> simp <;> intro h <;> linarith
      have hxb : x ≤ b := by revert hb2; cases A.rc <;> simp <;> intro h <;> linarith
      have pd : 0 < d := by linarith
      have pb : 0 < b := by linarith
      have i2 := mul_is ha hd
      have i3 := mul_is hb hc
      have i4 := mul_is hb hd
      rw [i2.1, i3.1, i4.1]
      refine ⟨i2.2, i3.2, i4.2, ?_, ?_, ?_, ?_, ?_, ?_, ?_⟩
      · rw [fin_le]; nlinarith
      · rw [fin_le]; nlinarith
      · rw [fin_le]; nlinarith
      · rw [fin_le]; nlinarith
      · revert hb2 hd2
        cases A.rc <;> cases B.rc <;> simp only [if_true, if_false, Bool.and_self, Bool.and_false,
          Bool.and_true, Bool.false_eq_true, fin_le, fin_lt] <;> intro h1 h2 <;> nlinarith
      · intro he hl
        rw [fin_inj] at he
        have : a = b := by
          have : (a - b) * d = 0 := by linarith
          rcases mul_eq_zero.mp this with h | h <;> linarith
        rw [hl] at hx1; simp at hx1; linarith
      · intro he hl
        rw [fin_inj] at he
        have : c = d := by
          have : b * (c - d) = 0 := by linarith
          rcases mul_eq_zero.mp this with h | h <;> linarith
        rw [hl] at hy1; simp at hy1; linarith
  obtain ⟨b, d, -, -, o2, o3, o4, k1, k2, k3, k4, k5, k6, k7⟩ := key
  have w1 := i1.1
  revert o2 o3 o4 k1 k2 k3 k4 k5 k6 k7 w1
  have o1 := i1.2
  revert o1
  generalize mul exact A.lo B.lo = p1
  generalize mul exact A.lo B.hi = p2
  generalize mul exact A.hi B.lo = p3
  generalize mul exact A.hi B.hi = p4
  intro o1 o2 o3 o4 k1 k2 k3 k4 k5 k6 k7 w1
  have hok : ∀ b ∈ [p2, p3, p4], b.Ok exact := by
    intro p hp; simp only [List.mem_cons, List.not_mem_nil, or_false] at hp
    rcases hp with rfl | rfl | rfl
    exacts [o2, o3, o4]
  have hm := minL_spec p1 [p2, p3, p4] o1 hok
  have hx' := maxL_spec p1 [p2, p3, p4] o1 hok
  unfold corners
  revert hm hx'
  generalize minL exact p1 [p2, p3, p4] = lo
  generalize maxL exact p1 [p2, p3, p4] = hi
  rintro ⟨m1, m2, m3⟩ ⟨n1, n2, n3⟩
  have elo : lo.w = fin (a * c) := by
    apply le_antisymm
    · rw [← w1]; exact m3 p1 (by simp)
    · simp only [List.mem_cons, List.not_mem_nil, or_false] at m1
      rcases m1 with rfl | rfl | rfl | rfl
      · rw [w1]
      · exact k1
      · exact k2
      · exact k2.trans k4
  have ehi : hi.w = p4.w := by
    apply le_antisymm
    · simp only [List.mem_cons, List.not_mem_nil, or_false] at n1
      rcases n1 with rfl | rfl | rfl | rfl
      · rw [w1]; exact k2.trans k4
      · exact k3
      · exact k4
      · exact le_refl _
    · exact n3 p4 (by simp)
  refine ⟨?_, ?_⟩
  · have : pick exact A B p1 p2 p3 p4 lo = (A.lc && B.lc) := by
      unfold pick; rw [(eq_iff o1 m2).mpr (by rw [w1, elo])]; simp
    simp only [this, elo]
    revert l1; cases A.lc <;> cases B.lc <;> simp
  · unfold pick
    simp only [ite_bool_iff (eq_iff o1 n2), ite_bool_iff (eq_iff o2 n2), ite_bool_iff (eq_iff o3 n2),
      ite_bool_iff (eq_iff o4 n2), ehi, w1]
    by_cases c1 : fin (a * c) = p4.w
    · rw [if_pos c1]
      have hle : fin (x * y) ≤ p4.w := by
        revert k5; cases A.rc <;> cases B.rc <;> simp <;> intro h <;> first | exact h.le | exact h
      rw [← c1, fin_le] at hle
      revert l1
      cases A.lc <;> cases B.lc <;> simp <;> intro h
      · linarith
      · linarith
      · linarith
      · rw [← c1]; simpa using hle
    · rw [if_neg c1]
      have weak : ∀ b : Bool, (b = false → fin (x * y) < p4.w) → if b = true then fin (x * y) ≤ p4.w else fin (x * y) < p4.w := by
        intro b hb
        cases b
        · exact hb rfl
        · revert k5; cases A.rc <;> cases B.rc <;> simp <;> intro h <;> first | exact h.le | exact h
      by_cases c2 : p2.w = p4.w
      · rw [if_pos c2]
        refine weak _ (fun hf => ?_)
        rcases Bool.and_eq_false_iff.mp hf with h | h
        · exact k6 c2 h
        · rw [h] at k5; simpa using k5
      · rw [if_neg c2]
        by_cases c3 : p3.w = p4.w
        · rw [if_pos c3]
          refine weak _ (fun hf => ?_)
          rcases Bool.and_eq_false_iff.mp hf with h | h
          · rw [h] at k5; simpa using k5
          · exact k7 c3 h
        · rw [if_neg c3, if_pos trivial]; exact k5

theorem div_is {a b : Number} {x y : ℚ} (ha : a.Is exact x) (hb : b.Is exact y) (hy : y ≠ 0) :
    ∃ c, div exact a b = .ok c ∧ c.Is exact (x / y) := div_exact_partial exact a b x y ha hb hy rfl

/-- C44: quotient by a non-zero number, for bounded intervals with any closedness. -/
theorem divN_sound_partial (A : Interval) (a b : ℚ) (ha : A.lo.Is exact a) (hb : A.hi.Is exact b)
    (x : ℚ) (hx : Mem (fin x) A) (v : Number) (z : ℚ) (hv : v.Is exact z) (hz : z ≠ 0) :
    ∃ C, divN exact A v = .ok C ∧ Mem (fin (x / z)) C := by
  have hA : A.Ok exact := ⟨ha.2, hb.2⟩
  have eA := not_empty_of_mem hA hx
  obtain ⟨l, hl, il⟩ := div_is ha hv hz
  obtain ⟨h, hh, ih⟩ := div_is hb hv hz
  have g := gt_iff (F := exact) hv.2 zero_is.2
  rw [hv.1, zero_is.1, fin_lt] at g
  have e : eq exact v (.int 0) = false := by
    rw [← Bool.not_eq_true, eq_iff hv.2 zero_is.2, hv.1, zero_is.1, fin_inj]; exact hz
  unfold divN
  simp only [eA, e, Bool.false_eq_true, if_false, ite_bool_iff g, hl, hh, Res.ok_bind]
  have hx' := hx
  simp only [Mem, ha.1, hb.1] at hx'
  by_cases hp : 0 < z
  · rw [if_pos hp]
    refine ⟨_, rfl, ?_⟩
    simp only [Mem, il.1, ih.1]
    revert hx'
    cases A.lc <;> cases A.rc <;> simp [div_le_div_iff_of_pos_right hp, div_lt_div_iff_of_pos_right hp] <;> grind
  · rw [if_neg hp]
    have hn : z < 0 := by
      rcases lt_trichotomy z 0 with h | h | h
      · exact h
      · exact absurd h hz
      · exact absurd h hp
    refine ⟨_, rfl, ?_⟩
    simp only [Mem, il.1, ih.1]
    revert hx'
    cases A.lc <;> cases A.rc <;> simp [div_le_div_right_of_neg hn, div_lt_div_right_of_neg hn] <;> grind

/-- C44: quotient of bounded closed intervals by one that lies strictly on one side of zero, and
quotient by any interval containing zero. -/
theorem divI_closed_partial (A B : Interval) (a b c d : ℚ) (ha : A.lo.Is exact a) (hb : A.hi.Is exact b)
    (hc : B.lo.Is exact c) (hd : B.hi.Is exact d)
    (hcl : A.lc = true ∧ A.rc = true ∧ B.lc = true ∧ B.rc = true)
    (x y : ℚ) (hx : Mem (fin x) A) (hy : Mem (fin y) B) :
    ∃ C, divI exact A B = .ok C ∧ Mem (fin (x / y)) C := by
  have hA : A.Ok exact := ⟨ha.2, hb.2⟩
  have hB : B.Ok exact := ⟨hc.2, hd.2⟩
  have eA := not_empty_of_mem hA hx
  have eB := not_empty_of_mem hB hy
  simp only [Mem, hcl, if_true, ha.1, hb.1, hc.1, hd.1, fin_le] at hx hy
  have hz : hasZero exact B = true ↔ (c < 0 ∧ 0 < d) ∨ c = 0 ∨ d = 0 := by
    simp only [hasZero, hcl, Bool.or_eq_true, Bool.and_eq_true, lt_iff hc.2 zero_is.2, gt_iff hd.2 zero_is.2,
      eq_iff hc.2 zero_is.2, eq_iff hd.2 zero_is.2, hc.1, hd.1, zero_is.1, fin_lt, fin_inj, and_true, or_assoc]
  have h0 : (eq exact A.lo (.int 0) && eq exact A.hi (.int 0) && A.lc && A.rc) = true ↔ a = 0 ∧ b = 0 := by
    simp only [hcl, Bool.and_eq_true, eq_iff ha.2 zero_is.2, eq_iff hb.2 zero_is.2, ha.1, hb.1, zero_is.1, fin_inj, and_true]
  unfold divI
  simp only [eA, eB, Bool.or_self, Bool.false_eq_true, if_false, ite_bool_iff hz, ite_bool_iff h0]
  by_cases z : (c < 0 ∧ 0 < d) ∨ c = 0 ∨ d = 0
  · rw [if_pos z]; exact ⟨_, rfl, fullI_mem _⟩
  rw [if_neg z]
  by_cases zz : a = 0 ∧ b = 0
  · rw [if_pos zz]
    have : x = 0 := by rw [zz.1, zz.2] at hx; linarith
    refine ⟨_, rfl, ?_⟩
    rw [this, zero_div]
    exact mem_of_lb_ub (lb_of zero_is (by simp)) (ub_of zero_is (by simp))
  rw [if_neg zz]
  push Not at z
  have nc : c ≠ 0 := z.2.1
  have nd : d ≠ 0 := z.2.2
  obtain ⟨p1, e1, i1⟩ := div_is ha hc nc
  obtain ⟨p2, e2, i2⟩ := div_is ha hd nd
  obtain ⟨p3, e3, i3⟩ := div_is hb hc nc
  obtain ⟨p4, e4, i4⟩ := div_is hb hd nd
  simp only [e1, e2, e3, e4, Res.ok_bind]
  refine ⟨_, rfl, ?_⟩
  -- 1/y lies between 1/d and 1/c
  have inv : 1 / d ≤ 1 / y ∧ 1 / y ≤ 1 / c := by
    rcases lt_or_gt_of_ne nc with h | h
    · have hd0 : d < 0 := by
        rcases lt_or_gt_of_ne nd with h' | h'
        · exact h'
        · exact absurd (z.1 h) (by linarith)
      have hy0 : y < 0 := by linarith
      exact ⟨one_div_le_one_div_of_neg_of_le hd0 hy.2, one_div_le_one_div_of_neg_of_le hy0 hy.1⟩
    · have hy0 : 0 < y := by linarith
      exact ⟨one_div_le_one_div_of_le hy0 hy.2, one_div_le_one_div_of_le h hy.1⟩
  obtain ⟨k1, k2⟩ := product_corners hx.1 hx.2 inv.1 inv.2
  simp only [mul_one_div] at k1 k2
  refine corners_closed hcl ?_ ?_ ?_
  · intro p hp
    simp only [List.mem_cons, List.not_mem_nil, or_false] at hp
    rcases hp with rfl | rfl | rfl | rfl
    exacts [i1.2, i2.2, i3.2, i4.2]
  · simp only [List.mem_cons, List.not_mem_nil, or_false, exists_eq_or_imp, exists_eq_left, i1.1, i2.1, i3.1, i4.1, fin_le]
    grind
  · simp only [List.mem_cons, List.not_mem_nil, or_false, exists_eq_or_imp, exists_eq_left, i1.1, i2.1, i3.1, i4.1, fin_le]
    grind

/-- C44, where it fails: a divisor with an open end at zero.  With integer ends the call throws;
with real ends `[1,2] / (-1,0)` is reported `[-2,+oo)` and misses `1 / (-1/10) = -10`. -/
theorem divI_zero_end_violated :
    divI exact ⟨.int 1, .int 2, true, true⟩ ⟨.int (-1), .int 0, false, false⟩ = .throw ∧
    (Mem (fin 1) ⟨.real (.fin 1), .real (.fin 2), true, true⟩ ∧
     Mem (fin (-1/10)) ⟨.real (.fin (-1)), .real (.fin 0), false, false⟩ ∧
     ∃ C, divI exact ⟨.real (.fin 1), .real (.fin 2), true, true⟩ ⟨.real (.fin (-1)), .real (.fin 0), false, false⟩ = .ok C ∧
      ¬ Mem (fin (1 / (-1/10))) C) := by
  refine ⟨rfl, ?_, ?_, ?_⟩
  · simp only [Mem, Number.w, if_true, fin_le]; norm_num
  · simp only [Mem, Number.w, if_false, Bool.false_eq_true, fin_lt]; norm_num
  · have e1 : isEmpty exact ⟨.real (.fin 1), .real (.fin 2), true, true⟩ = false :=
      (isEmpty_room (F := exact) (A := ⟨.real (.fin 1), .real (.fin 2), true, true⟩) ⟨trivial, trivial⟩).mpr
        (.inl (by simp [Number.w]))
    have e2 : isEmpty exact ⟨.real (.fin (-1)), .real (.fin 0), false, false⟩ = false :=
      (isEmpty_room (F := exact) (A := ⟨.real (.fin (-1)), .real (.fin 0), false, false⟩) ⟨trivial, trivial⟩).mpr
        (.inl (by simp [Number.w]))
    have e3 : hasZero exact ⟨.real (.fin (-1)), .real (.fin 0), false, false⟩ = false := by
      simp [hasZero, Number.gt, Number.lt, Number.le, toReal, XR.lt, XR.le, XR.eq, exact]
    have e4 : eq exact (.real (.fin 1)) (.int 0) = false := by
      simp [Number.eq, toReal, XR.eq, exact]
    unfold divI
    simp only [e1, e2, e3, e4, Bool.or_self, Bool.false_eq_true, if_false, Bool.false_and]
    refine ⟨_, rfl, ?_⟩
    rintro ⟨h, -⟩
    have hk : ∀ b ∈ [Number.real (XR.div exact (.fin 1) (.fin 0)), .real (XR.div exact (.fin 2) (.fin (-1))),
        .real (XR.div exact (.fin 2) (.fin 0))], b.Ok exact := by
      simp [Number.Ok, XR.div, infOf_one, infOf_two]
    have hk1 : (Number.real (XR.div exact (.fin 1) (.fin (-1)))).Ok exact := by simp [Number.Ok, XR.div]
    have hm := minL_spec (.real (XR.div exact (.fin 1) (.fin (-1)))) _ hk1 hk
    simp only [corners] at h
    have hlow : ∀ b ∈ [Number.real (XR.div exact (.fin 1) (.fin (-1))), Number.real (XR.div exact (.fin 1) (.fin 0)), .real (XR.div exact (.fin 2) (.fin (-1))),
        .real (XR.div exact (.fin 2) (.fin 0))], fin (-2) ≤ b.w := by
      intro b hb
      simp only [List.mem_cons, List.not_mem_nil, or_false] at hb
      rcases hb with rfl | rfl | rfl | rfl
      · simp only [XR.div, Number.w, exact, fin_le]; norm_num
      · simp [XR.div, infOf_one, infOf_two, Number.w]
      · simp only [XR.div, Number.w, exact, fin_le]; norm_num
      · simp [XR.div, infOf_one, infOf_two, Number.w]
    have h2 := hlow _ hm.1
    have h3 : fin (-2) ≤ fin (1 / (-1/10)) := by
      exact h2.trans (le_of_ite h)
    rw [fin_le] at h3
    norm_num at h3

end SMT.Num
