import Verif.Num.PropsSet
import Mathlib.Algebra.Order.Ring.Abs
import Mathlib.Tactic.Positivity

/-! # C44: interval arithmetic over-approximates -/

namespace SMT.Num
open Number Interval

/-- `n` is a lower bound of `x` (strict unless `c`) -/
def LB (c : Bool) (n : Number) (x : ℚ) : Prop :=
  n.Ok exact ∧ if c then n.w ≤ fin x else n.w < fin x
/-- `n` is an upper bound of `x` (strict unless `c`) -/
def UB (c : Bool) (n : Number) (x : ℚ) : Prop :=
  n.Ok exact ∧ if c then fin x ≤ n.w else fin x < n.w

theorem mem_lb_ub {A : Interval} {x : ℚ} (hA : A.Ok exact) :
    Mem (fin x) A ↔ LB A.lc A.lo x ∧ UB A.rc A.hi x := by
  unfold LB UB Mem
  exact ⟨fun h => ⟨⟨hA.1, h.1⟩, ⟨hA.2, h.2⟩⟩, fun h => ⟨h.1.2, h.2.2⟩⟩

theorem mem_of_lb_ub {l h : Number} {lc rc : Bool} {x : ℚ} (h1 : LB lc l x) (h2 : UB rc h x) :
    Mem (fin x) ⟨l, h, lc, rc⟩ := ⟨h1.2, h2.2⟩

theorem int_ok (i : Int) : (Number.int i).Ok exact := rfl

theorem lb_cases {c : Bool} {n : Number} {x : ℚ} (h : LB c n x) :
    n = .real .ninf ∨ ∃ q, n.Is exact q ∧ if c then q ≤ x else q < x := by
  obtain ⟨h1, h2⟩ := h
  rcases n with i | (_ | _ | p | _)
  · refine .inr ⟨i, ⟨rfl, rfl⟩, ?_⟩
    cases c <;> simpa [Number.w] using h2
  · exact absurd h1 (by simp [Number.Ok])
  · exact .inl rfl
  · refine .inr ⟨p, is_real _ _, ?_⟩
    cases c <;> simpa [Number.w] using h2
  · exfalso; cases c <;> simp [Number.w] at h2

theorem lb_of {c : Bool} {n : Number} {q x : ℚ} (h : n.Is exact q) (h2 : if c then q ≤ x else q < x) :
    LB c n x := by
  refine ⟨h.2, ?_⟩
  rw [h.1]; cases c <;> simpa using h2

theorem lb_ninf (c : Bool) (x : ℚ) : LB c (.real .ninf) x := by
  refine ⟨trivial, ?_⟩; cases c <;> simp [Number.w]

theorem ub_pinf (c : Bool) (x : ℚ) : UB c (.real .pinf) x := by
  refine ⟨trivial, ?_⟩; cases c <;> simp [Number.w]

theorem ub_of {c : Bool} {n : Number} {q x : ℚ} (h : n.Is exact q) (h2 : if c then x ≤ q else x < q) :
    UB c n x := by
  refine ⟨h.2, ?_⟩
  rw [h.1]; cases c <;> simpa using h2

theorem ub_cases {c : Bool} {n : Number} {x : ℚ} (h : UB c n x) :
    n = .real .pinf ∨ ∃ q, n.Is exact q ∧ if c then x ≤ q else x < q := by
  obtain ⟨h1, h2⟩ := h
  rcases n with i | (_ | _ | p | _)
  · refine .inr ⟨i, ⟨rfl, rfl⟩, ?_⟩
    cases c <;> simpa [Number.w] using h2
  · exact absurd h1 (by simp [Number.Ok])
  · exfalso; cases c <;> simp [Number.w] at h2
  · refine .inr ⟨p, is_real _ _, ?_⟩
    cases c <;> simpa [Number.w] using h2
  · exact .inl rfl

theorem add_is {a b : Number} {x y : ℚ} (ha : a.Is exact x) (hb : b.Is exact y) :
    (add exact a b).Is exact (x + y) := (arith_exact_partial exact a b x y ha hb).1 rfl
theorem sub_is {a b : Number} {x y : ℚ} (ha : a.Is exact x) (hb : b.Is exact y) :
    (sub exact a b).Is exact (x - y) := (arith_exact_partial exact a b x y ha hb).2.1 rfl
theorem mul_is {a b : Number} {x y : ℚ} (ha : a.Is exact x) (hb : b.Is exact y) :
    (mul exact a b).Is exact (x * y) := (arith_exact_partial exact a b x y ha hb).2.2.1 rfl
theorem neg_is {a : Number} {x : ℚ} (ha : a.Is exact x) :
    (neg a).Is exact (-x) := (arith_exact_partial exact a a x x ha ha).2.2.2.1 rfl
theorem abs_is {a : Number} {x : ℚ} (ha : a.Is exact x) :
    (Number.abs a).Is exact |x| := (arith_exact_partial exact a a x x ha ha).2.2.2.2 rfl
theorem int_is (i : Int) : (Number.int i).Is exact i := ⟨rfl, rfl⟩
theorem zero_is : (Number.int 0).Is exact 0 := ⟨by simp [Number.w], rfl⟩

theorem lb_neg {c : Bool} {n : Number} {x : ℚ} (h : LB c n x) : UB c n.neg (-x) := by
  rcases lb_cases h with rfl | ⟨q, hq, h2⟩
  · exact ub_pinf _ _
  · exact ub_of (neg_is hq) (by cases c <;> simpa using h2)

theorem ub_neg {c : Bool} {n : Number} {x : ℚ} (h : UB c n x) : LB c n.neg (-x) := by
  rcases ub_cases h with rfl | ⟨q, hq, h2⟩
  · exact lb_ninf _ _
  · exact lb_of (neg_is hq) (by cases c <;> simpa using h2)

theorem add_ninf_is {n : Number} {q : ℚ} (h : n.Is exact q) :
    add exact (.real .ninf) n = .real .ninf ∧ add exact n (.real .ninf) = .real .ninf ∧
    add exact (.real .pinf) n = .real .pinf ∧ add exact n (.real .pinf) = .real .pinf := by
  have r := is_toReal h
  rcases is_cases h with ⟨i, rfl, -, -⟩ | rfl <;> simp [add, XR.add, toReal]

theorem lb_add {c d : Bool} {n m : Number} {x y : ℚ} (h1 : LB c n x) (h2 : LB d m y) :
    LB (c && d) (add exact n m) (x + y) := by
  rcases lb_cases h1 with rfl | ⟨q, hq, hq2⟩ <;> rcases lb_cases h2 with rfl | ⟨p, hp, hp2⟩
  · exact lb_ninf _ _
  · rw [(add_ninf_is hp).1]; exact lb_ninf _ _
  · rw [(add_ninf_is hq).2.1]; exact lb_ninf _ _
  · refine lb_of (add_is hq hp) ?_
    cases c <;> cases d <;> simp at hq2 hp2 ⊢ <;> linarith

theorem ub_add {c d : Bool} {n m : Number} {x y : ℚ} (h1 : UB c n x) (h2 : UB d m y) :
    UB (c && d) (add exact n m) (x + y) := by
  rcases ub_cases h1 with rfl | ⟨q, hq, hq2⟩ <;> rcases ub_cases h2 with rfl | ⟨p, hp, hp2⟩
  · exact ub_pinf _ _
  · rw [(add_ninf_is hp).2.2.1]; exact ub_pinf _ _
  · rw [(add_ninf_is hq).2.2.2]; exact ub_pinf _ _
  · refine ub_of (add_is hq hp) ?_
    cases c <;> cases d <;> simp at hq2 hp2 ⊢ <;> linarith

theorem sub_eq_add_neg_number (a b : Number) : sub exact a b = add exact a b.neg := by
  rcases a with i | x <;> rcases b with j | y
  · rw [Number.neg]; simp only [Number.sub, Number.add, Number.int.injEq]; omega
  · rfl
  · simp only [Number.sub, Number.add, Number.neg, XR.sub, toReal, XR.neg, exact]; push_cast; rfl
  · rfl

theorem not_empty_of_mem {A : Interval} {x : EQ} (hA : A.Ok exact) (h : Mem x A) :
    isEmpty exact A = false := (isEmpty_room hA).mpr (room_of_btw h)

/-- C44: negation, sum, difference (with a number or an interval), over all intervals with any ends.
Arithmetic is exact here (no MPFR rounding); see `addI_rounded` for rounded ends. -/
theorem linear_sound_partial (A B : Interval) (hA : A.Ok exact) (hB : B.Ok exact) (x y : ℚ)
    (hx : Mem (fin x) A) (hy : Mem (fin y) B) (v : Number) (z : ℚ) (hv : v.Is exact z) :
    Mem (fin (-x)) (Interval.neg exact A) ∧ Mem (fin (x + y)) (addI exact A B) ∧
    Mem (fin (x - y)) (subI exact A B) ∧ Mem (fin (x + z)) (addN exact A v) ∧
    Mem (fin (x - z)) (subN exact A v) ∧ Mem (fin (x + 1)) (Interval.inc exact A) := by
  have eA := not_empty_of_mem hA hx
  have eB := not_empty_of_mem hB hy
  obtain ⟨a1, a2⟩ := (mem_lb_ub hA).mp hx
  obtain ⟨b1, b2⟩ := (mem_lb_ub hB).mp hy
  have v1 : LB true v z := lb_of hv (by simp)
  have v2 : UB true v z := ub_of hv (by simp)
  refine ⟨?_, ?_, ?_, ?_, ?_, ?_⟩
  · simp only [Interval.neg, eA, Bool.false_eq_true, if_false]
    exact mem_of_lb_ub (ub_neg a2) (lb_neg a1)
  · simp only [addI, eA, eB, Bool.or_self, Bool.false_eq_true, if_false]
    exact mem_of_lb_ub (lb_add a1 b1) (ub_add a2 b2)
  · simp only [subI, eA, eB, Bool.or_self, Bool.false_eq_true, if_false, sub_eq_add_neg_number, sub_eq_add_neg]
    exact mem_of_lb_ub (lb_add a1 (ub_neg b2)) (ub_add a2 (lb_neg b1))
  · have h1 := lb_add a1 v1
    have h2 := ub_add a2 v2
    rw [Bool.and_true] at h1 h2
    exact mem_of_lb_ub h1 h2
  · have h1 := lb_add a1 (ub_neg v2)
    have h2 := ub_add a2 (lb_neg v1)
    rw [Bool.and_true, ← sub_eq_add_neg, ← sub_eq_add_neg_number] at h1 h2
    exact mem_of_lb_ub h1 h2
  · simp only [Interval.inc, eA, Bool.false_eq_true, if_false]
    have o1 : LB true (.int 1) 1 := lb_of (int_is 1) (by simp)
    have o2 : UB true (.int 1) 1 := ub_of (int_is 1) (by simp)
    have h1 := lb_add a1 o1
    have h2 := ub_add a2 o2
    rw [Bool.and_true] at h1 h2
    exact mem_of_lb_ub h1 h2

example : Mem (fin (1/2)) ⟨.int 0, .real .pinf, false, false⟩ ∧
    Interval.Ok exact ⟨.int 0, .real .pinf, false, false⟩ ∧
    Mem (fin 2) ⟨.real .ninf, .int 2, true, true⟩ := by
  refine ⟨?_, ⟨rfl, trivial⟩, ?_⟩
  · simp only [Mem, Number.w, Bool.false_eq_true, if_false, fin_lt]; constructor
    · norm_num
    · exact fin_lt_top _
  · simp only [Mem, Number.w, if_true]; constructor
    · exact bot_le
    · norm_num

/-- C44, rounded: with MPFR rounding of any precision, closed real ends and members `x`, `y`, the
rounded sum lies in the interval sum. -/
theorem addI_rounded (F : Fmt) (a b c d x y : ℚ) (h1 : a ≤ x) (h2 : x ≤ b) (h3 : c ≤ y) (h4 : y ≤ d) :
    Mem (fin (F.r (x + y))) (addI F ⟨.real (.fin a), .real (.fin b), true, true⟩
      ⟨.real (.fin c), .real (.fin d), true, true⟩) := by
  have e : ∀ u v : ℚ, u ≤ v → isEmpty F ⟨.real (.fin u), .real (.fin v), true, true⟩ = false := by
    intro u v h
    have hk : Interval.Ok F ⟨.real (.fin u), .real (.fin v), true, true⟩ := ⟨trivial, trivial⟩
    exact (isEmpty_room hk).mpr (by
      rcases lt_or_eq_of_le h with h | h
      · exact .inl (by simpa [Number.w] using h)
      · exact .inr (by simp [Number.w, h]))
  simp only [addI, e a b (h1.trans h2), e c d (h3.trans h4), Bool.or_self, Bool.false_eq_true, if_false,
    Number.add, XR.add, toReal, Bool.and_self]
  exact ⟨by simpa [Number.w] using F.mono _ _ (by linarith), by simpa [Number.w] using F.mono _ _ (by linarith)⟩

/-- C44, where rounding breaks it: the exact sum of two numbers is outside the sum of their point
intervals whenever that sum is not representable. -/
theorem addI_rounding_violated (F : Fmt) (u v : ℚ) (h : F.r (u + v) ≠ u + v) :
    Mem (fin u) ⟨.real (.fin u), .real (.fin u), true, true⟩ ∧
    Mem (fin v) ⟨.real (.fin v), .real (.fin v), true, true⟩ ∧
    ¬ Mem (fin (u + v)) (addI F ⟨.real (.fin u), .real (.fin u), true, true⟩
      ⟨.real (.fin v), .real (.fin v), true, true⟩) := by
  have e : ∀ u : ℚ, isEmpty F ⟨.real (.fin u), .real (.fin u), true, true⟩ = false := by
    intro u
    have hk : Interval.Ok F ⟨.real (.fin u), .real (.fin u), true, true⟩ := ⟨trivial, trivial⟩
    exact (isEmpty_room hk).mpr (.inr ⟨rfl, rfl, rfl⟩)
  refine ⟨⟨le_refl _, le_refl _⟩, ⟨le_refl _, le_refl _⟩, ?_⟩
  simp only [addI, e, Bool.or_self, Bool.false_eq_true, if_false, Number.add, XR.add, toReal, Bool.and_self]
  rintro ⟨h1, h2⟩
  simp only [Number.w, if_true, fin_le] at h1 h2
  exact h (le_antisymm h1 h2)

example : coarse.r (1 + 2) ≠ 1 + 2 := by
  have : ((1 + 2 : ℚ) / 4).floor = 0 := by
    have h1 : (0 : Int) ≤ ((1 + 2 : ℚ) / 4).floor := by rw [Rat.le_floor_iff]; norm_num
    have h2 : ((1 + 2 : ℚ) / 4).floor < 1 := by rw [Rat.floor_lt_iff]; norm_num
    omega
  simp only [coarse, this]; norm_num

theorem mul_pinf_is {n : Number} {q : ℚ} (h : n.Is exact q) :
    (0 < q → mul exact (.real .ninf) n = .real .ninf ∧ mul exact (.real .pinf) n = .real .pinf ∧
      mul exact n (.real .pinf) = .real .pinf ∧ mul exact n (.real .ninf) = .real .ninf) ∧
    (q < 0 → mul exact (.real .ninf) n = .real .pinf ∧ mul exact (.real .pinf) n = .real .ninf) := by
  have r := is_toReal h
  rcases is_cases h with ⟨i, rfl, h1, -⟩ | rfl
  · have r' : (XR.fin (exact.r (i : ℚ))) = XR.fin q := r
    constructor
    · intro hq
      simp [mul, XR.mul, toReal, r', XR.infOf, not_lt_of_gt hq, hq.ne', neg_neg_of_pos hq]
    · intro hq
      simp [mul, XR.mul, toReal, r', XR.infOf, hq, hq.ne, not_lt_of_gt (neg_pos.mpr hq)]
  · constructor
    · intro hq
      simp [mul, XR.mul, toReal, XR.infOf, not_lt_of_gt hq, hq.ne', hq]
    · intro hq
      simp [mul, XR.mul, toReal, XR.infOf, hq, hq.ne, not_lt_of_gt (neg_pos.mpr hq)]

theorem lb_mul_pos {c : Bool} {n v : Number} {x z : ℚ} (h : LB c n x) (hv : v.Is exact z) (hz : 0 < z) :
    LB c (mul exact n v) (x * z) := by
  rcases lb_cases h with rfl | ⟨q, hq, h2⟩
  · rw [((mul_pinf_is hv).1 hz).1]; exact lb_ninf _ _
  · refine lb_of (mul_is hq hv) ?_
    cases c <;> simp at h2 ⊢ <;> nlinarith

theorem ub_mul_pos {c : Bool} {n v : Number} {x z : ℚ} (h : UB c n x) (hv : v.Is exact z) (hz : 0 < z) :
    UB c (mul exact n v) (x * z) := by
  rcases ub_cases h with rfl | ⟨q, hq, h2⟩
  · rw [((mul_pinf_is hv).1 hz).2.1]; exact ub_pinf _ _
  · refine ub_of (mul_is hq hv) ?_
    cases c <;> simp at h2 ⊢ <;> nlinarith

theorem lb_mul_neg {c : Bool} {n v : Number} {x z : ℚ} (h : LB c n x) (hv : v.Is exact z) (hz : z < 0) :
    UB c (mul exact n v) (x * z) := by
  rcases lb_cases h with rfl | ⟨q, hq, h2⟩
  · rw [((mul_pinf_is hv).2 hz).1]; exact ub_pinf _ _
  · refine ub_of (mul_is hq hv) ?_
    cases c <;> simp at h2 ⊢ <;> nlinarith

theorem ub_mul_neg {c : Bool} {n v : Number} {x z : ℚ} (h : UB c n x) (hv : v.Is exact z) (hz : z < 0) :
    LB c (mul exact n v) (x * z) := by
  rcases ub_cases h with rfl | ⟨q, hq, h2⟩
  · rw [((mul_pinf_is hv).2 hz).2]; exact lb_ninf _ _
  · refine lb_of (mul_is hq hv) ?_
    cases c <;> simp at h2 ⊢ <;> nlinarith

/-- C44: product with a number, for every interval, unless the number is zero and an end is open
(see `mulN_violated`). -/
theorem mulN_sound_partial (A : Interval) (hA : A.Ok exact) (x : ℚ) (hx : Mem (fin x) A) (v : Number) (z : ℚ)
    (hv : v.Is exact z) (h : z ≠ 0 ∨ (A.lc = true ∧ A.rc = true)) :
    Mem (fin (x * z)) (mulN exact A v) := by
  have eA := not_empty_of_mem hA hx
  obtain ⟨a1, a2⟩ := (mem_lb_ub hA).mp hx
  unfold mulN
  have g := gt_iff (F := exact) hv.2 zero_is.2
  have l := lt_iff (F := exact) hv.2 zero_is.2
  rw [hv.1, zero_is.1, fin_lt] at g l
  simp only [eA, Bool.false_eq_true, if_false, ite_bool_iff g, ite_bool_iff l]
  split
  · exact mem_of_lb_ub (lb_mul_pos a1 hv ‹_›) (ub_mul_pos a2 hv ‹_›)
  · split
    · exact mem_of_lb_ub (ub_mul_neg a2 hv ‹_›) (lb_mul_neg a1 hv ‹_›)
    · have hz : z = 0 := by linarith
      rcases h with h | h
      · exact absurd hz h
      · rw [h.1, h.2, Bool.and_self, if_pos rfl, hz, mul_zero]
        exact mem_of_lb_ub (lb_of zero_is (by simp)) (ub_of zero_is (by simp))

/-- C44, where it fails: an open interval times zero is empty, although 1/2 * 0 = 0. -/
theorem mulN_violated : Mem (fin (1/2)) ⟨.int 0, .int 1, false, false⟩ ∧
    mulN exact ⟨.int 0, .int 1, false, false⟩ (.int 0) = emptyI ∧ ¬ Mem (fin (1/2 * 0)) emptyI := by
  refine ⟨?_, rfl, emptyI_not_mem _⟩
  simp only [Mem, Number.w, Bool.false_eq_true, if_false, fin_lt]; norm_num

/-- C44: absolute value, unless the interval is `(-r, r]` (see `absI_violated`). -/
theorem absI_sound_partial (A : Interval) (hA : A.Ok exact) (x : ℚ) (hx : Mem (fin x) A)
    (h : ¬ (A.lo.abs.w = A.hi.abs.w ∧ A.lc = false ∧ A.rc = true)) :
    Mem (fin |x|) (Interval.abs exact A) := by
  have eA := not_empty_of_mem hA hx
  obtain ⟨a1, a2⟩ := (mem_lb_ub hA).mp hx
  unfold Interval.abs
  have g := ge_iff (F := exact) hA.1 zero_is.2
  have l := le_iff (F := exact) hA.2 zero_is.2
  simp only [eA, Bool.false_eq_true, if_false, ite_bool_iff g, ite_bool_iff l]
  rw [zero_is.1]
  split
  · rename_i h0
    have : 0 ≤ x := by
      rcases lb_cases a1 with e | ⟨q, hq, h2⟩
      · rw [e] at h0; simp [Number.w] at h0
      · rw [hq.1, fin_le] at h0; cases hc : A.lc <;> simp [hc] at h2 <;> linarith
    rw [abs_of_nonneg this]; exact hx
  · rename_i h0
    split
    · rename_i h1
      have : x ≤ 0 := by
        rcases ub_cases a2 with e | ⟨q, hq, h2⟩
        · rw [e] at h1; simp [Number.w] at h1
        · rw [hq.1, fin_le] at h1; cases hc : A.rc <;> simp [hc] at h2 <;> linarith
      rw [abs_of_nonpos this]
      exact mem_of_lb_ub (ub_neg a2) (lb_neg a1)
    · rename_i h1
      have hz : LB true (.int 0) |x| := lb_of zero_is (by simp)
      refine mem_of_lb_ub hz ?_
      have absOk : ∀ n : Number, n.Ok exact → n.abs.Ok exact := by
        rintro (i | (_ | _ | _ | _)) hn <;> first | rfl | trivial
      have o1 := absOk _ hA.1
      have o2 := absOk _ hA.2
      have mw := smax_w (F := exact) o1 o2
      have e := eq_iff (F := exact) mw.2 o1
      simp only [ite_bool_iff e]
      refine ⟨mw.2, ?_⟩
      rw [mw.1]
      -- bounds of |x| by each end
      have u1 : x < 0 → (if A.lc then fin |x| ≤ A.lo.abs.w else fin |x| < A.lo.abs.w) := by
        intro hx0
        rcases lb_cases a1 with e | ⟨q, hq, h2⟩
        · rw [e]; cases A.lc <;> simp [Number.abs, XR.abs, Number.w]
        · rw [(abs_is hq).1, abs_of_neg hx0]
          cases hc : A.lc <;> simp [hc] at h2 ⊢
          · rw [abs_of_neg (by linarith)]; linarith
          · rw [abs_of_neg (by linarith)]; linarith
      have u2 : 0 ≤ x → (if A.rc then fin |x| ≤ A.hi.abs.w else fin |x| < A.hi.abs.w) := by
        intro hx0
        rcases ub_cases a2 with e | ⟨q, hq, h2⟩
        · rw [e]; cases A.rc <;> simp [Number.abs, XR.abs, Number.w]
        · rw [(abs_is hq).1, abs_of_nonneg hx0]
          cases hc : A.rc <;> simp [hc] at h2 ⊢
          · rw [abs_of_nonneg (by linarith)]; linarith
          · rw [abs_of_nonneg (by linarith)]; linarith
      clear hz mw e a1 a2 g l h0 h1
      revert h u1 u2
      generalize A.lo.abs.w = p; generalize A.hi.abs.w = q; generalize fin |x| = m
      intro h u1 u2
      rcases lt_or_ge x 0 with hx0 | hx0
      · have := u1 hx0
        revert h this
        clear u1 u2
        cases A.lc <;> cases A.rc <;> simp <;> grind
      · have := u2 hx0
        revert h this
        clear u1 u2
        cases A.lc <;> cases A.rc <;> simp <;> grind

/-- C44, where it fails: `|(-2,2]|` is `[0,2)`, without `|2|`. -/
theorem absI_violated : Mem (fin 2) ⟨.int (-2), .int 2, false, true⟩ ∧
    ¬ Mem (fin |2|) (Interval.abs exact ⟨.int (-2), .int 2, false, true⟩) := by
  constructor
  · simp only [Mem, Number.w, Bool.false_eq_true, if_false, if_true, fin_lt, fin_le]; norm_num
  · have : Interval.abs exact ⟨.int (-2), .int 2, false, true⟩ = ⟨.int 0, .int 2, true, false⟩ := rfl
    rw [this]; simp [Mem, Number.w]

end SMT.Num
