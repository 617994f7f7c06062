import Verif.Num.FunViol

/-! # C59: powers of intervals -/

set_option linter.unusedVariables false
set_option linter.unusedSimpArgs false

noncomputable section
namespace SMT.Num
open Number Interval

/-! ## negative integer exponents, in exact arithmetic -/

theorem powNeg_is {m : Number} {q : ℚ} (h : m.Is exact q) (hq : q ≠ 0) (n : Nat) : (powNeg exact m n).Is exact ((q ^ n)⁻¹) := by
  unfold powNeg
  rw [is_toReal h]
  simp only [hq, if_false]
  exact is_real _ _

theorem inv_pow_anti {a b : ℚ} (n : Nat) (ha : 0 < a) (h : a ≤ b) : (b ^ n)⁻¹ ≤ (a ^ n)⁻¹ :=
  inv_anti₀ (pow_pos ha n) (pow_le_pow_left₀ ha.le h n)
theorem inv_pow_strict {a b : ℚ} {n : Nat} (hn : n ≠ 0) (ha : 0 < a) (h : a < b) : (b ^ n)⁻¹ < (a ^ n)⁻¹ :=
  inv_strictAnti₀ (pow_pos ha n) (pow_lt_pow_left₀ h ha.le hn)

theorem lb_powNeg {c : Bool} {m : Number} {x : ℚ} (h : UB c m x) (hx : 0 < x) {n : Nat} (hn : n ≠ 0) :
    LB c (powNeg exact m n) ((x ^ n)⁻¹) := by
  have hp : 0 < (x ^ n)⁻¹ := inv_pos.2 (pow_pos hx n)
  rcases ub_cases h with rfl | ⟨q, hq, h2⟩
  · refine lb_of (is_real exact 0) ?_
    cases c <;> simp only [Bool.false_eq_true, if_false, if_true]
    · exact hp
    · exact hp.le
  · have hxq : x ≤ q := by cases c <;> simp at h2 <;> linarith
    refine lb_of (powNeg_is hq (by linarith) n) ?_
    cases c <;> simp only [Bool.false_eq_true, if_false, if_true] at h2 ⊢
    · exact inv_pow_strict hn hx h2
    · exact inv_pow_anti n hx h2

theorem ub_powNeg {c : Bool} {m : Number} {q x : ℚ} (hq : m.Is exact q) (h2 : if c then q ≤ x else q < x) (h0 : 0 < q) {n : Nat}
    (hn : n ≠ 0) : UB c (powNeg exact m n) ((x ^ n)⁻¹) := by
  refine ub_of (powNeg_is hq h0.ne' n) ?_
  cases c <;> simp only [Bool.false_eq_true, if_false, if_true] at h2 ⊢
  · exact inv_pow_strict hn h0 h2
  · exact inv_pow_anti n h0 h2

/-- the members of an interval whose ends have one sign -/
theorem one_side {A : Interval} (hA : A.Ok exact) {x : ℚ} (hx : Mem (fin x) A) (h0 : ¬ (A.lo.w ≤ fin 0 ∧ fin 0 ≤ A.hi.w)) :
    (0 < x ∧ ∃ q, A.lo.Is exact q ∧ 0 < q) ∨ (x < 0 ∧ ∃ q, A.hi.Is exact q ∧ q < 0) := by
  obtain ⟨l, u⟩ := (mem_lb_ub hA).1 hx
  have weak : ∀ {c : Bool} {a b : ℚ}, (if c then a ≤ b else a < b) → a ≤ b := by
    intro c a b h
    cases c
    · exact (by simpa using h : a < b).le
    · simpa using h
  rcases lb_cases l with e | ⟨p, hp, hp2⟩
  · rcases ub_cases u with e' | ⟨q, hq, hq2⟩
    · rw [e, e'] at h0; exact absurd ⟨by simp [Number.w], by simp [Number.w]⟩ h0
    · have := weak hq2
      have hq0 : q < 0 := by
        by_contra hc
        exact h0 ⟨by rw [e]; simp [Number.w], by rw [hq.1]; simpa using hc⟩
      exact .inr ⟨by linarith, q, hq, hq0⟩
  · have h1 := weak hp2
    by_cases hp0 : 0 < p
    · exact .inl ⟨by linarith, p, hp, hp0⟩
    · rcases ub_cases u with e' | ⟨q, hq, hq2⟩
      · exact absurd ⟨by rw [hp.1]; simpa using hp0, by rw [e']; simp [Number.w]⟩ h0
      · have := weak hq2
        have hq0 : q < 0 := by
          by_contra hc
          exact h0 ⟨by rw [hp.1]; simpa using hp0, by rw [hq.1]; simpa using hc⟩
        exact .inr ⟨by linarith, q, hq, hq0⟩

/-- C59: a negative integer power of an interval holds that power of each of its members, in exact
arithmetic; the call throws exactly when zero lies between the ends (even if it is an open end). -/
theorem powNegI_sound (A : Interval) (hA : A.Ok exact) (x : ℚ) (hx : Mem (fin x) A) (n : Nat) (hn : n ≠ 0) :
    (powNegI exact A n = .throw ∧ A.lo.w ≤ fin 0 ∧ fin 0 ≤ A.hi.w) ∨
    (¬ (A.lo.w ≤ fin 0 ∧ fin 0 ≤ A.hi.w) ∧ ∃ C, powNegI exact A n = .ok C ∧ Mem (fin ((x ^ n)⁻¹)) C) := by
  have eA := not_empty_of_mem hA hx
  have hz : (Number.le exact A.lo (.int 0) && Number.ge exact A.hi (.int 0)) = true ↔ A.lo.w ≤ fin 0 ∧ fin 0 ≤ A.hi.w := by
    simp only [Bool.and_eq_true, le_iff hA.1 zero_is.2, ge_iff hA.2 zero_is.2, zero_is.1]
  have hg : Number.gt exact A.lo (.int 0) = true ↔ fin 0 < A.lo.w := by
    rw [gt_iff hA.1 zero_is.2, zero_is.1]
  unfold powNegI
  simp only [eA, Bool.false_eq_true, if_false, ite_bool_iff hz, ite_bool_iff hg]
  by_cases h0 : A.lo.w ≤ fin 0 ∧ fin 0 ≤ A.hi.w
  · rw [if_pos h0]; exact .inl ⟨rfl, h0⟩
  rw [if_neg h0]
  refine .inr ⟨h0, ?_⟩
  obtain ⟨l, u⟩ := (mem_lb_ub hA).1 hx
  rcases one_side hA hx h0 with ⟨x0, q, hq, q0⟩ | ⟨x0, q, hq, q0⟩
  · have hl : fin 0 < A.lo.w := by rw [hq.1]; simpa using q0
    have h2 : if A.lc then q ≤ x else q < x := by
      have := l.2
      rw [hq.1] at this
      cases h : A.lc <;> simpa [h] using this
    have r1 := lb_powNeg u x0 hn
    have r2 := ub_powNeg hq h2 q0 hn
    rw [if_pos hl, ite_self]
    exact ⟨_, rfl, mem_of_lb_ub r1 r2⟩
  · have hl : ¬ fin 0 < A.lo.w := by
      intro h
      have hxl : A.lo.w ≤ fin x := by
        have := l.2
        revert this
        cases A.lc
        · simp only [Bool.false_eq_true, if_false]; exact fun h => h.le
        · simp
      have := lt_of_lt_of_le h hxl
      rw [fin_lt] at this
      linarith
    rw [if_neg hl]
    have hu : if A.rc then x ≤ q else x < q := by
      have := u.2
      rw [hq.1] at this
      cases h : A.rc <;> simpa [h] using this
    -- mirror image
    have x1 : 0 < -x := by linarith
    have q1 : 0 < -q := by linarith
    have u' : UB A.lc A.lo.neg (-x) := lb_neg l
    have hq' : A.hi.neg.Is exact (-q) := neg_is hq
    have hu' : if A.rc then -q ≤ -x else -q < -x := by
      cases h : A.rc <;> rw [h] at hu <;> simpa using hu
    have r1 := lb_powNeg u' x1 hn
    have r2 := ub_powNeg hq' hu' q1 hn
    have sgn : ∀ {m : Number}, (m.w < fin 0) → m.Ok exact → ∀ k : Nat, Even k → powNeg exact m.abs k = powNeg exact m.neg k := by
      intro m hm hok k hk
      rcases m with i | (_ | _ | p | _)
      · have : i < 0 := by simpa [Number.w, fin_lt] using hm
        have e : ((i.natAbs : ℕ) : ℤ) = -i := by omega
        simp only [Number.abs, Number.neg, e]
      · exact absurd hok (by simp [Number.Ok])
      · rfl
      · have : p < 0 := by simpa [Number.w, fin_lt] using hm
        simp only [Number.abs, XR.abs, Number.neg, XR.neg]
        split <;> first | rfl | skip
        all_goals simp_all [abs_of_neg]
      · exact absurd hm (by simp [Number.w])
    have hlo : A.lo.w < fin 0 := by
      have : A.lo.w ≤ fin x := by
        have := l.2
        revert this
        cases A.lc
        · simp only [Bool.false_eq_true, if_false]; exact fun h => h.le
        · simp
      exact lt_of_le_of_lt this (fin_lt.2 x0)
    have hhi : A.hi.w < fin 0 := by rw [hq.1]; exact fin_lt.2 q0
    by_cases hpar : n % 2 = 0
    · rw [if_pos hpar]
      have hev : Even n := Nat.even_iff.2 hpar
      rw [sgn hlo hA.1 n hev, sgn hhi hA.2 n hev]
      rw [hev.neg_pow] at r1 r2
      exact ⟨_, rfl, mem_of_lb_ub r1 r2⟩
    · rw [if_neg hpar]
      have hodd : Odd n := Nat.odd_iff.2 (by omega)
      rw [hodd.neg_pow, inv_neg] at r1 r2
      refine ⟨_, rfl, mem_of_lb_ub ?_ ?_⟩
      · -- lower end: the power of the upper end
        have := lb_of (c := A.rc) (powNeg_is hq q0.ne n) (x := (x ^ n)⁻¹) ?_
        · exact this
        have h3 := r2.2
        rw [(powNeg_is hq' (by linarith) n).1, hodd.neg_pow, inv_neg] at h3
        cases h : A.rc <;> rw [h] at h3 <;> simpa using h3
      · rcases lb_cases l with e | ⟨p, hp, hp2⟩
        · rw [e]
          have hneg : (x ^ n)⁻¹ < 0 := inv_lt_zero.2 (hodd.pow_neg x0)
          refine ub_of (is_real exact 0) ?_
          cases A.lc <;> simp only [Bool.false_eq_true, if_false, if_true]
          · exact hneg
          · exact hneg.le
        · have hp0 : p < 0 := by rw [hp.1, fin_lt] at hlo; exact hlo
          refine ub_of (powNeg_is hp hp0.ne n) ?_
          have h3 := r1.2
          rw [(powNeg_is (neg_is hp) (by linarith) n).1, hodd.neg_pow, inv_neg] at h3
          cases h : A.lc <;> rw [h] at h3 <;> simpa using h3

/-- the hypotheses are met: `(-∞, -2)` to the power of -3 at -4, `[2, 3)` to the power of -2 at 2 -/
example : ∃ C, powNegI exact ⟨.real .ninf, .int (-2), false, false⟩ 3 = .ok C ∧ Mem (fin (((-4 : ℚ) ^ 3)⁻¹)) C := by
  rcases powNegI_sound ⟨.real .ninf, .int (-2), false, false⟩ ⟨trivial, rfl⟩ (-4)
    (by simp only [Mem, Number.w]; norm_num) 3 (by decide) with h | h
  · exact absurd h.2.2 (by simp only [Number.w]; norm_num)
  · exact h.2
example : ∃ C, powNegI exact ⟨.int 2, .int 3, true, false⟩ 2 = .ok C ∧ Mem (fin (((2 : ℚ) ^ 2)⁻¹)) C := by
  rcases powNegI_sound ⟨.int 2, .int 3, true, false⟩ ⟨rfl, rfl⟩ 2
    (by simp only [Mem, Number.w]; norm_num) 2 (by decide) with h | h
  · exact absurd h.2.1 (by simp only [Number.w]; norm_num)
  · exact h.2

variable {F : Fmt} (L : Lib F)

/-! ## fractional exponents -/

theorem powFrac_pos {m : Number} {q : ℚ} (h : m.Is F q) (hq : 0 < q) (e : ℚ) :
    powFrac L m e = .real (.fin (L.rr ((q : ℝ) ^ (e : ℝ)))) := by
  unfold powFrac
  rw [is_toReal h]
  simp only [not_lt.2 hq.le, hq.ne', if_false]
  rfl

/-- C59: a positive fractional power of an interval with positive ends, both finite, holds that power of
each of its members; so does the power of an interval around zero, for its nonnegative members. -/
theorem powFracI_encloses_partial (A : Interval) (hA : A.Ok F) (e : ℚ) (he : 0 < e) (x : ℝ) (hx : A.RMem x) (x0 : 0 ≤ x)
    (hfin : ∀ a, A.lo.Is F a → 0 < a → A.hi ≠ .real .pinf) (hpos : ∀ b, A.hi.Is F b → 0 < b) :
    ∃ C, powFracI L A e = .ok C ∧ C.RMem (x ^ (e : ℝ)) := by
  have he' : (0 : ℝ) < (e : ℝ) := by exact_mod_cast he
  have eA := not_empty_of_rmem hA hx
  have hi : ∀ b : ℚ, A.hi.Is F b → x ≤ (b : ℝ) → ∀ c, ((powFrac L A.hi e).nextAbove L).HiB c (x ^ (e : ℝ)) := by
    intro b hb hxb c
    rw [powFrac_pos L hb (hpos b hb) e]
    have := above_rr L (Real.rpow_le_rpow x0 hxb he'.le)
    cases c <;> simp [Number.nextAbove, XR.nextAbove, HiB, this, this.le]
  unfold powFracI
  simp only [eA, Bool.false_eq_true, if_false]
  rcases below_cases hA.1 hx.1 with hl | ⟨a, ha, _, ha3⟩
  · have g : Number.gt F A.lo (.int 0) = false := by rw [hl]; rfl
    have l : Number.le F A.lo (.int 0) = true := by rw [hl]; simp [Number.le, XR.le, XR.lt, toReal]
    simp only [g, l, Bool.false_eq_true, if_false, Bool.true_and, decide_eq_true he.le, if_true]
    rcases above_cases hA.2 hx.2 with hh | ⟨b, hb, _, hb3⟩
    · have l2 : Number.le F A.hi (.int 0) = false := by rw [hh]; simp [Number.le, XR.le, XR.lt, XR.eq, toReal]
      simp only [l2, Bool.false_eq_true, if_false]
      refine ⟨_, rfl, ?_, ?_⟩
      · simp only [LoB, if_true]; push_cast; exact Real.rpow_nonneg x0 _
      · rw [hh]; simp [powFrac, toReal, he, Number.nextAbove, XR.nextAbove, HiB]
    · have l2 : Number.le F A.hi (.int 0) = false := by
        rw [← Bool.not_eq_true, le_small L hb (by decide)]
        have := hpos b hb
        push_cast; linarith
      simp only [l2, Bool.false_eq_true, if_false]
      refine ⟨_, rfl, ?_, hi b hb hb3 _⟩
      simp only [LoB, if_true]; push_cast; exact Real.rpow_nonneg x0 _
  · have g := gt_small L ha (i := 0) (by decide)
    have l := le_small L ha (i := 0) (by decide)
    push_cast at g l
    by_cases h0 : 0 < a
    · rw [if_pos (g.2 h0)]
      rcases above_cases hA.2 hx.2 with hh | ⟨b, hb, _, hb3⟩
      · exact absurd hh (hfin a ha h0)
      · simp only [isInf_is ha, isInf_is hb, Bool.or_self, Bool.false_eq_true, if_false]
        refine ⟨_, rfl, ?_, hi b hb hb3 _⟩
        show ((powFrac L A.lo e).nextBelow L).LoB A.lc _
        rw [powFrac_pos L ha h0 e]
        have a0 : (0 : ℝ) ≤ (a : ℝ) := by exact_mod_cast h0.le
        have := below_rr L (Real.rpow_le_rpow a0 ha3 he'.le)
        cases A.lc <;> simp [Number.nextBelow, XR.nextBelow, LoB, this, this.le]
    · have g' : Number.gt F A.lo (.int 0) = false := by rw [← Bool.not_eq_true, g]; exact h0
      have l' : Number.le F A.lo (.int 0) = true := l.2 (not_lt.1 h0)
      simp only [g', l', Bool.false_eq_true, if_false, Bool.true_and, decide_eq_true he.le, if_true]
      rcases above_cases hA.2 hx.2 with hh | ⟨b, hb, _, hb3⟩
      · have l2 : Number.le F A.hi (.int 0) = false := by rw [hh]; simp [Number.le, XR.le, XR.lt, XR.eq, toReal]
        simp only [l2, Bool.false_eq_true, if_false]
        refine ⟨_, rfl, ?_, ?_⟩
        · simp only [LoB, if_true]; push_cast; exact Real.rpow_nonneg x0 _
        · rw [hh]; simp [powFrac, toReal, he, Number.nextAbove, XR.nextAbove, HiB]
      · have l2 : Number.le F A.hi (.int 0) = false := by
          rw [← Bool.not_eq_true, le_small L hb (by decide)]
          have := hpos b hb
          push_cast; linarith
        simp only [l2, Bool.false_eq_true, if_false]
        refine ⟨_, rfl, ?_, hi b hb hb3 _⟩
        simp only [LoB, if_true]; push_cast; exact Real.rpow_nonneg x0 _

/-- the hypotheses are met: `[1, 4)` to the power of 1/2 at 2 -/
example : ∃ C, powFracI gridLib ⟨.int 1, .int 4, true, false⟩ (1 / 2) = .ok C ∧ C.RMem ((2 : ℝ) ^ (((1 / 2 : ℚ)) : ℝ)) :=
  powFracI_encloses_partial gridLib ⟨.int 1, .int 4, true, false⟩ ⟨gridLib.small 1 (by decide), gridLib.small 4 (by decide)⟩ _ (by norm_num) 2
    (by simp [RMem, LoB, HiB]; norm_num) (by norm_num) (fun _ _ _ => by simp)
    (fun b hb => by have := hb.1; simp [Number.w] at this; rw [← this]; norm_num)

/-- C59 violated: `[1, ∞)` to the power of 1/2 has no members, `[0, 0]` to the power of 1/2 throws (and √0 = 0), and
`[1, 4]` to the power of -1/2 misses the power 1/2 of its upper end. -/
theorem powFracI_violated :
    (∃ C, powFracI L ⟨.int 1, .real .pinf, true, false⟩ (1 / 2) = .ok C ∧ ∀ y, ¬ C.RMem y) ∧
    powFracI L (pt 0) (1 / 2) = .throw ∧ (pt 0).RMem 0 ∧
    (∃ C, powFracI L ⟨.int 1, .int 4, true, true⟩ (-(1 / 2)) = .ok C ∧
      (⟨.int 1, .int 4, true, true⟩ : Interval).RMem 4 ∧ ¬ C.RMem ((4 : ℝ) ^ ((-(1 / 2) : ℚ) : ℝ))) := by
  refine ⟨⟨⟨.real .pinf, .real .pinf, false, false⟩, ?_, fun y => open_point _ y⟩, ?_, ?_, ?_⟩
  · have e1 : isEmpty F ⟨.int 1, .real .pinf, true, false⟩ = false := by
      simp [isEmpty, gt, le, XR.le, XR.lt, XR.eq, Number.eq, toReal]
    have e2 : Number.gt F (.int 1) (.int 0) = true := by simp [gt, le]
    have e3 : (Number.real .pinf).isInf = true := rfl
    simp only [powFracI, e1, e2, e3, Bool.or_true, Bool.false_eq_true, if_false, if_true]
    norm_num
  · have e1 := pt_not_empty (F := F) 0
    have e2 : Number.gt F (.int 0) (.int 0) = false := by simp [gt, le]
    have e3 : Number.le F (.int 0) (.int 0) = true := by simp [le]
    have e4 : decide ((0 : ℚ) ≤ 1 / 2) = true := by norm_num
    unfold powFracI
    simp only [e1]
    simp only [pt, e2, e3, e4, Bool.false_eq_true, if_false, if_true, Bool.and_self]
  · have := pt_mem 0; simpa using this
  · have e1 : isEmpty F ⟨.int 1, .int 4, true, true⟩ = false := by
      simp [isEmpty, gt, le, Number.eq]
    have e2 : Number.gt F (.int 1) (.int 0) = true := by simp [gt, le]
    have i1 : (Number.int 1).Is F 1 := ⟨by simp [Number.w], L.small 1 (by decide)⟩
    have i4 : (Number.int 4).Is F 4 := ⟨by simp [Number.w], L.small 4 (by decide)⟩
    refine ⟨_, by
      simp only [powFracI, e1, e2, isInf_is i1, isInf_is i4, Bool.or_self, Bool.false_eq_true, if_false, if_true]
      rfl, by simp [RMem, LoB, HiB], ?_⟩
    rintro ⟨h, _⟩
    rw [powFrac_pos L i1 (by norm_num)] at h
    have hr : L.rr ((1 : ℚ) : ℝ) = 1 := by rw [L.rr_rat]; exact r1 L
    have e5 : (((1 : ℚ) : ℝ)) ^ ((-(1 / 2) : ℚ) : ℝ) = ((1 : ℚ) : ℝ) := by simp
    rw [e5, hr] at h
    have hb : (3 / 4 : ℚ) ≤ L.below 1 := by
      have q3 := L.quarter 3 (by decide)
      push_cast at q3
      exact L.below_next 1 _ (r1 L) q3 (by norm_num)
    have e6 : (4 : ℝ) ^ ((-(1 / 2) : ℚ) : ℝ) = 1 / 2 := by
      have : (4 : ℝ) = 2 ^ (2 : ℝ) := by norm_num
      rw [this, ← Real.rpow_mul (by norm_num)]
      push_cast
      norm_num
    rw [e6] at h
    simp only [Number.nextBelow, XR.nextBelow, LoB, if_true] at h
    have : ((3 / 4 : ℚ) : ℝ) ≤ ((L.below 1 : ℚ) : ℝ) := by exact_mod_cast hb
    push_cast at this
    linarith

/-! ## powers of two -/

/-- `pow2End` of a number: exact with the flag, or rounded -/
theorem pow2End_is {m : Number} {q : ℚ} (h : m.Is F q) (hneg : ∀ i : ℤ, i < 0 → (i : ℚ) = q → F.r ((2 : ℚ) ^ i) = (2 : ℚ) ^ i) :
    (∃ v p : _, pow2End L m = (v, true) ∧ v.w = fin p ∧ ((p : ℚ) : ℝ) = (2 : ℝ) ^ (q : ℝ) ∧ (v = .real (.fin p) ∨ ∃ j : ℤ, v = .int j)) ∨
    pow2End L m = (.real (.fin (L.rr ((2 : ℝ) ^ (q : ℝ)))), false) := by
  have key : ∀ i : ℤ, (i : ℚ) = q → 0 ≤ i →
      ((((2 ^ i.toNat : ℤ) : ℚ)) : ℝ) = (2 : ℝ) ^ (q : ℝ) := by
    intro i hi h0
    rw [← hi]
    have : ((i : ℚ) : ℝ) = ((i.toNat : ℕ) : ℝ) := by
      have e : ((i.toNat : ℕ) : ℤ) = i := Int.toNat_of_nonneg h0
      exact_mod_cast (congrArg (fun z : ℤ => (z : ℝ)) e).symm
    rw [this, Real.rpow_natCast]
    push_cast; rfl
  have keyn : ∀ i : ℤ, (i : ℚ) = q → i < 0 → XR.rpow L (F.r 2) q = .fin ((2 : ℚ) ^ i) := by
    intro i hi h0
    have h2 : (((2 : ℚ) ^ i : ℚ) : ℝ) = (2 : ℝ) ^ (q : ℝ) := by
      rw [← hi]; push_cast
      rw [Real.rpow_intCast]
    unfold XR.rpow
    rw [r2 L]
    have : (((2 : ℚ)) : ℝ) = (2 : ℝ) := by norm_num
    rw [this, ← h2, L.rr_rat, hneg i h0 hi]
  have keyr : ∀ i : ℤ, (i : ℚ) = q → (((2 : ℚ) ^ i : ℚ) : ℝ) = (2 : ℝ) ^ (q : ℝ) := by
    intro i hi
    rw [← hi]; push_cast
    rw [Real.rpow_intCast]
  rcases is_cases h with ⟨i, rfl, ei, er⟩ | rfl
  · left
    unfold pow2End
    by_cases h0 : 0 ≤ i
    · simp only [h0, if_true]
      exact ⟨_, _, rfl, rfl, key i ei h0, .inr ⟨_, rfl⟩⟩
    · simp only [h0, if_false]
      rw [er, ei, keyn i ei (not_le.1 h0)]
      exact ⟨_, _, rfl, rfl, keyr i ei, .inl rfl⟩
  · unfold pow2End
    by_cases hd : q.den = 1
    · left
      have en : (q.num : ℚ) = q := (Rat.den_eq_one_iff q).1 hd
      simp only [hd, if_true]
      by_cases h0 : 0 ≤ q
      · simp only [h0, if_true]
        exact ⟨_, _, rfl, rfl, key q.num en (Rat.num_nonneg.2 h0), .inr ⟨_, rfl⟩⟩
      · simp only [h0, if_false]
        rw [keyn q.num en (Rat.num_neg.2 (not_le.1 h0))]
        exact ⟨_, _, rfl, rfl, keyr q.num en, .inl rfl⟩
    · right
      simp only [hd, if_false, XR.rpow, r2 L]
      norm_num

/-- C59: two to the power of an interval holds two to the power of each of its members.  (The powers of two with
the negative integers among the ends must be representable, as they are for MPFR.) -/
theorem pow2_encloses_partial (A : Interval) (hA : A.Ok F)
    (hneg : ∀ i : ℤ, i < 0 → (A.lo.Is F i ∨ A.hi.Is F i) → F.r ((2 : ℚ) ^ i) = (2 : ℚ) ^ i) (x : ℝ) (hx : A.RMem x) :
    (pow2 L A).RMem ((2 : ℝ) ^ x) := by
  have eA := not_empty_of_rmem hA hx
  have hpos : (0 : ℝ) < (2 : ℝ) ^ x := Real.rpow_pos_of_pos (by norm_num) x
  unfold pow2
  simp only [eA, Bool.false_eq_true, if_false]
  constructor
  · rcases below_cases hA.1 hx.1 with hl | ⟨a, ha, ha2, ha3⟩
    · rw [hl]
      show (Number.int 0).LoB false _
      simpa [LoB] using hpos
    · simp only [isPInf_is ha, isNInf_is ha, Bool.false_eq_true, if_false]
      rcases pow2End_is L ha (fun i h0 e => hneg i h0 (.inl (e ▸ ha))) with ⟨v, p, e, hv, hp, hs⟩ | e
      · rw [e]
        have hle : ∀ c : Bool, (if c then (a : ℝ) ≤ x else (a : ℝ) < x) → v.LoB c ((2 : ℝ) ^ x) := by
          intro c hc
          have : if c then (p : ℝ) ≤ (2 : ℝ) ^ x else (p : ℝ) < (2 : ℝ) ^ x := by
            rw [hp]
            cases c <;> simp only [Bool.false_eq_true, if_false, if_true] at hc ⊢
            · exact Real.rpow_lt_rpow_of_exponent_lt (by norm_num) hc
            · exact Real.rpow_le_rpow_of_exponent_le (by norm_num) hc
          rcases hs with rfl | ⟨j, rfl⟩
          · exact this
          · have hj : (j : ℚ) = p := by simpa [Number.w] using hv
            rw [← hj] at this
            simpa [LoB] using this
        exact hle _ ha2
      · rw [e]
        show (Number.nextBelow L (.real (.fin (L.rr ((2 : ℝ) ^ (a : ℝ)))))).LoB false ((2 : ℝ) ^ x)
        have := below_rr L (Real.rpow_le_rpow_of_exponent_le (x := 2) (by norm_num) ha3)
        simpa [Number.nextBelow, XR.nextBelow, LoB] using this
  · rcases above_cases hA.2 hx.2 with hl | ⟨a, ha, ha2, ha3⟩
    · rw [hl]
      show (Number.real .pinf).HiB false _
      simp [HiB]
    · simp only [isPInf_is ha, isNInf_is ha, Bool.false_eq_true, if_false]
      rcases pow2End_is L ha (fun i h0 e => hneg i h0 (.inr (e ▸ ha))) with ⟨v, p, e, hv, hp, hs⟩ | e
      · rw [e]
        have hle : ∀ c : Bool, (if c then x ≤ (a : ℝ) else x < (a : ℝ)) → v.HiB c ((2 : ℝ) ^ x) := by
          intro c hc
          have : if c then (2 : ℝ) ^ x ≤ (p : ℝ) else (2 : ℝ) ^ x < (p : ℝ) := by
            rw [hp]
            cases c <;> simp only [Bool.false_eq_true, if_false, if_true] at hc ⊢
            · exact Real.rpow_lt_rpow_of_exponent_lt (by norm_num) hc
            · exact Real.rpow_le_rpow_of_exponent_le (by norm_num) hc
          rcases hs with rfl | ⟨j, rfl⟩
          · exact this
          · have hj : (j : ℚ) = p := by simpa [Number.w] using hv
            rw [← hj] at this
            simpa [HiB] using this
        exact hle _ ha2
      · rw [e]
        show (Number.nextAbove L (.real (.fin (L.rr ((2 : ℝ) ^ (a : ℝ)))))).HiB false ((2 : ℝ) ^ x)
        have := above_rr L (Real.rpow_le_rpow_of_exponent_le (x := 2) (by norm_num) ha3)
        simpa [Number.nextAbove, XR.nextAbove, HiB] using this

/-- the hypotheses are met: two to the power of `[1/2, 3)` at 2 -/
example : (pow2 gridLib ⟨.real (.fin (1 / 2)), .int 3, true, false⟩).RMem ((2 : ℝ) ^ (2 : ℝ)) := by
  refine pow2_encloses_partial gridLib ⟨.real (.fin (1 / 2)), .int 3, true, false⟩ ⟨trivial, gridLib.small 3 (by decide)⟩ ?_ 2 (by simp [RMem, LoB, HiB]; norm_num)
  rintro i hi (h | h)
  · have := h.1
    simp only [Number.w, fin_inj] at this
    have h2 : (i : ℚ) < 0 := by exact_mod_cast hi
    rw [← this] at h2; norm_num at h2
  · have := h.1
    simp only [Number.w, fin_inj] at this
    have h2 : (i : ℚ) < 0 := by exact_mod_cast hi
    rw [← this] at h2; norm_num at h2

end SMT.Num
