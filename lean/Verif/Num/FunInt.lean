import Verif.Num.FunSpec
import Mathlib.Data.Rat.Floor
import Mathlib.Algebra.Order.Floor.Ring

/-! # C59: integer division and remainder of intervals -/

set_option linter.unusedVariables false
set_option linter.unusedSimpArgs false

namespace SMT.Num
open Number Interval

/-- a number after `floor` -/
theorem floor_is_int {n : Number} {q : ℚ} (h : n.Is exact q) : n.floor.Is exact ((⌊q⌋ : ℤ) : ℚ) := by
  rcases is_cases h with ⟨i, rfl, ei, _⟩ | rfl
  · refine ⟨?_, rfl⟩
    rw [← ei]; simp [Number.floor, Number.w]
  · refine ⟨?_, trivial⟩
    simp only [Number.floor, XR.floor, Number.w]
    rfl

theorem floor_mono_rat {a b : ℚ} (h : a ≤ b) : ((⌊a⌋ : ℤ) : ℚ) ≤ ((⌊b⌋ : ℤ) : ℚ) := by exact_mod_cast Int.floor_mono h

/-- C59: `divInt` of a bounded closed interval by a nonzero number holds the quotient of each of its
members, rounded down, in exact arithmetic. -/
theorem divIntN_sound_partial (A : Interval) (a b : ℚ) (ha : A.lo.Is exact a) (hb : A.hi.Is exact b)
    (hcl : A.lc = true ∧ A.rc = true) (x : ℚ) (hx : Mem (fin x) A) (v : Number) (z : ℚ) (hv : v.Is exact z) (hz : z ≠ 0) :
    ∃ C, divIntN (F := exact) A v = .ok C ∧ Mem (fin ((⌊x / z⌋ : ℤ) : ℚ)) C := by
  have hA : A.Ok exact := ⟨ha.2, hb.2⟩
  have eA := not_empty_of_mem hA hx
  obtain ⟨l, hl, il⟩ := div_is ha hv hz
  obtain ⟨h, hh, ih⟩ := div_is hb hv hz
  have g := gt_iff (F := exact) hv.2 zero_is.2
  rw [hv.1, zero_is.1, fin_lt] at g
  have e : eq exact v (.int 0) = false := by
    rw [← Bool.not_eq_true, eq_iff hv.2 zero_is.2, hv.1, zero_is.1, fin_inj]; exact hz
  unfold divIntN
  simp only [eA, e, Bool.false_eq_true, if_false, ite_bool_iff g, hl, hh, Res.ok_bind]
  simp only [Mem, ha.1, hb.1, hcl, if_true, fin_le] at hx
  by_cases hp : 0 < z
  · rw [if_pos hp]
    refine ⟨_, rfl, ?_⟩
    simp only [Mem, (floor_is_int il).1, (floor_is_int ih).1, hcl, if_true, fin_le]
    exact ⟨floor_mono_rat ((div_le_div_iff_of_pos_right hp).2 hx.1), floor_mono_rat ((div_le_div_iff_of_pos_right hp).2 hx.2)⟩
  · rw [if_neg hp]
    have hn : z < 0 := lt_of_le_of_ne (not_lt.1 hp) hz
    refine ⟨_, rfl, ?_⟩
    simp only [Mem, (floor_is_int il).1, (floor_is_int ih).1, hcl, if_true, fin_le]
    exact ⟨floor_mono_rat ((div_le_div_right_of_neg hn).2 hx.2), floor_mono_rat ((div_le_div_right_of_neg hn).2 hx.1)⟩

/-- C59: for integers and a positive integer divisor this is the division of SMT-LIB (`Int./`, Euclidean). -/
theorem divIntN_integers_partial (A : Interval) (a b : ℚ) (ha : A.lo.Is exact a) (hb : A.hi.Is exact b)
    (hcl : A.lc = true ∧ A.rc = true) (i j : ℤ) (hx : Mem (fin i) A) (hj : 0 < j) :
    ∃ C, divIntN (F := exact) A (.int j) = .ok C ∧ Mem (fin ((i / j : ℤ) : ℚ)) C := by
  have hj' : (j : ℚ) ≠ 0 := by exact_mod_cast hj.ne'
  obtain ⟨C, h1, h2⟩ := divIntN_sound_partial A a b ha hb hcl i hx (.int j) j (int_is j) hj'
  have : ⌊(i : ℚ) / (j : ℚ)⌋ = i / j := by
    have := Rat.floor_intCast_div_natCast i j.toNat
    have e : ((j.toNat : ℕ) : ℚ) = (j : ℚ) := by
      have : ((j.toNat : ℕ) : ℤ) = j := Int.toNat_of_nonneg hj.le
      exact_mod_cast this
    rw [e] at this
    rw [this, Int.toNat_of_nonneg hj.le]
  rw [this] at h2
  exact ⟨C, h1, h2⟩

/-- C59 violated: the ends stay open after rounding: `(0, 3) div 2` is the open interval `(0, 1)` and holds
neither `1 div 2 = 0` nor `2 div 2 = 1`. -/
theorem divIntN_open_violated :
    (Mem (fin 1) ⟨.int 0, .int 3, false, false⟩ ∧ Mem (fin 2) ⟨.int 0, .int 3, false, false⟩) ∧
    ∃ C, divIntN (F := exact) ⟨.int 0, .int 3, false, false⟩ (.int 2) = .ok C ∧ ¬ Mem (fin ((1 / 2 : ℤ) : ℚ)) C ∧
      ¬ Mem (fin ((2 / 2 : ℤ) : ℚ)) C := by
  refine ⟨⟨by simp only [Mem, Number.w]; norm_num, by simp only [Mem, Number.w]; norm_num⟩, ?_⟩
  have h1 : Number.div exact (.int 0) (.int 2) = .ok (.int 0) := rfl
  have h2 : Number.div exact (.int 3) (.int 2) = .ok (.real (.fin (3 / 2))) := by
    simp [Number.div, XR.div, toReal, exact]
  have f : (3 / 2 : ℚ).floor = 1 := by decide +kernel
  refine ⟨⟨.int 0, .real (.fin 1), false, false⟩, ?_, ?_, ?_⟩
  · unfold divIntN
    have e1 : isEmpty exact ⟨.int 0, .int 3, false, false⟩ = false := rfl
    have e2 : Number.eq exact (.int 2) (.int 0) = false := rfl
    have e3 : Number.gt exact (.int 2) (.int 0) = true := rfl
    simp only [e1, e2, e3, Bool.false_eq_true, if_false, if_true, h1, h2, Res.ok_bind, Number.floor, XR.floor, f]
    norm_num
  · simp only [Mem, Number.w]; norm_num
  · simp only [Mem, Number.w]; norm_num

/-- C59 violated: for a negative divisor `divInt` rounds down, the division of SMT-LIB leaves a nonnegative
remainder: `[7, 7] div -2` is `[-4, -4]`, but `(div 7 (- 2))` is `-3`. -/
theorem divIntN_negative_violated :
    Mem (fin 7) ⟨.int 7, .int 7, true, true⟩ ∧
    ∃ C, divIntN (F := exact) ⟨.int 7, .int 7, true, true⟩ (.int (-2)) = .ok C ∧ ¬ Mem (fin ((7 / (-2) : ℤ) : ℚ)) C := by
  refine ⟨by simp only [Mem, Number.w]; norm_num, ?_⟩
  have h2 : Number.div exact (.int 7) (.int (-2)) = .ok (.real (.fin (-7 / 2))) := by
    simp [Number.div, XR.div, toReal, exact]; norm_num
  have f : (-7 / 2 : ℚ).floor = -4 := by decide +kernel
  refine ⟨⟨.real (.fin (-4)), .real (.fin (-4)), true, true⟩, ?_, ?_⟩
  · unfold divIntN
    have e1 : isEmpty exact ⟨.int 7, .int 7, true, true⟩ = false := rfl
    have e2 : Number.eq exact (.int (-2)) (.int 0) = false := rfl
    have e3 : Number.gt exact (.int (-2)) (.int 0) = false := rfl
    simp only [e1, e2, e3, Bool.false_eq_true, if_false, if_true, h2, Res.ok_bind, Number.floor, XR.floor, f]
    norm_num
  · have : (7 / (-2) : ℤ) = -3 := by decide
    rw [this]
    simp only [Mem, Number.w]; norm_num

/-- C59: `divInt` of bounded closed intervals holds every quotient, rounded down, in exact arithmetic; a
divisor interval around zero gives the full interval. -/
theorem divIntI_sound_partial (A B : Interval) (a b c d : ℚ) (ha : A.lo.Is exact a) (hb : A.hi.Is exact b)
    (hc : B.lo.Is exact c) (hd : B.hi.Is exact d)
    (hcl : A.lc = true ∧ A.rc = true ∧ B.lc = true ∧ B.rc = true)
    (x y : ℚ) (hx : Mem (fin x) A) (hy : Mem (fin y) B) :
    ∃ C, divIntI (F := exact) A B = .ok C ∧ Mem (fin ((⌊x / y⌋ : ℤ) : ℚ)) C := by
  have hA : A.Ok exact := ⟨ha.2, hb.2⟩
  have hB : B.Ok exact := ⟨hc.2, hd.2⟩
  have eA := not_empty_of_mem hA hx
  have eB := not_empty_of_mem hB hy
  simp only [Mem, hcl, if_true, ha.1, hb.1, hc.1, hd.1, fin_le] at hx hy
  have hz : hasZero exact B = true ↔ (c < 0 ∧ 0 < d) ∨ c = 0 ∨ d = 0 := by
    simp only [hasZero, hcl, Bool.or_eq_true, Bool.and_eq_true, lt_iff hc.2 zero_is.2, gt_iff hd.2 zero_is.2,
      eq_iff hc.2 zero_is.2, eq_iff hd.2 zero_is.2, hc.1, hd.1, zero_is.1, fin_lt, fin_inj, and_true, or_assoc]
  have h0 : (eq exact A.lo (.int 0) && eq exact A.hi (.int 0) && A.lc && A.rc) = true ↔ a = 0 ∧ b = 0 := by
    simp only [hcl, Bool.and_eq_true, eq_iff ha.2 zero_is.2, eq_iff hb.2 zero_is.2, ha.1, hb.1, zero_is.1, fin_inj, and_true]
  unfold divIntI
  simp only [eA, eB, Bool.or_self, Bool.false_eq_true, if_false, ite_bool_iff hz, ite_bool_iff h0]
  by_cases z : (c < 0 ∧ 0 < d) ∨ c = 0 ∨ d = 0
  · rw [if_pos z]; exact ⟨_, rfl, fullI_mem _⟩
  rw [if_neg z]
  by_cases zz : a = 0 ∧ b = 0
  · rw [if_pos zz]
    have : x = 0 := by rw [zz.1, zz.2] at hx; linarith
    refine ⟨_, rfl, ?_⟩
    rw [this, zero_div]
    simp only [Int.floor_zero, Int.cast_zero]
    exact mem_of_lb_ub (lb_of zero_is (by simp)) (ub_of zero_is (by simp))
  rw [if_neg zz]
  push Not at z
  have nc : c ≠ 0 := z.2.1
  have nd : d ≠ 0 := z.2.2
  obtain ⟨p1, e1, i1⟩ := div_is ha hc nc
  obtain ⟨p2, e2, i2⟩ := div_is ha hd nd
  obtain ⟨p3, e3, i3⟩ := div_is hb hc nc
  obtain ⟨p4, e4, i4⟩ := div_is hb hd nd
  simp only [e1, e2, e3, e4, Res.ok_bind]
  refine ⟨_, rfl, ?_⟩
  have inv : 1 / d ≤ 1 / y ∧ 1 / y ≤ 1 / c := by
    rcases lt_or_gt_of_ne nc with h | h
    · have hd0 : d < 0 := by
        rcases lt_or_gt_of_ne nd with h' | h'
        · exact h'
        · exact absurd (z.1 h) (by linarith)
      have hy0 : y < 0 := by linarith
      exact ⟨one_div_le_one_div_of_neg_of_le hd0 hy.2, one_div_le_one_div_of_neg_of_le hy0 hy.1⟩
    · have hy0 : 0 < y := by linarith
      exact ⟨one_div_le_one_div_of_le hy0 hy.2, one_div_le_one_div_of_le h hy.1⟩
  obtain ⟨k1, k2⟩ := product_corners hx.1 hx.2 inv.1 inv.2
  simp only [mul_one_div] at k1 k2
  have j1 := floor_is_int i1
  have j2 := floor_is_int i2
  have j3 := floor_is_int i3
  have j4 := floor_is_int i4
  refine corners_closed hcl ?_ ?_ ?_
  · intro p hp
    simp only [List.mem_cons, List.not_mem_nil, or_false] at hp
    rcases hp with rfl | rfl | rfl | rfl
    exacts [j1.2, j2.2, j3.2, j4.2]
  · simp only [List.mem_cons, List.not_mem_nil, or_false, exists_eq_or_imp, exists_eq_left, j1.1, j2.1, j3.1, j4.1, fin_le]
    rcases k1 with h | h | h | h
    · exact .inr (.inl (floor_mono_rat h))
    · exact .inl (floor_mono_rat h)
    · exact .inr (.inr (.inr (floor_mono_rat h)))
    · exact .inr (.inr (.inl (floor_mono_rat h)))
  · simp only [List.mem_cons, List.not_mem_nil, or_false, exists_eq_or_imp, exists_eq_left, j1.1, j2.1, j3.1, j4.1, fin_le]
    rcases k2 with h | h | h | h
    · exact .inr (.inl (floor_mono_rat h))
    · exact .inl (floor_mono_rat h)
    · exact .inr (.inr (.inr (floor_mono_rat h)))
    · exact .inr (.inr (.inl (floor_mono_rat h)))

/-! ## remainder -/

theorem emod_le_self {i j : ℤ} (hi : 0 ≤ i) (hj : 0 < j) : i % j ≤ i := by
  have h := Int.emod_add_mul_ediv i j
  have := mul_nonneg hj.le (Int.ediv_nonneg hi hj.le)
  linarith

/-- C59: `mod` of an interval without negative members, closed on the left, by a positive integer holds
the remainder of each of its integers. -/
theorem modN_sound_partial (A : Interval) (hA : A.Ok exact) (hlc : A.lc = true) (j : ℤ) (hj : 0 < j) (i : ℤ) (hi : 0 ≤ i)
    (hx : Mem (fin i) A) : ∃ C, modN (F := exact) A (.int j) = .ok C ∧ Mem (fin ((i % j : ℤ) : ℚ)) C := by
  have eA := not_empty_of_mem hA hx
  have h0 := Int.emod_nonneg i hj.ne'
  have h1 := Int.emod_lt_of_pos i hj
  have h2 : i % j ≤ i := emod_le_self hi hj
  have e2 : Number.eq exact (.int j) (.int 0) = false := by simp [Number.eq, hj.ne']
  have e3 : Number.lt exact (.int j) (.int 0) = false := by simp [Number.lt, hj.le]
  have ej : Number.sub exact (Number.abs (.int j)) (.int 1) = .int (j - 1) := by
    have : ((j.natAbs : ℕ) : ℤ) = j := by omega
    simp only [Number.sub, Number.abs, this]
  unfold modN
  simp only [eA, e2, e3, Bool.false_eq_true, if_false, ej]
  have c0 : LB true (.int 0) ((i % j : ℤ) : ℚ) := lb_of zero_is (by simp only [if_true]; exact_mod_cast h0)
  have c1 : UB true (.int (j - 1)) ((i % j : ℤ) : ℚ) := ub_of (int_is _) (by
    simp only [if_true]; exact_mod_cast (by omega : i % j ≤ j - 1))
  split
  · refine ⟨_, rfl, c0.2, ?_⟩
    have hh := hx.2
    revert hh
    have : ((i % j : ℤ) : ℚ) ≤ (i : ℚ) := by exact_mod_cast h2
    have hle : fin ((i % j : ℤ) : ℚ) ≤ fin (i : ℚ) := fin_le.2 this
    cases A.rc
    · simp only [Bool.false_eq_true, if_false]; exact fun h => lt_of_le_of_lt hle h
    · simp only [if_true]; exact fun h => le_trans hle h
  · split
    · rw [hlc]; exact ⟨_, rfl, c0.2, c1.2⟩
    · exact ⟨_, rfl, c0.2, c1.2⟩

/-- C59 violated: negative members are not thought of (`[-3, -1] mod 5` is empty, and `-1 mod 5 = 4`), and an
open left end removes the largest remainder (`(10, 20) mod 3` misses `11 mod 3 = 2`). -/
theorem modN_violated :
    (Mem (fin (-1)) ⟨.int (-3), .int (-1), true, true⟩ ∧ ∃ C, modN (F := exact) ⟨.int (-3), .int (-1), true, true⟩ (.int 5) = .ok C ∧
      ∀ q : ℚ, ¬ Mem (fin q) C) ∧
    (Mem (fin 11) ⟨.int 10, .int 20, false, false⟩ ∧ ∃ C, modN (F := exact) ⟨.int 10, .int 20, false, false⟩ (.int 3) = .ok C ∧
      ¬ Mem (fin ((11 % 3 : ℤ) : ℚ)) C) := by
  refine ⟨⟨by simp only [Mem, Number.w]; norm_num, ⟨.int 0, .int (-1), true, true⟩, rfl, ?_⟩,
    by simp only [Mem, Number.w]; norm_num, ⟨.int 0, .int 2, true, false⟩, rfl, ?_⟩
  · intro q h
    simp only [Mem, Number.w, if_true, fin_le] at h
    push_cast at h
    linarith
  · simp only [Mem, Number.w]; norm_num

/-- C59: `mod` of intervals: for members `i ≥ 0` of `A` and `y ≠ 0` of `B`, both integers, the result holds the
remainder, if `B` lies on one side of zero; otherwise the call throws. -/
theorem modI_sound_partial (A B : Interval) (hA : A.Ok exact) (hB : B.Ok exact) (i : ℤ) (hi : 0 ≤ i) (j : ℤ) (hj : j ≠ 0)
    (hx : Mem (fin i) A) (hy : Mem (fin j) B) :
    modI (F := exact) A B = .throw ∧ Mem (fin 0) B ∨
    ∃ C, modI (F := exact) A B = .ok C ∧ Mem (fin ((i % j : ℤ) : ℚ)) C := by
  have eA := not_empty_of_mem hA hx
  have eB := not_empty_of_mem hB hy
  have h0 := Int.emod_nonneg i hj
  have h1 := Int.emod_lt_abs i hj
  have h2 : i % j ≤ i := by
    rw [← Int.emod_abs]; exact emod_le_self hi (abs_pos.2 hj)
  unfold modI
  simp only [eA, eB, Bool.or_self, Bool.false_eq_true, if_false]
  obtain ⟨l1, u1⟩ := (mem_lb_ub hB).1 hy
  by_cases hz : hasZero exact B = true
  · left
    rw [if_pos hz]
    refine ⟨rfl, ?_⟩
    simp only [hasZero, Bool.or_eq_true, Bool.and_eq_true, lt_iff hB.1 zero_is.2, gt_iff hB.2 zero_is.2, eq_iff hB.1 zero_is.2,
      eq_iff hB.2 zero_is.2, zero_is.1] at hz
    unfold Mem
    have hy' := hy
    unfold Mem at hy'
    rcases hz with (⟨a1, a2⟩ | ⟨a1, a2⟩) | ⟨a1, a2⟩
    · constructor
      · cases B.lc <;> simp [a1, a1.le]
      · cases B.rc <;> simp [a2, a2.le]
    · rw [a1, a2] at hy' ⊢
      simp only [if_true, fin_le] at hy'
      have : (0 : ℚ) < (j : ℚ) := lt_of_le_of_ne hy'.1 (by exact_mod_cast hj.symm)
      refine ⟨by simp, ?_⟩
      have h3 := hy'.2
      revert h3
      cases B.rc
      · simp only [Bool.false_eq_true, if_false]; exact fun h => lt_trans (fin_lt.2 this) h
      · simp only [if_true]; exact fun h => le_trans (fin_le.2 this.le) h
    · rw [a1, a2] at hy' ⊢
      simp only [if_true, fin_le] at hy'
      have : (j : ℚ) < 0 := lt_of_le_of_ne hy'.2 (by exact_mod_cast hj)
      refine ⟨?_, by simp⟩
      have h3 := hy'.1
      revert h3
      cases B.lc
      · simp only [Bool.false_eq_true, if_false]; exact fun h => lt_trans h (fin_lt.2 this)
      · simp only [if_true]; exact fun h => le_trans h (fin_le.2 this.le)
  · right
    rw [if_neg hz]
    have c0 : LB true (.int 0) ((i % j : ℤ) : ℚ) := lb_of zero_is (by simp only [if_true]; exact_mod_cast h0)
    split
    · refine ⟨_, rfl, c0.2, ?_⟩
      have hh := hx.2
      revert hh
      have : ((i % j : ℤ) : ℚ) ≤ (i : ℚ) := by exact_mod_cast h2
      have hle : fin ((i % j : ℤ) : ℚ) ≤ fin (i : ℚ) := fin_le.2 this
      cases A.rc
      · simp only [Bool.false_eq_true, if_false]; exact fun h => lt_of_le_of_lt hle h
      · simp only [if_true]; exact fun h => le_trans hle h
    · refine ⟨_, rfl, c0.2, ?_⟩
      -- the larger end in absolute value is at least |j|
      have hm : UB true (smax exact B.lo.abs B.hi.abs) ((|j| : ℤ) : ℚ) := by
        have smax_ub : ∀ {m n : Number} {q : ℚ}, m.Ok exact → n.Ok exact → UB true m q ∨ UB true n q → UB true (smax exact m n) q := by
          intro m n q hm hn h
          unfold smax
          by_cases hc : Number.lt exact m n = true
          · rw [if_pos hc]
            rcases h with h | h
            · refine ⟨hn, ?_⟩
              have h3 := h.2
              simp only [if_true] at h3 ⊢
              exact h3.trans ((lt_iff hm hn).1 hc).le
            · exact h
          · rw [if_neg hc]
            rcases h with h | h
            · exact h
            · refine ⟨hm, ?_⟩
              have h3 := h.2
              simp only [if_true] at h3 ⊢
              exact h3.trans (not_lt.1 (fun h => hc ((lt_iff hm hn).2 h)))
        have okabs : ∀ {n : Number}, n.Ok exact → n.abs.Ok exact := by
          intro n hn
          rcases n with i | (_ | _ | p | _) <;> simp_all [Number.abs, XR.abs, Number.Ok, exact]
        refine smax_ub (okabs hB.1) (okabs hB.2) ?_
        rcases le_total 0 j with hj0 | hj0
        · right
          rw [abs_of_nonneg hj0]
          rcases ub_cases u1 with e | ⟨q, hq, hq2⟩
          · rw [e]; exact ub_pinf _ _
          · have : (j : ℚ) ≤ q := by revert hq2; cases B.rc <;> simp <;> intro h <;> linarith
            refine ub_of (abs_is hq) ?_
            simp only [if_true]
            exact this.trans (le_abs_self q)
        · left
          rw [abs_of_nonpos hj0]
          rcases lb_cases l1 with e | ⟨q, hq, hq2⟩
          · rw [e]; exact ub_pinf _ _
          · have : q ≤ (j : ℚ) := by revert hq2; cases B.lc <;> simp <;> intro h <;> linarith
            refine ub_of (abs_is hq) ?_
            simp only [if_true]
            push_cast
            have := neg_le_abs q
            linarith
      have sub_ub : ∀ {m : Number} {q : ℚ}, UB true m q → UB true (Number.sub exact m (.int 1)) (q - 1) := by
        intro m q h
        rcases ub_cases h with e | ⟨p, hp, hp2⟩
        · rw [e]
          refine ⟨trivial, ?_⟩
          simp [Number.sub, toReal, XR.sub, XR.neg, XR.add, Number.w]
        · refine ub_of (sub_is hp (int_is 1)) ?_
          simp only [if_true] at hp2 ⊢
          push_cast; linarith
      have := (sub_ub hm).2
      simp only [if_true] at this ⊢
      refine le_trans ?_ this
      rw [fin_le]
      have h3 : i % j ≤ |j| - 1 := by omega
      exact_mod_cast h3

/-- C59 violated: negative members: `[-3, -1] mod [5, 5]` is empty. -/
theorem modI_violated : Mem (fin (-1)) ⟨.int (-3), .int (-1), true, true⟩ ∧
    ∃ C, modI (F := exact) ⟨.int (-3), .int (-1), true, true⟩ ⟨.int 5, .int 5, true, true⟩ = .ok C ∧ ∀ q : ℚ, ¬ Mem (fin q) C := by
  refine ⟨by simp only [Mem, Number.w]; norm_num, ⟨.int 0, .int (-1), true, true⟩, rfl, ?_⟩
  intro q h
  simp only [Mem, Number.w, if_true, fin_le] at h
  push_cast at h
  linarith

/-- the hypotheses are met: `[3, 17] div [-4, -2]` at `17 / -4`, `[0, 20] mod 3` at 11, `(2, 9) mod [-4, 5)`-like intervals -/
example : ∃ C, divIntI (F := exact) ⟨.int 3, .int 17, true, true⟩ ⟨.int (-4), .int (-2), true, true⟩ = .ok C ∧
    Mem (fin ((⌊(17 : ℚ) / (-4)⌋ : ℤ) : ℚ)) C :=
  divIntI_sound_partial _ _ 3 17 (-4) (-2) (int_is 3) (int_is 17) (by have := int_is (-4); simpa using this)
    (by have := int_is (-2); simpa using this) ⟨rfl, rfl, rfl, rfl⟩ 17 (-4)
    (by simp only [Mem, Number.w]; norm_num) (by simp only [Mem, Number.w]; norm_num)
example : ∃ C, modN (F := exact) ⟨.int 0, .int 20, true, true⟩ (.int 3) = .ok C ∧ Mem (fin ((11 % 3 : ℤ) : ℚ)) C :=
  modN_sound_partial ⟨.int 0, .int 20, true, true⟩ ⟨rfl, rfl⟩ rfl 3 (by decide) 11 (by decide) (by simp only [Mem, Number.w]; norm_num)
example : ∃ C, modI (F := exact) ⟨.int 2, .int 9, false, false⟩ ⟨.int (-4), .int 0, true, false⟩ = .ok C ∧
    Mem (fin ((7 % (-4) : ℤ) : ℚ)) C := by
  rcases modI_sound_partial ⟨.int 2, .int 9, false, false⟩ ⟨.int (-4), .int 0, true, false⟩ ⟨rfl, rfl⟩ ⟨rfl, rfl⟩ 7 (by decide) (-4)
    (by decide) (by simp only [Mem, Number.w]; norm_num) (by simp only [Mem, Number.w]; norm_num) with h | h
  · exact absurd h.1 (by decide +kernel)
  · exact h

end SMT.Num
