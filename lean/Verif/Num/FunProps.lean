import Verif.Num.FunSpec

/-! # C58: interval functions enclose every value -/

set_option linter.unusedVariables false
set_option linter.unusedSimpArgs false

noncomputable section
namespace SMT.Num
open Number Interval

variable {F : Fmt} (L : Lib F)

theorem below_rr {y z : ℝ} (h : y ≤ z) : ((L.below (L.rr y) : ℚ) : ℝ) < z := by
  by_contra hc
  push Not at hc
  have h1 := L.rr_mono _ _ (h.trans hc)
  rw [L.rr_rat, L.below_rep _ (L.rr_rep y)] at h1
  exact absurd (L.below_lt _ (L.rr_rep y)) (not_lt.2 h1)

theorem above_rr {y z : ℝ} (h : z ≤ y) : z < ((L.above (L.rr y) : ℚ) : ℝ) := by
  by_contra hc
  push Not at hc
  have h1 := L.rr_mono _ _ (hc.trans h)
  rw [L.rr_rat, L.above_rep _ (L.rr_rep y)] at h1
  exact absurd (L.lt_above _ (L.rr_rep y)) (not_lt.2 h1)

theorem below_cases {c : Bool} {n : Number} {x : ℝ} (ho : n.Ok F) (h : n.LoB c x) :
    n = .real .ninf ∨ ∃ q : ℚ, n.Is F q ∧ (if c then (q : ℝ) ≤ x else (q : ℝ) < x) ∧ (q : ℝ) ≤ x := by
  rcases n with i | (_ | _ | p | _)
  · refine .inr ⟨i, ⟨rfl, ho⟩, ?_⟩
    cases c
    · have h : (i : ℝ) < x := by simpa [LoB] using h
      simpa using ⟨h, h.le⟩
    · have h : (i : ℝ) ≤ x := by simpa [LoB] using h
      simpa using h
  · exact absurd ho (by simp [Number.Ok])
  · exact .inl rfl
  · refine .inr ⟨p, is_real _ _, ?_⟩
    cases c
    · have h : (p : ℝ) < x := by simpa [LoB] using h
      simpa using ⟨h, h.le⟩
    · have h : (p : ℝ) ≤ x := by simpa [LoB] using h
      simpa using h
  · exact absurd h (by simp [LoB])

theorem above_cases {c : Bool} {n : Number} {x : ℝ} (ho : n.Ok F) (h : n.HiB c x) :
    n = .real .pinf ∨ ∃ q : ℚ, n.Is F q ∧ (if c then x ≤ (q : ℝ) else x < (q : ℝ)) ∧ x ≤ (q : ℝ) := by
  rcases n with i | (_ | _ | p | _)
  · refine .inr ⟨i, ⟨rfl, ho⟩, ?_⟩
    cases c
    · have h : x < (i : ℝ) := by simpa [HiB] using h
      simpa using ⟨h, h.le⟩
    · have h : x ≤ (i : ℝ) := by simpa [HiB] using h
      simpa using h
  · exact absurd ho (by simp [Number.Ok])
  · exact absurd h (by simp [HiB])
  · refine .inr ⟨p, is_real _ _, ?_⟩
    cases c
    · have h : x < (p : ℝ) := by simpa [HiB] using h
      simpa using ⟨h, h.le⟩
    · have h : x ≤ (p : ℝ) := by simpa [HiB] using h
      simpa using h
  · exact .inl rfl

/-- an interval holding a real is not reported empty -/
theorem not_empty_of_rmem {A : Interval} {x : ℝ} (hA : A.Ok F) (h : A.RMem x) : isEmpty F A = false := by
  unfold isEmpty
  rcases below_cases hA.1 h.1 with hl | ⟨a, ha, ha2, ha3⟩ <;>
    rcases above_cases hA.2 h.2 with hh | ⟨b, hb, hb2, hb3⟩
  · rw [Bool.or_eq_false_iff]
    rw [hl, hh]
    simp [gt, le, XR.le, XR.lt, XR.eq, Number.eq, toReal]
  · have := is_toReal hb
    rw [hl]
    rcases is_cases hb with ⟨i, e, _, _⟩ | e <;> rw [e] <;>
      simp [gt, le, XR.le, XR.lt, XR.eq, Number.eq, toReal]
  · rw [hh]
    rcases is_cases ha with ⟨i, e, _, _⟩ | e <;> rw [e] <;>
      simp [gt, le, XR.le, XR.lt, XR.eq, Number.eq, toReal]
  · have hab : a ≤ b := by exact_mod_cast ha3.trans hb3
    rw [Bool.or_eq_false_iff]
    constructor
    · rw [← Bool.not_eq_true, gt_iff hA.1 hA.2, ha.1, hb.1]
      simpa using hab
    · rw [Bool.and_eq_false_iff]
      by_cases hab' : a = b
      · right
        subst hab'
        have hx : (a : ℝ) = x := le_antisymm ha3 hb3
        cases hc : A.lc
        · rw [hc] at ha2; simp only [Bool.false_eq_true, if_false] at ha2; exact absurd ha2 (by rw [hx]; exact lt_irrefl _)
        · cases hd : A.rc
          · rw [hd] at hb2; simp only [Bool.false_eq_true, if_false] at hb2; exact absurd hb2 (by rw [hx]; exact lt_irrefl _)
          · rfl
      · left
        rw [← Bool.not_eq_true, eq_iff hA.1 hA.2, ha.1, hb.1]
        simpa using hab'

include L in
theorem small_ok {i : Int} (h : |i| ≤ 10) : (Number.int i).Ok F := L.small i h

include L in
theorem le_small {n : Number} {q : ℚ} (h : n.Is F q) {i : Int} (hi : |i| ≤ 10) :
    Number.le F n (.int i) = true ↔ q ≤ i := by
  rw [le_iff h.2 (small_ok L hi), h.1]; simp [Number.w]
include L in
theorem lt_small {n : Number} {q : ℚ} (h : n.Is F q) {i : Int} (hi : |i| ≤ 10) :
    Number.lt F n (.int i) = true ↔ q < i := by
  rw [lt_iff h.2 (small_ok L hi), h.1]; simp [Number.w]
include L in
theorem ge_small {n : Number} {q : ℚ} (h : n.Is F q) {i : Int} (hi : |i| ≤ 10) :
    Number.ge F n (.int i) = true ↔ (i : ℚ) ≤ q := by
  rw [ge_iff h.2 (small_ok L hi), h.1]; simp [Number.w]
include L in
theorem gt_small {n : Number} {q : ℚ} (h : n.Is F q) {i : Int} (hi : |i| ≤ 10) :
    Number.gt F n (.int i) = true ↔ (i : ℚ) < q := by
  rw [gt_iff h.2 (small_ok L hi), h.1]; simp [Number.w]
theorem isPInf_is {n : Number} {q : ℚ} (h : n.Is F q) : n.isPInf = false := by
  rcases is_cases h with ⟨i, rfl, _, _⟩ | rfl <;> rfl
theorem isNInf_is {n : Number} {q : ℚ} (h : n.Is F q) : n.isNInf = false := by
  rcases is_cases h with ⟨i, rfl, _, _⟩ | rfl <;> rfl
theorem isInf_is {n : Number} {q : ℚ} (h : n.Is F q) : n.isInf = false := by
  rcases is_cases h with ⟨i, rfl, _, _⟩ | rfl <;> rfl

/-- the neighbour below a rounded value is strictly below everything from that value on -/
theorem lower_end {f : ℝ → ℝ} {p m : XR} {n : Number} {q : ℚ} {z : ℝ} (h : n.Is F q) (hz : f q ≤ z) (c : Bool) :
    ((Number.real (XR.app L f p m (toReal F n))).nextBelow L).LoB c z := by
  rw [is_toReal h]
  have := below_rr L hz
  cases c <;> simp [XR.app, Number.nextBelow, XR.nextBelow, LoB, this, this.le]
/-- the neighbour above a rounded value is strictly above everything up to that value -/
theorem upper_end {f : ℝ → ℝ} {p m : XR} {n : Number} {q : ℚ} {z : ℝ} (h : n.Is F q) (hz : z ≤ f q) (c : Bool) :
    ((Number.real (XR.app L f p m (toReal F n))).nextAbove L).HiB c z := by
  rw [is_toReal h]
  have := above_rr L hz
  cases c <;> simp [XR.app, Number.nextAbove, XR.nextAbove, HiB, this, this.le]

/-! ## logarithms -/

theorem logLike_encloses (f : ℝ → ℝ) (g : Number → Res Number)
    (hg : ∀ n q, n.Is F q → 0 < q → g n = .ok (.real (XR.app L f .nan .pinf (toReal F n))))
    (mono : ∀ a b : ℝ, 0 < a → a ≤ b → f a ≤ f b) :
    Encloses F (Set.Ioi 0) f (logLike L g) := by
  intro A hA x hx hm
  have hx0 : (0 : ℝ) < x := hx
  have h0 : |(0 : Int)| ≤ 10 := by decide
  unfold logLike
  rw [not_empty_of_rmem hA hm]
  have hhi : Number.le F A.hi (.int 0) = false := by
    rcases above_cases hA.2 hm.2 with e | ⟨b, hb, hb2, hb3⟩
    · rw [e]; simp [le, XR.le, XR.lt, XR.eq, toReal]
    · rw [← Bool.not_eq_true, le_small L hb h0]
      have : (0 : ℚ) < b := by exact_mod_cast hx0.trans_le hb3
      simpa using this
  rw [hhi]
  simp only [Bool.false_eq_true, if_false]
  have hlo : ∃ l, logLo L g A.lo = .ok l ∧ l.LoB false (f x) := by
    unfold logLo
    rcases below_cases hA.1 hm.1 with e | ⟨a, ha, ha2, ha3⟩
    · rw [e]; simp [le, XR.le, XR.lt, XR.eq, toReal, LoB]
    · by_cases hc : Number.le F A.lo (.int 0) = true
      · rw [if_pos hc]; exact ⟨_, rfl, trivial⟩
      · rw [if_neg hc, isPInf_is ha]
        rw [le_small L ha h0] at hc
        have ha0 : (0 : ℚ) < a := by push Not at hc; simpa using hc
        rw [hg _ _ ha ha0]
        exact ⟨_, rfl, lower_end L ha (mono _ _ (by exact_mod_cast ha0) ha3) false⟩
  have hh : ∃ h, logHi L g A.hi = .ok h ∧ h.HiB false (f x) := by
    unfold logHi
    rcases above_cases hA.2 hm.2 with e | ⟨b, hb, hb2, hb3⟩
    · rw [e]; exact ⟨_, rfl, trivial⟩
    · rw [isPInf_is hb]
      have hb0 : (0 : ℚ) < b := by exact_mod_cast hx0.trans_le hb3
      rw [hg _ _ hb hb0]
      exact ⟨_, rfl, upper_end L hb (mono _ _ hx0 hb3) false⟩
  obtain ⟨l, e1, h1⟩ := hlo
  obtain ⟨h, e2, h2⟩ := hh
  rw [e1, e2]
  exact ⟨_, rfl, h1, h2⟩

theorem guard_pos {n : Number} {q : ℚ} (h : n.Is F q) (hq : 0 < q) : XR.le (toReal F n) (.fin 0) = false := by
  rw [is_toReal h]
  simp [XR.le, XR.lt, XR.eq, hq.le, hq.ne', not_lt]

/-- C58, logarithms: `ln`, `lb` and `lg` of an interval hold the logarithm of each of its positive
reals, for every rounding. -/
theorem logs_enclose :
    Encloses F (Set.Ioi 0) Real.log (Interval.ln L) ∧
    Encloses F (Set.Ioi 0) (Real.logb 2) (Interval.lb L) ∧
    Encloses F (Set.Ioi 0) (Real.logb 10) (Interval.lg L) := by
  refine ⟨logLike_encloses L _ _ ?_ ?_, logLike_encloses L _ _ ?_ ?_, logLike_encloses L _ _ ?_ ?_⟩
  · intro n q h hq; simp [Number.ln, XR.ln, guard_pos h hq]
  · intro a b ha hab; exact Real.log_le_log ha hab
  · intro n q h hq; simp [Number.lb, XR.lb, guard_pos h hq]
  · intro a b ha hab; exact Real.logb_le_logb_of_le (by norm_num) ha hab
  · intro n q h hq; simp [Number.lg, XR.lg, guard_pos h hq]
  · intro a b ha hab; exact Real.logb_le_logb_of_le (by norm_num) ha hab

/-! ## exponential -/

/-- C58, exponential -/
theorem exp_encloses : Encloses F Set.univ Real.exp (fun A => .ok (Interval.exp L A)) := by
  intro A hA x _ hm
  refine ⟨_, rfl, ?_⟩
  unfold Interval.exp
  rw [not_empty_of_rmem hA hm]
  simp only [Bool.false_eq_true, if_false]
  constructor
  · rcases below_cases hA.1 hm.1 with e | ⟨a, ha, ha2, ha3⟩
    · rw [e]; simp [isNInf, LoB, Real.exp_pos]
    · simp only [isNInf_is ha, isPInf_is ha, Bool.false_eq_true, if_false]
      exact lower_end L ha (Real.exp_le_exp.2 ha3) false
  · rcases above_cases hA.2 hm.2 with e | ⟨b, hb, hb2, hb3⟩
    · rw [e]; simp [isNInf, isPInf, HiB]
    · simp only [isNInf_is hb, isPInf_is hb, Bool.false_eq_true, if_false]
      exact upper_end L hb (Real.exp_le_exp.2 hb3) false

/-! ## functions increasing on the whole line -/

theorem widen_encloses {f : ℝ → ℝ} {p m : XR} (mono : Monotone f)
    (hm : ∀ x : ℝ, ((Number.real p).nextBelow L).LoB false (f x))
    (hp : ∀ x : ℝ, ((Number.real m).nextAbove L).HiB false (f x)) {A : Interval} (hA : A.Ok F) {x : ℝ}
    (h : A.RMem x) :
    (widen L (.real (XR.app L f p m (toReal F A.lo))) (.real (XR.app L f p m (toReal F A.hi)))).RMem (f x) := by
  constructor
  · rcases below_cases hA.1 h.1 with e | ⟨a, ha, ha2, ha3⟩
    · show LoB _ _ _
      simp only [widen, e, toReal, XR.app]
      exact hm x
    · exact lower_end L ha (mono ha3) false
  · rcases above_cases hA.2 h.2 with e | ⟨b, hb, hb2, hb3⟩
    · show HiB _ _ _
      simp only [widen, e, toReal, XR.app]
      exact hp x
    · exact upper_end L hb (mono hb3) false

theorem tanh_mono : Monotone Real.tanh := by
  intro a b h
  by_contra hc
  push Not at hc
  have h1 : Real.artanh (Real.tanh b) < Real.artanh (Real.tanh a) :=
    Real.artanh_lt_artanh (Real.tanh_bijOn.mapsTo (Set.mem_univ b)).1 (Real.tanh_bijOn.mapsTo (Set.mem_univ a)).2 hc
  rw [Real.artanh_tanh, Real.artanh_tanh] at h1
  exact absurd h (not_le.2 h1)

/-- C58, functions increasing on the whole line: `atan`, `sinh`, `tanh` and `asinh` of an interval hold
the value at each of its reals, also for unbounded intervals. -/
theorem increasing_enclose :
    Encloses F Set.univ Real.arctan (fun A => .ok (Interval.atan L A)) ∧
    Encloses F Set.univ Real.sinh (fun A => .ok (Interval.sinh L A)) ∧
    Encloses F Set.univ Real.tanh (fun A => .ok (Interval.tanh L A)) ∧
    Encloses F Set.univ Real.arsinh (fun A => .ok (Interval.asinh L A)) := by
  refine ⟨?_, ?_, ?_, ?_⟩ <;> intro A hA x _ hm <;> refine ⟨_, rfl, ?_⟩
  · unfold Interval.atan
    rw [not_empty_of_rmem hA hm]
    refine widen_encloses L Real.arctan_mono ?_ ?_ hA hm
    · intro x
      have := below_rr L (Real.neg_pi_div_two_lt_arctan x).le
      simpa [Number.nextBelow, XR.nextBelow, LoB] using this
    · intro x
      have := above_rr L (Real.arctan_lt_pi_div_two x).le
      simpa [Number.nextAbove, XR.nextAbove, HiB] using this
  · unfold Interval.sinh
    rw [not_empty_of_rmem hA hm]
    exact widen_encloses (p := .ninf) (m := .pinf) L Real.sinh_strictMono.monotone (fun _ => trivial) (fun _ => trivial) hA hm
  · unfold Interval.tanh
    rw [not_empty_of_rmem hA hm]
    refine widen_encloses L tanh_mono ?_ ?_ hA hm
    · intro x
      have := below_rr L (Real.neg_one_lt_tanh x).le
      simpa [Number.nextBelow, XR.nextBelow, LoB] using this
    · intro x
      have := above_rr L (Real.tanh_lt_one x).le
      simpa [Number.nextAbove, XR.nextAbove, HiB] using this
  · unfold Interval.asinh
    rw [not_empty_of_rmem hA hm]
    exact widen_encloses (p := .ninf) (m := .pinf) L Real.arsinh_strictMono.monotone (fun _ => trivial) (fun _ => trivial) hA hm

/-! ## square root -/

theorem sqrt_int (i : Int) (h : 0 ≤ i) :
    ((Int.sqrt i : Int) : ℝ) ≤ Real.sqrt i ∧ Real.sqrt i < ((Int.sqrt i : Int) : ℝ) + 1 := by
  obtain ⟨n, rfl⟩ := Int.eq_ofNat_of_zero_le h
  have e : Int.sqrt (n : Int) = (Nat.sqrt n : Int) := by simp [Int.sqrt]
  rw [e]
  have h1 : Nat.sqrt n * Nat.sqrt n ≤ n := Nat.sqrt_le n
  have h2 : n < (Nat.sqrt n + 1) * (Nat.sqrt n + 1) := Nat.lt_succ_sqrt n
  constructor
  · apply Real.le_sqrt_of_sq_le
    push_cast
    rw [sq]
    exact_mod_cast h1
  · rw [Real.sqrt_lt' (by positivity)]
    push_cast
    rw [sq]
    exact_mod_cast h2

theorem sqrtLike_encloses (g : Number → Res Number) (hg : ∀ n q, n.Is F q → 0 < q → g n = Number.sqrt L n) :
    Encloses F (Set.Ioi 0) Real.sqrt (sqrtLike L g) := by
  intro A hA x hx hm
  have hx0 : (0 : ℝ) < x := hx
  have h0 : |(0 : Int)| ≤ 10 := by decide
  unfold sqrtLike
  rw [not_empty_of_rmem hA hm]
  have hhi : Number.le F A.hi (.int 0) = false := by
    rcases above_cases hA.2 hm.2 with e | ⟨b, hb, hb2, hb3⟩
    · rw [e]; simp [le, XR.le, XR.lt, XR.eq, toReal]
    · rw [← Bool.not_eq_true, le_small L hb h0]
      have : (0 : ℚ) < b := by exact_mod_cast hx0.trans_le hb3
      simpa using this
  rw [hhi]
  simp only [Bool.false_eq_true, if_false]
  have hlo : ∃ l, sqrtLo L g A.lo = .ok l ∧ l.1.LoB l.2 (Real.sqrt x) := by
    unfold sqrtLo
    rcases below_cases hA.1 hm.1 with e | ⟨a, ha, ha2, ha3⟩
    · rw [e]; simp [le, XR.le, XR.lt, XR.eq, toReal, LoB]
    · by_cases hc : Number.le F A.lo (.int 0) = true
      · rw [if_pos hc]; exact ⟨_, rfl, by simp [LoB]⟩
      · rw [if_neg hc, isPInf_is ha]
        rw [le_small L ha h0] at hc
        have ha0 : (0 : ℚ) < a := by push Not at hc; simpa using hc
        rw [hg _ _ ha ha0]
        rcases is_cases ha with ⟨i, e, ei, er⟩ | e
        · rw [e]
          have hi0 : 0 ≤ i := by have : (0 : ℚ) < i := by rw [ei]; exact ha0
                                 exact_mod_cast this.le
          simp only [Number.sqrt, not_lt.2 hi0, if_false, Bool.false_eq_true]
          refine ⟨_, rfl, ?_⟩
          have h1 := (sqrt_int i hi0).1
          have h2 : Real.sqrt i ≤ Real.sqrt x := Real.sqrt_le_sqrt (by
            have : ((i : ℚ) : ℝ) ≤ x := by rw [ei]; exact ha3
            simpa using this)
          simp only [Number.nextBelow, LoB, Bool.false_eq_true, if_false]
          push_cast
          linarith
        · rw [e]
          have : XR.lt (.fin a) (.fin 0) = false := by simp [XR.lt, ha0.le]
          simp only [Number.sqrt, XR.sqrt, this, Bool.false_eq_true, if_false, Res.ok_bind]
          refine ⟨_, rfl, ?_⟩
          have := lower_end (p := .nan) (m := .pinf) (f := Real.sqrt) L (is_real F a) (Real.sqrt_le_sqrt ha3) false
          exact this
  have hh : ∃ h, logHi L g A.hi = .ok h ∧ h.HiB false (Real.sqrt x) := by
    unfold logHi
    rcases above_cases hA.2 hm.2 with e | ⟨b, hb, hb2, hb3⟩
    · rw [e]; exact ⟨_, rfl, trivial⟩
    · rw [isPInf_is hb]
      have hb0 : (0 : ℚ) < b := by exact_mod_cast hx0.trans_le hb3
      rw [hg _ _ hb hb0]
      rcases is_cases hb with ⟨i, e, ei, er⟩ | e
      · rw [e]
        have hi0 : 0 ≤ i := by have : (0 : ℚ) < i := by rw [ei]; exact hb0
                               exact_mod_cast this.le
        simp only [Number.sqrt, not_lt.2 hi0, if_false, Bool.false_eq_true]
        refine ⟨_, rfl, ?_⟩
        have h1 := (sqrt_int i hi0).2
        have h2 : Real.sqrt x ≤ Real.sqrt i := Real.sqrt_le_sqrt (by
          have : x ≤ ((i : ℚ) : ℝ) := by rw [ei]; exact hb3
          simpa using this)
        simp only [Number.nextAbove, HiB, Bool.false_eq_true, if_false]
        push_cast
        linarith
      · rw [e]
        have : XR.lt (.fin b) (.fin 0) = false := by simp [XR.lt, hb0.le]
        simp only [Number.sqrt, XR.sqrt, this, Bool.false_eq_true, if_false, Res.ok_bind]
        refine ⟨_, rfl, ?_⟩
        exact upper_end (p := .nan) (m := .pinf) (f := Real.sqrt) L (is_real F b) (Real.sqrt_le_sqrt hb3) false
  obtain ⟨l, e1, h1⟩ := hlo
  obtain ⟨h, e2, h2⟩ := hh
  rw [e1, e2]
  exact ⟨_, rfl, h1, h2⟩

/-- C58, square roots: `sqrt` and `safeSqrt` of an interval hold the root of each of its positive reals
(missing: zero, refuted below). -/
theorem sqrt_encloses_partial :
    Encloses F (Set.Ioi 0) Real.sqrt (Interval.sqrt L) ∧ Encloses F (Set.Ioi 0) Real.sqrt (Interval.safeSqrt L) := by
  refine ⟨sqrtLike_encloses L _ (fun _ _ _ _ => rfl), sqrtLike_encloses L _ ?_⟩
  intro n q h hq
  rcases is_cases h with ⟨i, rfl, ei, er⟩ | rfl
  · have hi0 : ¬ i < 0 := by
      have : (0 : ℚ) < i := by rw [ei]; exact hq
      have : (0 : Int) < i := by exact_mod_cast this
      omega
    simp [Number.safeSqrt, Number.sqrt, hi0]
  · have : XR.lt (.fin q) (.fin 0) = false := by simp [XR.lt, hq.le]
    simp [Number.safeSqrt, Number.sqrt, XR.safeSqrt, this]

/-- C58 violated: the root of 0 is lost: for `[a, 0]` with any `a ≤ 0` both functions return the empty
interval, although 0 has the root 0. -/
theorem sqrt_zero_violated (a : Int) (ha : a ≤ 0) (hr : F.r a = a) :
    (⟨.int a, .int 0, true, true⟩ : Interval).Ok F ∧ (⟨.int a, .int 0, true, true⟩ : Interval).RMem 0 ∧
    Interval.sqrt L ⟨.int a, .int 0, true, true⟩ = .ok emptyI ∧
    Interval.safeSqrt L ⟨.int a, .int 0, true, true⟩ = .ok emptyI ∧ ¬ emptyI.RMem (Real.sqrt 0) := by
  have hm : (⟨.int a, .int 0, true, true⟩ : Interval).RMem 0 :=
    ⟨by simp only [LoB, if_true]; exact_mod_cast ha, by simp [HiB]⟩
  have hok : (⟨.int a, .int 0, true, true⟩ : Interval).Ok F := ⟨hr, L.small 0 (by decide)⟩
  refine ⟨hok, hm, ?_, ?_, ?_⟩
  · simp only [Interval.sqrt, sqrtLike, not_empty_of_rmem hok hm]; simp [le]
  · simp only [Interval.safeSqrt, sqrtLike, not_empty_of_rmem hok hm]; simp [le]
  · rw [Real.sqrt_zero]
    intro h
    have := h.1
    simp only [emptyI, LoB, Bool.false_eq_true, if_false] at this
    norm_num at this

/-- square roots of integers are cut to integers: `Number(i).sqrt()` is never the root when `i` is not a
square, and is off by up to one. -/
theorem number_sqrt_violated (i : Int) (h : 0 ≤ i) (hs : ¬ ∃ k : Int, k * k = i) :
    ∃ j : Int, Number.sqrt L (.int i) = .ok (.int j) ∧ (j : ℝ) ≠ Real.sqrt i ∧ (j : ℝ) ≤ Real.sqrt i ∧
      Real.sqrt i < j + 1 := by
  refine ⟨Int.sqrt i, by simp [Number.sqrt, not_lt.2 h], ?_, (sqrt_int i h).1, (sqrt_int i h).2⟩
  intro e
  apply hs
  refine ⟨Int.sqrt i, ?_⟩
  have h2 : ((Int.sqrt i : Int) : ℝ) * ((Int.sqrt i : Int) : ℝ) = i := by
    rw [e]; exact Real.mul_self_sqrt (by exact_mod_cast h)
  exact_mod_cast h2

example : ¬ ∃ k : Int, k * k = 2 := by
  rintro ⟨k, hk⟩
  have h1 : k ≤ 1 := by nlinarith
  have h2 : -1 ≤ k := by nlinarith
  have h3 : k = -1 ∨ k = 0 ∨ k = 1 := by omega
  rcases h3 with rfl | rfl | rfl <;> omega

end SMT.Num
