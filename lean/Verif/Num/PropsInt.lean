import Verif.Num.PropsMul
import Mathlib.Algebra.Order.Ring.Basic
import Mathlib.Algebra.Order.GroupWithZero.Basic
import Mathlib.Algebra.Ring.Parity

/-! # C44 (powers) and C45 (integers of an interval) -/

namespace SMT.Num
open Number Interval

theorem pow_is {a : Number} {x : ℚ} (ha : a.Is exact x) (n : Nat) : (pow exact a n).Is exact (x ^ n) := by
  rcases is_cases ha with ⟨i, rfl, h1, h2⟩ | rfl
  · refine ⟨?_, rfl⟩
    simp only [pow, Number.w, fin_inj]; push_cast; rw [h1]
  · exact is_real exact _

theorem lb_pow_odd {c : Bool} {m : Number} {x : ℚ} (h : LB c m x) {n : Nat} (hn : Odd n) :
    LB c (pow exact m n) (x ^ n) := by
  have h0 : n ≠ 0 := by rintro rfl; exact absurd hn (by decide)
  rcases lb_cases h with rfl | ⟨q, hq, h2⟩
  · have : pow exact (.real .ninf) n = .real .ninf := by
      simp [pow, h0, Nat.odd_iff.mp hn]
    rw [this]; exact lb_ninf _ _
  · refine lb_of (pow_is hq n) ?_
    cases c
    · exact (Odd.strictMono_pow hn) (by simpa using h2)
    · exact (Odd.strictMono_pow hn).monotone (by simpa using h2)

theorem ub_pow_odd {c : Bool} {m : Number} {x : ℚ} (h : UB c m x) {n : Nat} (hn : Odd n) :
    UB c (pow exact m n) (x ^ n) := by
  have h0 : n ≠ 0 := by rintro rfl; exact absurd hn (by decide)
  rcases ub_cases h with rfl | ⟨q, hq, h2⟩
  · have : pow exact (.real .pinf) n = .real .pinf := by simp [pow, h0]
    rw [this]; exact ub_pinf _ _
  · refine ub_of (pow_is hq n) ?_
    cases c
    · exact (Odd.strictMono_pow hn) (by simpa using h2)
    · exact (Odd.strictMono_pow hn).monotone (by simpa using h2)

/-- an upper bound of a non-negative number, raised to a positive power -/
theorem ub_pow_nonneg {c : Bool} {m : Number} {x : ℚ} (h : UB c m x) (hx : 0 ≤ x) {n : Nat} (h0 : n ≠ 0) :
    UB c (pow exact m n) (x ^ n) := by
  rcases ub_cases h with rfl | ⟨q, hq, h2⟩
  · have : pow exact (.real .pinf) n = .real .pinf := by simp [pow, h0]
    rw [this]; exact ub_pinf _ _
  · refine ub_of (pow_is hq n) ?_
    cases c
    · exact pow_lt_pow_left₀ (by simpa using h2) hx h0
    · exact pow_le_pow_left₀ hx (by simpa using h2) n

/-- a non-negative lower bound, raised to a positive power -/
theorem lb_pow_nonneg {c : Bool} {m : Number} {q x : ℚ} (hq : m.Is exact q) (h2 : if c then q ≤ x else q < x)
    (h0' : 0 ≤ q) {n : Nat} (h0 : n ≠ 0) : LB c (pow exact m n) (x ^ n) := by
  refine lb_of (pow_is hq n) ?_
  cases c
  · exact pow_lt_pow_left₀ (by simpa using h2) h0' h0
  · exact pow_le_pow_left₀ h0' (by simpa using h2) n

theorem pow_neg_even {m : Number} (hm : m.Ok exact) {n : Nat} (hn : Even n) (h0 : n ≠ 0) :
    (pow exact m.neg n) = pow exact m n := by
  rcases m with i | (_ | _ | q | _)
  · simp only [pow, Number.neg, hn.neg_pow]
  · exact absurd hm (by simp [Number.Ok])
  · simp [pow, Number.neg, XR.neg, h0, Nat.even_iff.mp hn]
  · simp only [pow, Number.neg, XR.neg, hn.neg_pow]
  · simp [pow, Number.neg, XR.neg, h0, Nat.even_iff.mp hn]

theorem abs_ok {n : Number} (h : n.Ok exact) : n.abs.Ok exact := by
  rcases n with i | (_ | _ | q | _) <;> first | rfl | trivial

theorem pow_ok {m : Number} (h : m.Ok exact) (n : Nat) : (pow exact m n).Ok exact := by
  rcases m with i | (_ | _ | q | _)
  · rfl
  · exact absurd h (by simp [Number.Ok])
  · simp only [pow]; split
    · trivial
    · split <;> trivial
  · trivial
  · simp only [pow]; split <;> trivial

/-- raising to a positive power is strictly monotone on non-negative extended rationals -/
theorem pow_abs_mono {a b : Number} (ha : a.Ok exact) (hb : b.Ok exact) {n : Nat} (h0 : n ≠ 0)
    (h : a.abs.w ≤ b.abs.w) : (pow exact a.abs n).w ≤ (pow exact b.abs n).w := by
  have fin_case : ∀ m : Number, m.Ok exact → m.abs = .real .pinf ∨ ∃ q, m.abs.Is exact q ∧ 0 ≤ q := by
    intro m hm
    rcases m with i | (_ | _ | q | _)
    · exact .inr ⟨|(i:ℚ)|, abs_is (int_is i), abs_nonneg _⟩
    · exact absurd hm (by simp [Number.Ok])
    · exact .inl rfl
    · exact .inr ⟨|q|, abs_is (is_real _ q), abs_nonneg _⟩
    · exact .inl rfl
  rcases fin_case b hb with e | ⟨q, hq, q0⟩
  · rw [e]; simp [pow, h0, Number.w]
  · rcases fin_case a ha with e | ⟨p, hp, p0⟩
    · rw [e, hq.1] at h; simp [Number.w] at h
    · rw [hp.1, hq.1, fin_le] at h
      rw [(pow_is hp n).1, (pow_is hq n).1, fin_le]
      exact pow_le_pow_left₀ p0 h n

/-- C44: integer powers, for every interval, unless the exponent is even and the interval is
`[-r, r)` (see `powI_violated`). -/
theorem powI_sound_partial (A : Interval) (hA : A.Ok exact) (x : ℚ) (hx : Mem (fin x) A) (n : Nat)
    (h : n % 2 = 1 ∨ ¬ (A.lo.abs.w = A.hi.abs.w ∧ A.lc = true ∧ A.rc = false)) :
    Mem (fin (x ^ n)) (powI exact A n) := by
  have eA := not_empty_of_mem hA hx
  obtain ⟨a1, a2⟩ := (mem_lb_ub hA).mp hx
  have g := ge_iff (F := exact) hA.1 zero_is.2
  have l := le_iff (F := exact) hA.2 zero_is.2
  unfold powI
  simp only [eA, Bool.false_eq_true, if_false, ite_bool_iff g, ite_bool_iff l, zero_is.1]
  by_cases h0 : n = 0
  · rw [if_pos h0, h0, pow_zero]
    exact mem_of_lb_ub (lb_of (int_is 1) (by simp)) (ub_of (int_is 1) (by simp))
  rw [if_neg h0]
  by_cases hev : n % 2 = 0
  · have hn : Even n := Nat.even_iff.mpr hev
    have h' : ¬ (A.lo.abs.w = A.hi.abs.w ∧ A.lc = true ∧ A.rc = false) := by
      rcases h with h | h
      · omega
      · exact h
    rw [if_pos hev]
    split
    · rename_i p
      rcases lb_cases a1 with e | ⟨q, hq, h2⟩
      · rw [e] at p; simp [Number.w] at p
      · rw [hq.1, fin_le] at p
        have x0 : 0 ≤ x := by revert h2; cases A.lc <;> simp <;> intro h <;> linarith
        exact mem_of_lb_ub (lb_pow_nonneg hq h2 p h0) (ub_pow_nonneg a2 x0 h0)
    · split
      · rename_i p1 p
        rcases ub_cases a2 with e | ⟨q, hq, h2⟩
        · rw [e] at p; simp [Number.w] at p
        · rw [hq.1, fin_le] at p
          have x0 : 0 ≤ -x := by revert h2; cases A.rc <;> simp <;> intro h <;> linarith
          have e1 := pow_neg_even hA.1 hn h0
          have e2 := pow_neg_even hA.2 hn h0
          rw [← e1, ← e2, ← hn.neg_pow]
          refine mem_of_lb_ub (lb_pow_nonneg (neg_is hq) ?_ (by linarith) h0) (ub_pow_nonneg (lb_neg a1) x0 h0)
          revert h2; cases A.rc <;> simp
      · have hz : LB true (.int 0) (x ^ n) := lb_of zero_is (by simpa using hn.pow_nonneg x)
        refine mem_of_lb_ub hz ?_
        have o1 := abs_ok hA.1
        have o2 := abs_ok hA.2
        have mw := smax_w (F := exact) (pow_ok o1 n) (pow_ok o2 n)
        refine ⟨mw.2, ?_⟩
        rw [mw.1]
        simp only [ite_bool_iff (gt_iff o1 o2)]
        rw [← hn.pow_abs]
        have u1 : x < 0 → UB A.lc A.lo.abs |x| := by
          intro hx0
          rcases lb_cases a1 with e | ⟨q, hq, h2⟩
          · rw [e]; exact ub_pinf _ _
          · refine ub_of (abs_is hq) ?_
            rw [abs_of_neg hx0]
            revert h2
            cases A.lc <;> simp <;> intro h2 <;> rw [abs_of_neg (by linarith)] <;> linarith
        have u2 : 0 ≤ x → UB A.rc A.hi.abs |x| := by
          intro hx0
          rcases ub_cases a2 with e | ⟨q, hq, h2⟩
          · rw [e]; exact ub_pinf _ _
          · refine ub_of (abs_is hq) ?_
            rw [abs_of_nonneg hx0]
            revert h2
            cases A.rc <;> simp <;> intro h2 <;> rw [abs_of_nonneg (by linarith)] <;> linarith
        -- |x| is bounded by the larger end with that end's closedness
        have strictly : ∀ (m : Number) (c : Bool), UB c m |x| → (if c then fin (|x| ^ n) ≤ (pow exact m n).w else fin (|x| ^ n) < (pow exact m n).w) :=
          fun m c hm => (ub_pow_nonneg hm (abs_nonneg x) h0).2
        by_cases hgt : A.hi.abs.w < A.lo.abs.w
        · rw [if_pos hgt, max_eq_left (pow_abs_mono hA.2 hA.1 h0 hgt.le)]
          rcases lt_or_ge x 0 with hx0 | hx0
          · exact strictly _ _ (u1 hx0)
          · refine strictly _ _ ⟨o1, ?_⟩
            have := le_of_ite (u2 hx0).2
            cases A.lc <;> simp <;> order
        · rw [if_neg hgt, max_eq_right (pow_abs_mono hA.1 hA.2 h0 (not_lt.mp hgt))]
          rcases lt_or_ge x 0 with hx0 | hx0
          · refine strictly _ _ ⟨o2, ?_⟩
            have hw := (u1 hx0).2
            rcases lt_or_eq_of_le (not_lt.mp hgt) with hlt | heq
            · have := le_of_ite hw
              cases A.rc <;> simp <;> order
            · revert h' hw
              rw [heq]
              cases A.lc <;> cases A.rc <;> simp <;> intro h <;> order
          · exact strictly _ _ (u2 hx0)
  · rw [if_neg hev]
    have hn : Odd n := Nat.odd_iff.mpr (by omega)
    exact mem_of_lb_ub (lb_pow_odd a1 hn) (ub_pow_odd a2 hn)

/-- C44, where it fails: `[-2,2)^2` is reported `[0,4)`, without `(-2)^2`. -/
theorem powI_violated : Mem (fin (-2)) ⟨.int (-2), .int 2, true, false⟩ ∧
    ¬ Mem (fin ((-2) ^ 2)) (powI exact ⟨.int (-2), .int 2, true, false⟩ 2) := by
  constructor
  · simp only [Mem, Number.w, Bool.false_eq_true, if_false, if_true, fin_lt, fin_le]; norm_num
  · have : powI exact ⟨.int (-2), .int 2, true, false⟩ 2 = ⟨.int 0, .int 4, true, false⟩ := rfl
    rw [this]; simp only [Mem, Number.w, if_true, if_false, Bool.false_eq_true, fin_le, fin_lt]; norm_num

/-! ### C45 -/

theorem ceil_is {F : Fmt} {n : Number} {q : ℚ} (h : n.Is F q) (hr : F.r q.ceil = q.ceil) :
    n.ceil.Is F (q.ceil : ℚ) := by
  rcases is_cases h with ⟨i, rfl, h2, h3⟩ | rfl
  · subst h2; rw [Rat.ceil_intCast]; exact ⟨rfl, h3⟩
  · exact is_real F _
theorem floor_is {F : Fmt} {n : Number} {q : ℚ} (h : n.Is F q) (hr : F.r q.floor = q.floor) :
    n.floor.Is F (q.floor : ℚ) := by
  rcases is_cases h with ⟨i, rfl, h2, h3⟩ | rfl
  · subst h2; rw [Rat.floor_intCast]; exact ⟨rfl, h3⟩
  · exact is_real F _

theorem intLoop_spec (F : Fmt) (h1 : F.r 1 = 1) (hi : Number) (b : Int) (hb : hi.Is F b) :
    ∀ (k : Nat) (i : Number) (a : Int) (budget : Nat), i.Is F a → (b + 1 - a).toNat = k → k < budget →
    (∀ n : Int, a ≤ n → n ≤ b + 1 → F.r n = n) →
    ∃ l, intLoop F hi budget i = some l ∧ l.map Number.w = (List.range k).map (fun j : Nat => fin ((a + j : Int) : ℚ)) := by
  intro k
  induction k with
  | zero =>
    intro i a budget hi' hk hbud hr
    obtain ⟨m, rfl⟩ : ∃ m, budget = m + 1 := ⟨budget - 1, by omega⟩
    have : le F i hi = false := by
      rw [← Bool.not_eq_true, le_iff hi'.2 hb.2, hi'.1, hb.1, fin_le]
      push Not; exact_mod_cast (by omega : b < a)
    exact ⟨[], by simp [intLoop, this], rfl⟩
  | succ k ih =>
    intro i a budget hi' hk hbud hr
    obtain ⟨m, rfl⟩ : ∃ m, budget = m + 1 := ⟨budget - 1, by omega⟩
    have hab : a ≤ b := by omega
    have hle : le F i hi = true := by
      rw [le_iff hi'.2 hb.2, hi'.1, hb.1, fin_le]; exact_mod_cast hab
    have hinc : (Number.inc F i).Is F ((a + 1 : Int) : ℚ) := by
      have := hr (a + 1) (by omega) (by omega)
      push_cast at this ⊢
      rcases is_cases hi' with ⟨j, rfl, h2, h3⟩ | rfl
      · refine ⟨by simp [Number.inc, Number.w, h2], ?_⟩
        simp only [Number.inc, Number.Ok]; push_cast; rw [h2, this]
      · simp only [Number.inc, XR.add, h1, this]; exact is_real F _
    obtain ⟨l, hl, hm⟩ := ih (Number.inc F i) (a + 1) m hinc (by omega) (by omega) (fun n h2 h3 => hr n (by omega) h3)
    refine ⟨i :: l, by simp [intLoop, hle, hl], ?_⟩
    rw [List.map_cons, hm, hi'.1, List.range_succ_eq_map, List.map_cons, List.map_map]
    simp only [Int.cast_add, Nat.cast_zero, Int.cast_zero, add_zero]
    congr 1
    apply List.map_congr_left
    intro j _
    simp only [Function.comp, fin_inj]
    push_cast; ring

/-- C45: the integers between the two ends of a bounded interval, in ascending order and each once,
provided all of them fit the working precision.  This is exactly the members when the ends are
closed or not integers.  Missing: open integer ends, see `getIntegers_violated`. -/
theorem getIntegers_partial (F : Fmt) (A : Interval) (a b : ℚ) (ha : A.lo.Is F a) (hb : A.hi.Is F b)
    (h1 : F.r 1 = 1) (hr : ∀ n : Int, a.ceil ≤ n ∨ b.floor ≤ n → n ≤ b.floor + 1 ∨ n ≤ a.ceil → F.r n = n) :
    ∃ (N : Nat) (l : List Number), (∀ budget > N, getIntegers F A budget = .ok (some l)) ∧
      l.map Number.w = (List.range (b.floor + 1 - a.ceil).toNat).map (fun j : Nat => fin ((a.ceil + j : Int) : ℚ)) ∧
      (∀ n : Int, fin (n : ℚ) ∈ l.map Number.w ↔ a ≤ n ∧ n ≤ b) ∧
      ((A.lc = true ∨ ∀ n : Int, (n : ℚ) ≠ a) → (A.rc = true ∨ ∀ n : Int, (n : ℚ) ≠ b) →
        ∀ n : Int, fin (n : ℚ) ∈ l.map Number.w ↔ Mem (fin n) A) := by
  have ia : A.lo.isInf = false := by
    rcases is_cases ha with ⟨i, e, -, -⟩ | e <;> rw [e] <;> rfl
  have ib : A.hi.isInf = false := by
    rcases is_cases hb with ⟨i, e, -, -⟩ | e <;> rw [e] <;> rfl
  have ca := ceil_is ha (hr _ (.inl (le_refl _)) (.inr (le_refl _)))
  have cb := floor_is hb (hr _ (.inr (le_refl _)) (.inl (by omega)))
  have key := fun budget hbud => intLoop_spec F h1 A.hi.floor b.floor cb (b.floor + 1 - a.ceil).toNat A.lo.ceil a.ceil budget
      ca rfl hbud (fun n h2 h3 => hr n (.inl h2) (.inl h3))
  obtain ⟨l, hl, hm⟩ := key ((b.floor + 1 - a.ceil).toNat + 1) (by omega)
  have mono : ∀ (k m : Nat) (i : Number) (l : List Number), intLoop F A.hi.floor k i = some l → k ≤ m →
      intLoop F A.hi.floor m i = some l := by
    intro k
    induction k with
    | zero => intro m i l h; simp [intLoop] at h
    | succ k ih =>
      intro m i l h hkm
      obtain ⟨m', rfl⟩ : ∃ m', m = m' + 1 := ⟨m - 1, by omega⟩
      unfold intLoop at h ⊢
      split at h
      · rename_i hc
        rw [if_pos hc]
        obtain ⟨l', h2, h3⟩ := Option.map_eq_some_iff.mp h
        rw [ih m' _ l' h2 (by omega), Option.map_some, h3]
      · rename_i hc
        rw [if_neg hc]; exact h
  have memb : ∀ n : Int, fin (n : ℚ) ∈ l.map Number.w ↔ a ≤ n ∧ n ≤ b := by
    intro n
    rw [hm, List.mem_map]
    simp only [List.mem_range, fin_inj, Int.cast_inj]
    rw [← Rat.ceil_le_iff, ← Rat.le_floor_iff]
    constructor
    · rintro ⟨j, hj, rfl⟩; omega
    · intro h; exact ⟨(n - a.ceil).toNat, by omega, by omega⟩
  refine ⟨(b.floor + 1 - a.ceil).toNat, l, ?_, hm, memb, ?_⟩
  · intro budget hbud
    simp only [getIntegers, ia, ib, Bool.or_self, Bool.false_eq_true, if_false]
    rw [mono _ budget _ l hl (by omega)]
  · intro k1 k2 n
    rw [memb n]
    simp only [Mem, ha.1, hb.1]
    constructor
    · rintro ⟨h2, h3⟩
      constructor
      · rcases k1 with k | k
        · rw [k]; simpa using h2
        · have : a < n := lt_of_le_of_ne h2 (fun e => k n e.symm)
          cases A.lc <;> simp <;> linarith
      · rcases k2 with k | k
        · rw [k]; simpa using h3
        · have : n < b := lt_of_le_of_ne h3 (fun e => k n e)
          cases A.rc <;> simp <;> linarith
    · rintro ⟨h2, h3⟩
      constructor
      · revert h2; cases A.lc <;> simp <;> intro h <;> linarith
      · revert h3; cases A.rc <;> simp <;> intro h <;> linarith

example : (Number.real (.fin (1/2))).Is exact (1/2) ∧ (Number.int 7).Is exact 7 ∧ exact.r 1 = 1 :=
  ⟨is_real _ _, ⟨by simp [Number.w], rfl⟩, rfl⟩

/-- C45, where it fails (1): open integer ends are listed. -/
theorem getIntegers_violated :
    getIntegers exact ⟨.int 0, .int 2, false, false⟩ 10 = .ok (some [.int 0, .int 1, .int 2]) ∧
    ¬ Mem (fin 0) ⟨.int 0, .int 2, false, false⟩ := by
  refine ⟨rfl, ?_⟩
  simp [Mem, Number.w]

/-- C45, where it fails (2): once `i + 1` rounds back to `i` the loop never ends. -/
theorem getIntegers_diverges_violated (F : Fmt) (A : Interval) (i : Int) (hlo : A.lo = .real (.fin i))
    (hround : F.r (i + F.r 1) = i) (hle : le F (.real (.fin i)) A.hi.floor = true) (hfin : A.hi.isInf = false) :
    ∀ budget, getIntegers F A budget = .ok none := by
  intro budget
  have key : ∀ k, intLoop F A.hi.floor k (.real (.fin i)) = none := by
    intro k
    induction k with
    | zero => rfl
    | succ k ih =>
      have : Number.inc F (.real (.fin (i : ℚ))) = .real (.fin i) := by
        simp only [Number.inc, XR.add, hround]
      simp [intLoop, hle, this, ih]
  have c : A.lo.ceil = .real (.fin i) := by
    rw [hlo]; simp [Number.ceil, XR.ceil, Rat.ceil_intCast]
  have hl : A.lo.isInf = false := by rw [hlo]; rfl
  simp [getIntegers, hl, hfin, c, key budget]

example : coarse.r (((4 : Int) : ℚ) + coarse.r 1) = ((4 : Int) : ℚ) := by
  have h1 : ((1 : ℚ) / 4).floor = 0 := by
    have h1 : (0 : Int) ≤ ((1 : ℚ) / 4).floor := by rw [Rat.le_floor_iff]; norm_num
    have h2 : ((1 : ℚ) / 4).floor < 1 := by rw [Rat.floor_lt_iff]; norm_num
    omega
  have h2 : (((4 : Int) : ℚ) / 4).floor = 1 := by
    have : (((4 : Int) : ℚ) / 4) = ((1 : Int) : ℚ) := by norm_num
    rw [this, Rat.floor_intCast]
  simp only [coarse, h1, Int.cast_zero, mul_zero, add_zero, h2]
  norm_num

/-- `l` lists the integers of `A`, each once -/
def IntsOf (A : Interval) (l : List Int) : Prop := l.Nodup ∧ ∀ n : Int, n ∈ l ↔ Mem (fin n) A

theorem ints_range {A : Interval} (a b : Int) (h : ∀ n : Int, Mem (fin n) A ↔ a ≤ n ∧ n ≤ b) :
    IntsOf A ((List.range (b + 1 - a).toNat).map (fun j : Nat => a + (j : Int))) := by
  constructor
  · rw [List.nodup_map_iff (fun x y h => by simpa using h)]; exact List.nodup_range
  · intro n
    rw [h n, List.mem_map]
    simp only [List.mem_range]
    constructor
    · rintro ⟨j, hj, rfl⟩; omega
    · intro h; exact ⟨(n - a).toNat, by omega, by omega⟩

theorem toULong_is {n : Number} {k : Int} (h : n.Is exact k) (hk : 0 ≤ k) : toULong n = .ok k.toNat := by
  rcases is_cases h with ⟨i, rfl, h2, -⟩ | rfl
  · have : i = k := by exact_mod_cast h2
    subst this
    simp [toULong, not_lt.mpr hk]
  · have : ¬ ((k : ℚ) < 0) := by push Not; exact_mod_cast hk
    simp [toULong, this, Rat.floor_intCast]

/-- C45: the count is the number of integer members of a bounded interval, when every open end is an
integer.  Missing: open ends that are not integers, see `intCount_violated`. -/
theorem intCount_partial (A : Interval) (a b : ℚ) (ha : A.lo.Is exact a) (hb : A.hi.Is exact b)
    (h1 : A.lc = true ∨ ∃ i : Int, a = i) (h2 : A.rc = true ∨ ∃ i : Int, b = i) :
    ∃ l, IntsOf A l ∧ intCount exact A = .ok l.length := by
  have hA : A.Ok exact := ⟨ha.2, hb.2⟩
  unfold intCount
  by_cases he : isEmpty exact A = true
  · have := (isEmpty_exact exact A hA).mp he
    exact ⟨[], ⟨List.nodup_nil, fun n => ⟨fun h => absurd h (by simp), fun h => absurd h (this _)⟩⟩, by simp [he]⟩
  have hroom : Room (fin a) (fin b) A.lc A.rc := by
    have := (isEmpty_room hA).mp (by simpa using he); rwa [ha.1, hb.1] at this
  simp only [he, Bool.false_eq_true, if_false]
  have hint : A.lo.isInteger = true ↔ ∃ i : Int, a = i := by
    rcases is_cases ha with ⟨i, e, h3, -⟩ | e
    · rw [e]; exact ⟨fun _ => ⟨i, h3.symm⟩, fun _ => rfl⟩
    · rw [e]; simp only [isInteger, decide_eq_true_eq]
      constructor
      · intro h; exact ⟨a.num, (Rat.den_eq_one_iff a).mp h |>.symm⟩
      · rintro ⟨i, rfl⟩; exact Rat.den_intCast i
  have cf := floor_is hb (F := exact) rfl
  have cc := ceil_is ha (F := exact) rfl
  have s0 := sub_is cf cc
  have s0' : (sub exact A.hi.floor A.lo.ceil).Is exact ((b.floor - a.ceil : Int) : ℚ) := by push_cast; exact s0
  have s1 : (add exact (sub exact A.hi.floor A.lo.ceil) (.int 1)).Is exact ((b.floor - a.ceil + 1 : Int) : ℚ) := by
    have := add_is s0' (int_is 1); push_cast at this ⊢; exact this
  have s2 : (sub exact (sub exact A.hi.floor A.lo.ceil) (.int 1)).Is exact ((b.floor - a.ceil - 1 : Int) : ℚ) := by
    have := sub_is s0' (int_is 1); push_cast at this ⊢; exact this
  by_cases hp : (isPoint exact A && A.lo.isInteger) = true
  · rw [if_pos hp]
    obtain ⟨p1, p2⟩ := Bool.and_eq_true_iff.mp hp
    rw [isPoint, eq_iff ha.2 hb.2, ha.1, hb.1, fin_inj] at p1
    obtain ⟨i, hi⟩ := hint.mp p2
    rcases hroom with h | ⟨-, hl, hr⟩
    · rw [fin_lt] at h; linarith
    refine ⟨[i], ⟨by simp, fun n => ?_⟩, rfl⟩
    simp only [Mem, hl, hr, if_true, ha.1, hb.1, ← p1, hi, fin_le, Int.cast_le, List.mem_singleton]
    omega
  rw [if_neg hp]
  have notpt : (∃ i : Int, a = i) → a ≠ b := by
    intro hi hab
    apply hp
    rw [Bool.and_eq_true_iff]
    exact ⟨by rw [isPoint, eq_iff ha.2 hb.2, ha.1, hb.1, hab], hint.mpr hi⟩
  cases hl : A.lc <;> cases hr : A.rc <;> simp only [Bool.and_self, Bool.not_true, Bool.not_false, Bool.and_false, Bool.false_and, Bool.and_true, Bool.true_and, if_true, if_false, Bool.false_eq_true]
  · -- open both: integers a < n < b
    rw [hl] at h1; rw [hr] at h2
    obtain ⟨i, rfl⟩ : ∃ i : Int, a = i := by simpa using h1
    obtain ⟨j, rfl⟩ : ∃ i : Int, b = i := by simpa using h2
    have hij : i < j := by
      rcases hroom with h | ⟨-, hl', -⟩
      · rw [fin_lt] at h; exact_mod_cast h
      · rw [hl] at hl'; exact absurd hl' (by simp)
    have hm : ∀ n : Int, Mem (fin n) A ↔ (i + 1) ≤ n ∧ n ≤ (j - 1) := by
      intro n
      simp only [Mem, hl, hr, Bool.false_eq_true, if_false, ha.1, hb.1, fin_lt, Int.cast_lt]; omega
    refine ⟨_, ints_range _ _ hm, ?_⟩
    rw [Rat.floor_intCast, Rat.ceil_intCast] at s2
    rw [toULong_is s2 (by omega), List.length_map, List.length_range]
    congr 2; omega
  · rw [hl] at h1
    obtain ⟨i, rfl⟩ : ∃ i : Int, a = i := by simpa using h1
    have hij : i ≤ b.floor := by
      rw [Rat.le_floor_iff]
      rcases hroom with h | ⟨-, hl', -⟩
      · rw [fin_lt] at h; exact h.le
      · rw [hl] at hl'; exact absurd hl' (by simp)
    have hm : ∀ n : Int, Mem (fin n) A ↔ (i + 1) ≤ n ∧ n ≤ b.floor := by
      intro n
      rw [Rat.le_floor_iff]
      simp only [Mem, hl, hr, Bool.false_eq_true, if_false, if_true, ha.1, hb.1, fin_lt, fin_le, Int.cast_lt]
      exact Iff.rfl
    refine ⟨_, ints_range _ _ hm, ?_⟩
    rw [Rat.ceil_intCast] at s0'
    rw [toULong_is s0' (by omega), List.length_map, List.length_range]
    congr 2; omega
  · rw [hr] at h2
    obtain ⟨j, rfl⟩ : ∃ i : Int, b = i := by simpa using h2
    have hij : a.ceil ≤ j := by
      rw [Rat.ceil_le_iff]
      rcases hroom with h | ⟨-, -, hr'⟩
      · rw [fin_lt] at h; exact h.le
      · rw [hr] at hr'; exact absurd hr' (by simp)
    have hm : ∀ n : Int, Mem (fin n) A ↔ a.ceil ≤ n ∧ n ≤ j - 1 := by
      intro n
      rw [Rat.ceil_le_iff]
      simp only [Mem, hl, hr, Bool.false_eq_true, if_false, if_true, ha.1, hb.1, fin_lt, fin_le, Int.cast_lt]
      first | omega | exact and_congr Iff.rfl (by omega)
    refine ⟨_, ints_range _ _ hm, ?_⟩
    rw [Rat.floor_intCast] at s0'
    rw [toULong_is s0' (by omega), List.length_map, List.length_range]
    congr 2; omega
  · have hab : a ≤ b := by
      rcases hroom with h | ⟨h, -, -⟩
      · rw [fin_lt] at h; exact h.le
      · rw [fin_inj] at h; exact h.le
    have hij : a.ceil ≤ b.floor + 1 := by
      rw [Rat.ceil_le_iff]
      have := Rat.lt_floor_add_one b
      linarith
    have hm : ∀ n : Int, Mem (fin n) A ↔ a.ceil ≤ n ∧ n ≤ b.floor := by
      intro n
      rw [Rat.le_floor_iff, Rat.ceil_le_iff]
      simp only [Mem, hl, hr, if_true, ha.1, hb.1, fin_le]
    refine ⟨_, ints_range _ _ hm, ?_⟩
    rw [toULong_is s1 (by omega), List.length_map, List.length_range]
    congr 2; omega

/-- C45, where it fails: `(1/2, 2]` contains 1 and 2, the count is 1; and `(1/4, 3/4)` throws. -/
theorem intCount_violated :
    IntsOf ⟨.real (.fin (1/2)), .int 2, false, true⟩ [1, 2] ∧
    intCount exact ⟨.real (.fin (1/2)), .int 2, false, true⟩ = .ok 1 ∧
    intCount exact ⟨.real (.fin (1/4)), .real (.fin (3/4)), false, false⟩ = .throw := by
  have c1 : ((1 : ℚ) / 2).ceil = 1 := by
    have h1 : ((1 : ℚ) / 2).ceil ≤ 1 := by rw [Rat.ceil_le_iff]; norm_num
    have h2 : 0 < ((1 : ℚ) / 2).ceil := by rw [Rat.lt_ceil_iff]; norm_num
    omega
  have c2 : ((1 : ℚ) / 4).ceil = 1 := by
    have h1 : ((1 : ℚ) / 4).ceil ≤ 1 := by rw [Rat.ceil_le_iff]; norm_num
    have h2 : 0 < ((1 : ℚ) / 4).ceil := by rw [Rat.lt_ceil_iff]; norm_num
    omega
  have f2 : ((3 : ℚ) / 4).floor = 0 := by
    have h1 : (0 : Int) ≤ ((3 : ℚ) / 4).floor := by rw [Rat.le_floor_iff]; norm_num
    have h2 : ((3 : ℚ) / 4).floor < 1 := by rw [Rat.floor_lt_iff]; norm_num
    omega
  have hk1 : Interval.Ok exact ⟨.real (.fin (1/2)), .int 2, false, true⟩ := ⟨trivial, rfl⟩
  have hk2 : Interval.Ok exact ⟨.real (.fin (1/4)), .real (.fin (3/4)), false, false⟩ := ⟨trivial, trivial⟩
  have e1 := (isEmpty_room hk1).mpr (.inl (by simp only [Number.w, fin_lt]; norm_num))
  have e2 := (isEmpty_room hk2).mpr (.inl (by simp only [Number.w, fin_lt]; norm_num))
  refine ⟨⟨by simp, fun n => ?_⟩, ?_, ?_⟩
  · simp only [Mem, Number.w, if_true, if_false, Bool.false_eq_true, fin_lt, fin_le, List.mem_cons, List.not_mem_nil, or_false]
    constructor
    · rintro (rfl | rfl) <;> norm_num
    · rintro ⟨h1, h2⟩
      have h3 : ((0 : Int) : ℚ) < n := by push_cast; linarith
      have h3 : 0 < n := by exact_mod_cast h3
      have h4 : n ≤ 2 := by exact_mod_cast h2
      omega
  · have p : isPoint exact ⟨.real (.fin (1/2)), .int 2, false, true⟩ = false := by
      rw [← Bool.not_eq_true, isPoint, eq_iff hk1.1 hk1.2]; simp only [Number.w, fin_inj]; norm_num
    have : toULong (sub exact (.int 2) (.real (.fin ((1 : Int) : ℚ)))) = .ok (1 : Int).toNat := by
      apply toULong_is _ (by decide)
      have := sub_is (int_is 2) (is_real exact ((1 : Int) : ℚ))
      have e : ((2 : Int) : ℚ) - ((1 : Int) : ℚ) = ((1 : Int) : ℚ) := by norm_num
      rwa [e] at this
    simp only [intCount, e1, p, Bool.false_and, Bool.false_eq_true, if_false, Bool.not_true, Bool.not_false, Bool.and_self, if_true]
    simp only [Number.floor, Number.ceil, XR.ceil, c1]
    exact this
  · have p : isPoint exact ⟨.real (.fin (1/4)), .real (.fin (3/4)), false, false⟩ = false := by
      rw [← Bool.not_eq_true, isPoint, eq_iff hk2.1 hk2.2]; simp only [Number.w, fin_inj]; norm_num
    simp only [intCount, e2, p, Bool.false_and, Bool.false_eq_true, if_false, Bool.not_true, Bool.not_false, Bool.and_false]
    simp only [Number.floor, Number.ceil, XR.ceil, XR.floor, c2, f2, Number.sub, XR.sub, XR.neg, XR.add, toReal, exact, toULong]
    norm_num

end SMT.Num
