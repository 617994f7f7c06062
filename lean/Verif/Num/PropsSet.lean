import Verif.Num.PropsNumber

/-! # C43: interval set operations denote the set operations -/

namespace SMT.Num
open Number

section order
variable {α : Type} [LinearOrder α]

/-- `x` lies between `lo` and `hi` -/
def Btw (lo hi : α) (lc rc : Bool) (x : α) : Prop :=
  (if lc then lo ≤ x else lo < x) ∧ (if rc then x ≤ hi else x < hi)

/-- there is room between `lo` and `hi` -/
def Room (lo hi : α) (lc rc : Bool) : Prop := lo < hi ∨ (lo = hi ∧ lc = true ∧ rc = true)

theorem room_of_btw {lo hi x : α} {lc rc : Bool} (h : Btw lo hi lc rc x) : Room lo hi lc rc := by
  unfold Btw Room at *
  cases lc <;> cases rc <;> grind

variable [DenselyOrdered α]

theorem btw_of_room {lo hi : α} {lc rc : Bool} (h : Room lo hi lc rc) : ∃ x, Btw lo hi lc rc x := by
  rcases h with h | ⟨rfl, rfl, rfl⟩
  · obtain ⟨x, h1, h2⟩ := exists_between h
    refine ⟨x, ?_⟩
    unfold Btw; cases lc <;> cases rc <;> grind
  · exact ⟨lo, by simp [Btw]⟩

/-- points arbitrarily near the lower end -/
theorem near_lo {lo hi : α} {lc rc : Bool} (h : Room lo hi lc rc) {m : α} (hm : lo < m) :
    ∃ x, Btw lo hi lc rc x ∧ x < m := by
  rcases h with h | ⟨rfl, rfl, rfl⟩
  · obtain ⟨x, h1, h2⟩ := exists_between (lt_min h hm)
    have h3 := lt_min_iff.mp h2
    refine ⟨x, ?_, h3.2⟩
    unfold Btw; cases lc <;> cases rc <;> grind
  · exact ⟨lo, by simp [Btw], hm⟩

/-- points arbitrarily near the upper end -/
theorem near_hi {lo hi : α} {lc rc : Bool} (h : Room lo hi lc rc) {m : α} (hm : m < hi) :
    ∃ x, Btw lo hi lc rc x ∧ m < x := by
  rcases h with h | ⟨rfl, rfl, rfl⟩
  · obtain ⟨x, h1, h2⟩ := exists_between (max_lt h hm)
    have h3 := max_lt_iff.mp h1
    refine ⟨x, ?_, h3.2⟩
    unfold Btw; cases lc <;> cases rc <;> grind
  · exact ⟨lo, by simp [Btw], hm⟩

/-- inclusion of two ranges is comparison of their ends -/
theorem subset_iff {lo hi lo' hi' : α} {lc rc lc' rc' : Bool} (h : Room lo hi lc rc) :
    (∀ x, Btw lo hi lc rc x → Btw lo' hi' lc' rc' x) ↔
    (lo' < lo ∨ (lo = lo' ∧ (lc = false ∨ lc' = true))) ∧
    (hi < hi' ∨ (hi = hi' ∧ (rc = false ∨ rc' = true))) := by
  constructor
  · intro hs
    constructor
    · rcases lt_trichotomy lo lo' with h1 | h1 | h1
      · obtain ⟨x, hx, hx2⟩ := near_lo h h1
        have := (hs x hx).1
        cases lc' <;> grind
      · right; refine ⟨h1, ?_⟩
        cases hl : lc
        · exact .inl rfl
        · right
          have hx : Btw lo hi lc rc lo ∨ (rc = false ∧ lo = hi) := by
            rcases h with h | ⟨h, h2, h3⟩
            · left; unfold Btw; rw [hl]; cases rc <;> grind
            · left; unfold Btw; rw [hl, h3]; simp [h]
          rcases hx with hx | hx
          · have := (hs lo hx).1
            cases hl' : lc'
            · rw [hl', h1] at this; simp at this
            · rfl
          · rcases h with h | ⟨_, _, h3⟩
            · exact absurd hx.2 h.ne
            · rw [hx.1] at h3; exact absurd h3 (by simp)
      · exact .inl h1
    · rcases lt_trichotomy hi hi' with h1 | h1 | h1
      · exact .inl h1
      · right; refine ⟨h1, ?_⟩
        cases hr : rc
        · exact .inl rfl
        · right
          have hx : Btw lo hi lc rc hi := by
            rcases h with h | ⟨h, h2, h3⟩
            · unfold Btw; rw [hr]; cases lc <;> grind
            · unfold Btw; rw [hr, h2]; simp [h]
          have := (hs hi hx).2
          cases hr' : rc'
          · rw [hr', h1] at this; simp at this
          · rfl
      · obtain ⟨x, hx, hx2⟩ := near_hi h h1
        have := (hs x hx).2
        cases rc' <;> grind
  · rintro ⟨h1, h2⟩ x hx
    unfold Btw at *
    cases lc <;> cases rc <;> cases lc' <;> cases rc' <;> grind

/-- two non-empty ranges miss each other iff one lies before the other -/
theorem disjoint_iff {lo hi lo' hi' : α} {lc rc lc' rc' : Bool} (h : Room lo hi lc rc)
    (h' : Room lo' hi' lc' rc') :
    (∀ x, ¬ (Btw lo hi lc rc x ∧ Btw lo' hi' lc' rc' x)) ↔
    (hi < lo' ∨ (hi = lo' ∧ (rc = false ∨ lc' = false)) ∨
     hi' < lo ∨ (lo = hi' ∧ (lc = false ∨ rc' = false))) := by
  constructor
  · intro hd
    by_contra hc
    push Not at hc
    obtain ⟨h1, h2, h3, h4⟩ := hc
    have hr : Room (max lo lo') (min hi hi')
        (if lo < lo' then lc' else if lo' < lo then lc else lc && lc')
        (if hi' < hi then rc' else if hi < hi' then rc else rc && rc') := by
      unfold Room at *
      rcases lt_trichotomy lo lo' with a | a | a <;> rcases lt_trichotomy hi hi' with b | b | b <;>
        (try subst a) <;> (try subst b) <;>
        simp only [max_eq_right_of_lt, max_eq_left_of_lt, min_eq_left_of_lt, min_eq_right_of_lt,
          max_self, min_self, lt_irrefl, if_false, *, if_true, not_lt_of_gt] <;> grind
    obtain ⟨x, hx⟩ := btw_of_room hr
    apply hd x
    unfold Btw at *
    obtain ⟨hx1, hx2⟩ := hx
    refine ⟨⟨?_, ?_⟩, ⟨?_, ?_⟩⟩ <;> clear hd h1 h2 h3 h4 hr <;>
      cases lc <;> cases rc <;> cases lc' <;> cases rc' <;> grind
  · intro hd x hx
    unfold Btw at *
    cases lc <;> cases rc <;> cases lc' <;> cases rc' <;> grind

end order

namespace Interval
variable {F : Fmt} {A B : Interval}

theorem mem_iff {x : EQ} : Mem x A ↔ Btw A.lo.w A.hi.w A.lc A.rc x := Iff.rfl

theorem isEmpty_room (hA : A.Ok F) : isEmpty F A = false ↔ Room A.lo.w A.hi.w A.lc A.rc := by
  rw [← Bool.not_eq_true, isEmpty, Bool.or_eq_true, Bool.and_eq_true, gt_iff hA.1 hA.2,
    eq_iff hA.1 hA.2]
  unfold Room
  cases A.lc <;> cases A.rc <;> simp <;> grind

theorem isEmpty_not_room (hA : A.Ok F) : isEmpty F A = true ↔ ¬ Room A.lo.w A.hi.w A.lc A.rc := by
  rw [← isEmpty_room hA]; simp

/-- C43: `isEmpty` holds exactly for the intervals without members. -/
theorem isEmpty_exact (F : Fmt) (A : Interval) (hA : A.Ok F) :
    isEmpty F A = true ↔ ∀ x, ¬ Mem x A := by
  rw [isEmpty_not_room hA]
  exact ⟨fun h x hx => h (room_of_btw hx), fun h hr => by
    obtain ⟨x, hx⟩ := btw_of_room hr; exact h x hx⟩

/-- C43: `contains` is membership. -/
theorem contains_exact (F : Fmt) (A : Interval) (v : Number) (hA : A.Ok F) (hv : v.Ok F) :
    contains F A v = true ↔ Mem v.w A := by
  unfold contains
  by_cases he : isEmpty F A = true
  · simp only [he, if_true, Bool.false_eq_true, false_iff]
    exact (isEmpty_exact F A hA).mp he _
  · simp only [he, if_false, Bool.and_eq_true, Mem, Bool.false_eq_true]
    cases A.lc <;> cases A.rc <;>
      simp only [if_true, if_false, Bool.false_eq_true, lt_iff hA.1 hv, le_iff hA.1 hv,
        lt_iff hv hA.2, le_iff hv hA.2]

example : contains exact ⟨.int 0, .real (.fin (5/2)), true, false⟩ (.int 2) = true := by
  refine (contains_exact exact ⟨.int 0, .real (.fin (5/2)), true, false⟩ (.int 2) ⟨rfl, trivial⟩ rfl).mpr ?_
  simp only [Mem, Number.w, if_true, if_false, Bool.false_eq_true, fin_le, fin_lt]
  norm_num

/-- C43: `isSubsetOf` is inclusion. -/
theorem isSubsetOf_exact (F : Fmt) (A B : Interval) (hA : A.Ok F) (hB : B.Ok F) :
    isSubsetOf F A B = true ↔ ∀ x, Mem x A → Mem x B := by
  unfold isSubsetOf
  by_cases he : isEmpty F A = true
  · simp only [he, if_true, true_iff]
    exact fun x hx => absurd hx ((isEmpty_exact F A hA).mp he x)
  · have hr := (isEmpty_room hA).mp (by simpa using he)
    simp only [he, if_false, Bool.false_eq_true]
    by_cases he' : isEmpty F B = true
    · simp only [he', if_true, Bool.false_eq_true, false_iff]
      intro hs
      obtain ⟨x, hx⟩ := btw_of_room hr
      exact (isEmpty_exact F B hB).mp he' x (hs x hx)
    · simp only [he', if_false, Bool.false_eq_true, mem_iff, subset_iff hr, Bool.and_eq_true, Bool.or_eq_true,
        gt_iff hA.1 hB.1, eq_iff hA.1 hB.1, lt_iff hA.2 hB.2, eq_iff hA.2 hB.2,
        Bool.not_eq_true']

/-- C43: `isSubsetEqOf` is inclusion. -/
theorem isSubsetEqOf_exact (F : Fmt) (A B : Interval) (hA : A.Ok F) (hB : B.Ok F) :
    isSubsetEqOf F A B = true ↔ ∀ x, Mem x A → Mem x B := by
  unfold isSubsetEqOf
  by_cases he : isEmpty F A = true
  · simp only [he, if_true, true_iff]
    exact fun x hx => absurd hx ((isEmpty_exact F A hA).mp he x)
  · have hr := (isEmpty_room hA).mp (by simpa using he)
    simp only [he, if_false, Bool.false_eq_true, mem_iff, subset_iff hr, Bool.and_eq_true,
      Bool.or_eq_true, ge_iff hA.1 hB.1, gt_iff hA.1 hB.1, lt_iff hA.2 hB.2, le_iff hA.2 hB.2,
      Bool.not_eq_true']
    cases A.lc <;> cases A.rc <;> cases B.lc <;> cases B.rc <;> simp <;> grind

/-- C43: `isSupersetOf` is reverse inclusion when the argument is non-empty.  Missing: an empty
argument, see `isSupersetOf_violated`. -/
theorem isSupersetOf_partial (F : Fmt) (A B : Interval) (hA : A.Ok F) (hB : B.Ok F)
    (hne : ∃ x, Mem x B) : isSupersetOf F A B = true ↔ ∀ x, Mem x B → Mem x A := by
  have hr : Room B.lo.w B.hi.w B.lc B.rc := by obtain ⟨x, hx⟩ := hne; exact room_of_btw hx
  unfold isSupersetOf
  by_cases he : isEmpty F A = true
  · simp only [he, if_true, Bool.false_eq_true, false_iff]
    intro hs
    obtain ⟨x, hx⟩ := hne
    exact (isEmpty_exact F A hA).mp he x (hs x hx)
  · simp only [he, if_false, Bool.false_eq_true, mem_iff, subset_iff hr, Bool.and_eq_true, Bool.or_eq_true,
        lt_iff hA.1 hB.1, eq_iff hA.1 hB.1, gt_iff hA.2 hB.2, eq_iff hA.2 hB.2,
        Bool.not_eq_true']
    cases A.lc <;> cases A.rc <;> cases B.lc <;> cases B.rc <;> simp <;> grind

/-- C43, where it fails: the empty interval `(1,-1)` is not reported as a subset of `[5,6]` or of
itself by `isSupersetOf`. -/
theorem isSupersetOf_violated (F : Fmt) :
    isSupersetOf F ⟨.int 5, .int 6, true, true⟩ emptyI = false ∧
    isSupersetOf F emptyI emptyI = false ∧ ∀ x, ¬ Mem x emptyI := by
  refine ⟨rfl, rfl, fun x hx => ?_⟩
  have := room_of_btw hx
  simp only [Room, emptyI, Number.w, fin_lt, fin_inj] at this
  norm_num at this

/-- C43: `isDisjointFrom` is disjointness when both are non-empty. -/
theorem isDisjointFrom_partial (F : Fmt) (A B : Interval) (hA : A.Ok F) (hB : B.Ok F)
    (neA : ∃ x, Mem x A) (neB : ∃ x, Mem x B) :
    isDisjointFrom F A B = true ↔ ∀ x, ¬ (Mem x A ∧ Mem x B) := by
  have hrA : Room A.lo.w A.hi.w A.lc A.rc := by obtain ⟨x, hx⟩ := neA; exact room_of_btw hx
  have hrB : Room B.lo.w B.hi.w B.lc B.rc := by obtain ⟨x, hx⟩ := neB; exact room_of_btw hx
  unfold isDisjointFrom
  have e1 := (isEmpty_room hA).mpr hrA
  have e2 := (isEmpty_room hB).mpr hrB
  simp only [e1, e2, Bool.or_self, if_false, Bool.false_eq_true, mem_iff, disjoint_iff hrA hrB,
    Bool.and_eq_true, Bool.or_eq_true, lt_iff hA.2 hB.1, eq_iff hA.2 hB.1, gt_iff hA.1 hB.2,
    eq_iff hA.1 hB.2, Bool.not_eq_true', or_assoc]

/-- C43, where it fails: the empty interval has no member in common with anything, but
`isDisjointFrom` says false. -/
theorem isDisjointFrom_violated (F : Fmt) (A : Interval) :
    isDisjointFrom F A emptyI = false ∧ ∀ x, ¬ (Mem x A ∧ Mem x emptyI) := by
  constructor
  · have : isEmpty F emptyI = true := rfl
    simp [isDisjointFrom, this]
  · exact fun x hx => (isSupersetOf_violated F).2.2 x hx.2

/-- C43: `isIntersectingWith` says whether there is a common member. -/
theorem isIntersectingWith_exact (F : Fmt) (A B : Interval) (hA : A.Ok F) (hB : B.Ok F) :
    isIntersectingWith F A B = true ↔ ∃ x, Mem x A ∧ Mem x B := by
  unfold isIntersectingWith
  by_cases eA : isEmpty F A = true
  · simp only [eA, Bool.true_or, if_true, Bool.false_eq_true, false_iff]
    rintro ⟨x, h, _⟩; exact (isEmpty_exact F A hA).mp eA x h
  by_cases eB : isEmpty F B = true
  · simp only [eB, Bool.or_true, if_true, Bool.false_eq_true, false_iff]
    rintro ⟨x, _, h⟩; exact (isEmpty_exact F B hB).mp eB x h
  · simp only [eA, eB, Bool.or_self, if_false, Bool.false_eq_true, Bool.not_eq_true']
    have nA := btw_of_room ((isEmpty_room hA).mp (by simpa using eA))
    have nB := btw_of_room ((isEmpty_room hB).mp (by simpa using eB))
    rw [← Bool.not_eq_true, isDisjointFrom_partial F A B hA hB nA nB]
    push Not; rfl

theorem emptyI_not_mem (x : EQ) : ¬ Mem x emptyI := (isSupersetOf_violated exact).2.2 x

theorem smax_w {a b : Number} (ha : a.Ok F) (hb : b.Ok F) :
    (smax F a b).w = max a.w b.w ∧ (smax F a b).Ok F := by
  unfold smax
  by_cases h : a.w < b.w
  · rw [if_pos ((lt_iff ha hb).mpr h), max_eq_right h.le]; exact ⟨rfl, hb⟩
  · rw [if_neg (fun h' => h ((lt_iff ha hb).mp h')), max_eq_left (not_lt.mp h)]; exact ⟨rfl, ha⟩

theorem smin_w {a b : Number} (ha : a.Ok F) (hb : b.Ok F) :
    (smin F a b).w = min a.w b.w ∧ (smin F a b).Ok F := by
  unfold smin
  by_cases h : b.w < a.w
  · rw [if_pos ((lt_iff hb ha).mpr h), min_eq_right h.le]; exact ⟨rfl, hb⟩
  · rw [if_neg (fun h' => h ((lt_iff hb ha).mp h')), min_eq_left (not_lt.mp h)]; exact ⟨rfl, ha⟩

theorem ite_bool_iff {p : Prop} [Decidable p] {b : Bool} (h : b = true ↔ p) {α : Type} (x y : α) :
    (if b = true then x else y) = if p then x else y := by
  by_cases hp : p
  · rw [if_pos hp, if_pos (h.mpr hp)]
  · rw [if_neg hp, if_neg (fun hb => hp (h.mp hb))]

/-- C43: `intersection` is the set intersection (for all intervals, empty or not). -/
theorem intersection_exact (F : Fmt) (A B : Interval) (hA : A.Ok F) (hB : B.Ok F) (x : EQ) :
    Mem x (intersection F A B) ↔ Mem x A ∧ Mem x B := by
  unfold intersection
  by_cases eA : isEmpty F A = true
  · simp only [eA, Bool.true_or, if_true]
    exact ⟨fun h => absurd h (emptyI_not_mem x), fun h => absurd h.1 ((isEmpty_exact F A hA).mp eA x)⟩
  by_cases eB : isEmpty F B = true
  · simp only [eB, Bool.or_true, if_true]
    exact ⟨fun h => absurd h (emptyI_not_mem x), fun h => absurd h.2 ((isEmpty_exact F B hB).mp eB x)⟩
  · simp only [eA, eB, Bool.or_self, if_false, Bool.false_eq_true]
    simp only [ite_bool_iff (lt_iff hA.1 hB.1), ite_bool_iff (gt_iff hA.1 hB.1),
      ite_bool_iff (lt_iff hA.2 hB.2), ite_bool_iff (gt_iff hA.2 hB.2)]
    simp only [Mem, (smax_w hA.1 hB.1).1, (smin_w hA.2 hB.2).1]
    generalize A.lo.w = a; generalize B.lo.w = b; generalize A.hi.w = c; generalize B.hi.w = d
    cases A.lc <;> cases A.rc <;> cases B.lc <;> cases B.rc <;> grind

example : Ok exact ⟨.int 0, .real .pinf, true, false⟩ ∧ Ok exact ⟨.real .ninf, .int 4, false, true⟩ :=
  ⟨⟨rfl, trivial⟩, ⟨trivial, rfl⟩⟩

theorem hull_ok (hA : A.Ok F) (hB : B.Ok F) : (hull F A B).Ok F :=
  ⟨(smin_w hA.1 hB.1).2, (smax_w hA.2 hB.2).2⟩

theorem hull_mem (hA : A.Ok F) (hB : B.Ok F) (nA : ∃ x, Mem x A) (nB : ∃ x, Mem x B)
    (hd : isDisjointFrom F A B = false) (x : EQ) : Mem x (hull F A B) ↔ Mem x A ∨ Mem x B := by
  have hd' : ¬ ∀ x, ¬ (Mem x A ∧ Mem x B) := by
    rw [← isDisjointFrom_partial F A B hA hB nA nB]; simp [hd]
  push Not at hd'
  obtain ⟨y, hy1, hy2⟩ := hd'
  unfold hull
  simp only [ite_bool_iff (lt_iff hA.1 hB.1), ite_bool_iff (lt_iff hB.1 hA.1),
      ite_bool_iff (gt_iff hA.2 hB.2), ite_bool_iff (gt_iff hB.2 hA.2)]
  simp only [Mem, (smin_w hA.1 hB.1).1, (smax_w hA.2 hB.2).1] at hy1 hy2 ⊢
  clear hd nA nB
  revert hy1 hy2
  generalize A.lo.w = a; generalize B.lo.w = b; generalize A.hi.w = c; generalize B.hi.w = d
  cases A.lc <;> cases A.rc <;> cases B.lc <;> cases B.rc <;> grind

/-- C43: `unionWith` of two non-empty intervals is the set union, and throws exactly when they have
no common point. -/
theorem unionWith_partial (F : Fmt) (A B : Interval) (hA : A.Ok F) (hB : B.Ok F)
    (nA : ∃ x, Mem x A) (nB : ∃ x, Mem x B) :
    ((∃ x, Mem x A ∧ Mem x B) → ∃ C, unionWith F A B = .ok C ∧ ∀ x, Mem x C ↔ Mem x A ∨ Mem x B) ∧
    ((∀ x, ¬ (Mem x A ∧ Mem x B)) → unionWith F A B = .throw) := by
  have e1 : isEmpty F A = false := by
    obtain ⟨x, hx⟩ := nA; exact (isEmpty_room hA).mpr (room_of_btw hx)
  have e2 : isEmpty F B = false := by
    obtain ⟨x, hx⟩ := nB; exact (isEmpty_room hB).mpr (room_of_btw hx)
  have hd := isDisjointFrom_partial F A B hA hB nA nB
  constructor
  · rintro ⟨x, hx⟩
    have : isDisjointFrom F A B = false := by
      rw [← Bool.not_eq_true, hd]; push Not; exact ⟨x, hx⟩
    refine ⟨hull F A B, ?_, hull_mem hA hB nA nB this⟩
    simp [unionWith, e1, e2, this]
  · intro h
    simp [unionWith, e1, e2, hd.mpr h]

/-- C43, where it fails: the union of `[5,6]` with an empty interval is empty. -/
theorem unionWith_violated (F : Fmt) :
    unionWith F ⟨.int 5, .int 6, true, true⟩ emptyI = .ok emptyI ∧
    Mem (fin 5) ⟨.int 5, .int 6, true, true⟩ ∧ ¬ Mem (fin 5) emptyI := by
  refine ⟨?_, ?_, emptyI_not_mem _⟩
  · have : isEmpty F emptyI = true := rfl
    simp [unionWith, this]
  · simp only [Mem, Number.w, if_true, fin_le]; norm_num

theorem sweep_mem (F : Fmt) (l : List Interval) : ∀ (cur : Interval), cur.Ok F → (∃ x, Mem x cur) →
    (∀ B ∈ l, B.Ok F ∧ ∃ x, Mem x B) → ∀ x,
    (∃ I ∈ sweep F cur l, Mem x I) ↔ ∃ I ∈ cur :: l, Mem x I := by
  induction l with
  | nil => intro cur _ _ _ x; simp [sweep]
  | cons B l ih =>
    intro cur hc nc hl x
    have hB := hl B (by simp)
    have hl' : ∀ B ∈ l, B.Ok F ∧ ∃ x, Mem x B := fun C hC => hl C (by simp [hC])
    unfold sweep
    by_cases hd : isDisjointFrom F cur B = true
    · simp only [hd, Bool.not_true, Bool.false_eq_true, if_false, List.mem_cons, exists_eq_or_imp]
      rw [ih B hB.1 hB.2 hl' x]; simp
    · have hd' : isDisjointFrom F cur B = false := by simpa using hd
      have hm := hull_mem hc hB.1 nc hB.2 hd'
      simp only [hd', Bool.not_false, if_true]
      rw [ih (hull F cur B) (hull_ok hc hB.1) (by
        obtain ⟨y, hy⟩ := nc; exact ⟨y, (hm y).mpr (.inl hy)⟩) hl' x]
      simp only [List.mem_cons, exists_eq_or_imp, hm x, or_assoc]

/-- C43: `unionMulti` of non-empty intervals denotes the union, whatever order the sort leaves. -/
theorem unionMulti_partial (F : Fmt) (inp srt : List Interval) (hperm : srt.Perm inp)
    (h : ∀ A ∈ inp, A.Ok F ∧ ∃ x, Mem x A) (x : EQ) :
    (∃ I ∈ unionMulti F srt, Mem x I) ↔ ∃ I ∈ inp, Mem x I := by
  have hm : (∃ I ∈ inp, Mem x I) ↔ ∃ I ∈ srt, Mem x I := by simp only [hperm.mem_iff]
  rw [hm]
  cases srt with
  | nil => simp [unionMulti]
  | cons A l =>
    have h' : ∀ B ∈ A :: l, B.Ok F ∧ ∃ x, Mem x B := fun B hB => h B (hperm.mem_iff.mp hB)
    exact sweep_mem F l A (h' A (by simp)).1 (h' A (by simp)).2 (fun B hB => h' B (by simp [hB])) x

/-- `A` starts no later than `B` -/
theorem before_iff (hA : A.Ok F) (hB : B.Ok F) : before F B A = false ↔
    A.lo.w < B.lo.w ∨ (A.lo.w = B.lo.w ∧ (A.lc = true ∨ B.lc = false)) := by
  rw [← Bool.not_eq_true, before, Bool.or_eq_true, Bool.and_eq_true, Bool.and_eq_true,
    lt_iff hB.1 hA.1, eq_iff hB.1 hA.1]
  cases A.lc <;> cases B.lc <;> simp <;> grind

/-- everything in `A` is below everything in `B` -/
def Below (A B : Interval) : Prop := ∀ x y, Mem x A → Mem y B → x < y

theorem below_of_disjoint (hA : A.Ok F) (hB : B.Ok F) (nA : ∃ x, Mem x A) (nB : ∃ x, Mem x B)
    (hb : before F B A = false) (hd : isDisjointFrom F A B = true) : Below A B := by
  have h := (isDisjointFrom_partial F A B hA hB nA nB).mp hd
  have hrA : Room A.lo.w A.hi.w A.lc A.rc := by obtain ⟨x, hx⟩ := nA; exact room_of_btw hx
  have hrB : Room B.lo.w B.hi.w B.lc B.rc := by obtain ⟨x, hx⟩ := nB; exact room_of_btw hx
  have hd := (disjoint_iff hrA hrB).mp h
  have hb := (before_iff hA hB).mp hb
  intro x y hx hy
  clear h nA nB
  unfold Mem at hx hy
  unfold Room at *
  revert hx hy hrA hrB hd hb
  generalize A.lo.w = a; generalize B.lo.w = b; generalize A.hi.w = c; generalize B.hi.w = d
  cases A.lc <;> cases A.rc <;> cases B.lc <;> cases B.rc <;> grind

theorem hull_before (hA : A.Ok F) (hB : B.Ok F) {C : Interval} (hC : C.Ok F)
    (h1 : before F B A = false) (h2 : before F C A = false) (h3 : before F C B = false) :
    before F C (hull F A B) = false := by
  rw [before_iff (hull_ok hA hB) hC]
  rw [before_iff hA hB] at h1; rw [before_iff hA hC] at h2; rw [before_iff hB hC] at h3
  unfold hull
  simp only [ite_bool_iff (lt_iff hA.1 hB.1), ite_bool_iff (lt_iff hB.1 hA.1), (smin_w hA.1 hB.1).1]
  revert h1 h2 h3
  generalize A.lo.w = a; generalize B.lo.w = b; generalize C.lo.w = c
  cases A.lc <;> cases B.lc <;> cases C.lc <;> grind

theorem sweep_below (F : Fmt) (l : List Interval) : ∀ (cur : Interval), cur.Ok F → (∃ x, Mem x cur) →
    (∀ B ∈ l, B.Ok F ∧ ∃ x, Mem x B) →
    (∀ B ∈ l, before F B cur = false) → l.Pairwise (fun A B => before F B A = false) →
    (sweep F cur l).Pairwise Below ∧
    ∀ D, (∀ x, Mem x cur → ∀ y, Mem y D → y < x) → (∀ B ∈ l, Below D B) → ∀ I ∈ sweep F cur l, Below D I := by
  induction l with
  | nil => intro cur _ _ _ _ _
           refine ⟨by simp [sweep], fun D h _ I hI => ?_⟩
           simp only [sweep, List.mem_singleton] at hI
           subst hI; exact fun x y hx hy => h y hy x hx
  | cons B l ih =>
    intro cur hc nc hl hs hp
    have hB := hl B (by simp)
    have hl' : ∀ B ∈ l, B.Ok F ∧ ∃ x, Mem x B := fun C hC => hl C (by simp [hC])
    have hp' := List.pairwise_cons.mp hp
    unfold sweep
    by_cases hd : isDisjointFrom F cur B = true
    · simp only [hd, Bool.not_true, Bool.false_eq_true, if_false]
      obtain ⟨i1, i2⟩ := ih B hB.1 hB.2 hl' hp'.1 hp'.2
      have hbel := below_of_disjoint hc hB.1 nc hB.2 (hs B (by simp)) hd
      refine ⟨List.pairwise_cons.mpr ⟨i2 cur (fun x hx y hy => hbel y x hy hx) (fun C hC => ?_), i1⟩,
        fun D hD hDl I hI => ?_⟩
      · -- members of C are above some member of B ... B starts no later than C
        intro x y hx hy
        have hCok := hl' C hC
        by_cases hdc : isDisjointFrom F cur C = true
        · exact below_of_disjoint hc hCok.1 nc hCok.2 (hs C (by simp [hC])) hdc x y hx hy
        · exfalso
          have hcm : ¬ ∀ x, ¬ (Mem x cur ∧ Mem x C) := by
            rw [← isDisjointFrom_partial F cur C hc hCok.1 nc hCok.2]; exact hdc
          push Not at hcm
          obtain ⟨z, hz1, hz2⟩ := hcm
          have hbc := (before_iff hB.1 hCok.1).mp (hp'.1 C hC)
          -- pick a member of B at or below z
          have hrB : Room B.lo.w B.hi.w B.lc B.rc := by
            obtain ⟨x, hx⟩ := hB.2; exact room_of_btw hx
          have hz3 : B.lo.w < z ∨ (B.lo.w = z ∧ B.lc = true) := by
            have := hz2.1
            revert this hbc
            generalize B.lo.w = b; generalize C.lo.w = c
            cases B.lc <;> cases C.lc <;> grind
          have : ∃ w, Mem w B ∧ w ≤ z := by
            rcases hz3 with h | ⟨h, hlc⟩
            · obtain ⟨w, hw, hw2⟩ := near_lo hrB h
              exact ⟨w, hw, hw2.le⟩
            · refine ⟨B.lo.w, ?_, h.le⟩
              unfold Mem; unfold Room at hrB
              rw [hlc] at hrB ⊢
              revert hrB
              cases B.rc <;> grind
          obtain ⟨w, hw, hw2⟩ := this
          exact absurd (hbel z w hz1 hw) (not_lt.mpr hw2)
      · rcases List.mem_cons.mp hI with rfl | hI
        · exact fun x y hx hy => hD y hy x hx
        · exact i2 D (fun x hx y hy => (hDl B (by simp)) y x hy hx) (fun C hC => hDl C (by simp [hC])) I hI
    · have hd' : isDisjointFrom F cur B = false := by simpa using hd
      have hm := hull_mem hc hB.1 nc hB.2 hd'
      simp only [hd', Bool.not_false, if_true]
      obtain ⟨i1, i2⟩ := ih (hull F cur B) (hull_ok hc hB.1) (by
        obtain ⟨y, hy⟩ := nc; exact ⟨y, (hm y).mpr (.inl hy)⟩) hl'
        (fun C hC => hull_before hc hB.1 (hl' C hC).1 (hs B (by simp)) (hs C (by simp [hC])) (hp'.1 C hC)) hp'.2
      refine ⟨i1, fun D hD hDl => i2 D (fun x hx y hy => ?_) (fun C hC => hDl C (by simp [hC]))⟩
      rcases (hm x).mp hx with h | h
      · exact hD x h y hy
      · exact (hDl B (by simp)) y x hy h

/-- C43: the intervals returned by `unionMulti` come in ascending order and share no point, when
`std::sort` delivers a sorted vector. -/
theorem unionMulti_disjoint (F : Fmt) (srt : List Interval)
    (hs : srt.Pairwise (fun A B => before F B A = false))
    (h : ∀ A ∈ srt, A.Ok F ∧ ∃ x, Mem x A) : (unionMulti F srt).Pairwise Below := by
  cases srt with
  | nil => simp [unionMulti]
  | cons A l =>
    have hp := List.pairwise_cons.mp hs
    exact (sweep_below F l A (h A (by simp)).1 (h A (by simp)).2 (fun B hB => h B (by simp [hB]))
      hp.1 hp.2).1

example : unionMulti exact [⟨.int 0, .int 2, true, true⟩, ⟨.int 1, .int 3, true, false⟩,
    ⟨.int 5, .int 6, false, true⟩] =
    [⟨.int 0, .int 3, true, false⟩, ⟨.int 5, .int 6, false, true⟩] := by
  decide

/-- C43, where it fails: an empty interval among the inputs is glued to its neighbour, so the
result contains points of no input: `unionMulti {∅, [5,6]} = {(1,6]}`. -/
theorem unionMulti_violated (F : Fmt) :
    unionMulti F [emptyI, ⟨.int 5, .int 6, true, true⟩] = [⟨.int 1, .int 6, false, true⟩] ∧
    before F ⟨.int 5, .int 6, true, true⟩ emptyI = false ∧
    Mem (fin 3) ⟨.int 1, .int 6, false, true⟩ ∧
    ¬ ∃ I ∈ [emptyI, (⟨.int 5, .int 6, true, true⟩ : Interval)], Mem (fin 3) I := by
  refine ⟨rfl, rfl, ?_, ?_⟩
  · simp only [Mem, Number.w, if_true, if_false, fin_le, fin_lt, Bool.false_eq_true]; norm_num
  · simp only [List.mem_cons, List.not_mem_nil, or_false, exists_eq_or_imp, exists_eq_left, not_or]
    refine ⟨emptyI_not_mem _, ?_⟩
    simp only [Mem, Number.w, if_true, fin_le]; norm_num

theorem ok_of_ite_not {b : Bool} : (b = false) ↔ ¬ (b = true) := by simp

/-- C43: `difference` is set difference when the intervals are disjoint, or overlap without one
containing the other.  Missing: nested intervals, see `difference_violated`. -/
theorem difference_partial (F : Fmt) (A B : Interval) (hA : A.Ok F) (hB : B.Ok F)
    (nA : ∃ x, Mem x A) (nB : ∃ x, Mem x B)
    (h1 : ¬ ∀ x, Mem x A → Mem x B) (h2 : ¬ ∀ x, Mem x B → Mem x A) (x : EQ) :
    (∃ I ∈ difference F A B, Mem x I) ↔ Mem x A ∧ ¬ Mem x B := by
  have hd := isDisjointFrom_partial F A B hA hB nA nB
  unfold difference
  by_cases hdd : isDisjointFrom F A B = true
  · have hdd' := hd.mp hdd
    simp only [hdd, if_true, List.mem_singleton, exists_eq_left]
    exact ⟨fun h => ⟨h, fun h' => hdd' x ⟨h, h'⟩⟩, fun h => h.1⟩
  have e1 : isSupersetOf F A B = false := by
    rw [ok_of_ite_not, isSupersetOf_partial F A B hA hB nB]; exact h2
  have e2 : isSubsetOf F A B = false := by
    rw [ok_of_ite_not, isSubsetOf_exact F A B hA hB]; exact h1
  have hrA : Room A.lo.w A.hi.w A.lc A.rc := by obtain ⟨x, hx⟩ := nA; exact room_of_btw hx
  have hrB : Room B.lo.w B.hi.w B.lc B.rc := by obtain ⟨x, hx⟩ := nB; exact room_of_btw hx
  have h1' := (not_congr (subset_iff (lo' := B.lo.w) (hi' := B.hi.w) (lc' := B.lc) (rc' := B.rc) hrA)).mp h1
  have h2' := (not_congr (subset_iff (lo' := A.lo.w) (hi' := A.hi.w) (lc' := A.lc) (rc' := A.rc) hrB)).mp h2
  have h3' := (not_congr (disjoint_iff hrA hrB)).mp (fun h => hdd (hd.mpr h))
  simp only [hdd, e1, e2, if_false, Bool.false_eq_true]
  have c1 : ((le F B.lo A.lo || (eq F B.lo A.lo && (B.lc || !A.lc))) &&
          (lt F B.hi A.hi || (eq F B.hi A.hi && !B.rc && A.rc))) = true ↔
      (B.lo.w ≤ A.lo.w ∨ (B.lo.w = A.lo.w ∧ (B.lc = true ∨ A.lc = false))) ∧
      (B.hi.w < A.hi.w ∨ ((B.hi.w = A.hi.w ∧ B.rc = false) ∧ A.rc = true)) := by
    simp only [Bool.and_eq_true, Bool.or_eq_true, Bool.not_eq_true', le_iff hB.1 hA.1,
      eq_iff hB.1 hA.1, lt_iff hB.2 hA.2, eq_iff hB.2 hA.2]
  have c2 : ((gt F B.lo A.lo || (eq F B.lo A.lo && !B.lc && A.lc)) &&
          (ge F B.hi A.hi || (eq F B.hi A.hi && (B.rc || !A.rc)))) = true ↔
      (A.lo.w < B.lo.w ∨ ((B.lo.w = A.lo.w ∧ B.lc = false) ∧ A.lc = true)) ∧
      (A.hi.w ≤ B.hi.w ∨ (B.hi.w = A.hi.w ∧ (B.rc = true ∨ A.rc = false))) := by
    simp only [Bool.and_eq_true, Bool.or_eq_true, Bool.not_eq_true', gt_iff hB.1 hA.1,
      eq_iff hB.1 hA.1, ge_iff hB.2 hA.2, eq_iff hB.2 hA.2]
  simp only [ite_bool_iff c1, ite_bool_iff c2]
  clear c1 c2 e1 e2 hdd hd h1 h2 nA nB
  unfold Room at hrA hrB
  unfold Mem
  split
  · rename_i hc
    simp only [List.mem_singleton, exists_eq_left]
    revert h1' h2' h3' hrA hrB hc
    generalize A.lo.w = a; generalize B.lo.w = b; generalize A.hi.w = c; generalize B.hi.w = d
    cases A.lc <;> cases A.rc <;> cases B.lc <;> cases B.rc <;> simp <;> intros <;> grind
  · split
    · rename_i hn hc
      simp only [List.mem_singleton, exists_eq_left]
      revert h1' h2' h3' hrA hrB hc hn
      generalize A.lo.w = a; generalize B.lo.w = b; generalize A.hi.w = c; generalize B.hi.w = d
      cases A.lc <;> cases A.rc <;> cases B.lc <;> cases B.rc <;> simp <;> intros <;> grind
    · rename_i hn hc
      exfalso
      clear h3' hrA hrB
      revert h1' h2' hc hn
      generalize A.lo.w = a; generalize B.lo.w = b; generalize A.hi.w = c; generalize B.hi.w = d
      rcases lt_trichotomy a b with p | p | p <;> rcases lt_trichotomy c d with q | q | q <;>
        cases A.lc <;> cases A.rc <;> cases B.lc <;> cases B.rc <;> grind

example : difference exact ⟨.int 0, .int 5, true, true⟩ ⟨.int 3, .int 8, true, true⟩ =
    [⟨.int 0, .int 3, true, false⟩] := by decide

/-- C43, where it fails: `[0,10] \ [2,3]` is reported empty; and `[2,3) \ (0,3)`, which is empty, is
reported to contain 3. -/
theorem difference_violated (F : Fmt) :
    difference F ⟨.int 0, .int 10, true, true⟩ ⟨.int 2, .int 3, true, true⟩ = [] ∧
    (Mem (fin 5) ⟨.int 0, .int 10, true, true⟩ ∧ ¬ Mem (fin 5) ⟨.int 2, .int 3, true, true⟩) ∧
    (∃ I ∈ difference F ⟨.int 2, .int 3, true, false⟩ ⟨.int 0, .int 3, false, false⟩, Mem (fin 3) I) ∧
    ¬ Mem (fin 3) ⟨.int 2, .int 3, true, false⟩ := by
  refine ⟨rfl, ?_, ⟨⟨.int 3, .int 3, true, true⟩, ?_, ?_⟩, ?_⟩
  · simp only [Mem, Number.w, if_true, fin_le]; norm_num
  · have : difference F ⟨.int 2, .int 3, true, false⟩ ⟨.int 0, .int 3, false, false⟩ =
        [⟨.int 2, .int 0, true, true⟩, ⟨.int 3, .int 3, true, true⟩] := rfl
    rw [this]; simp
  · simp [Mem, Number.w]
  · simp [Mem, Number.w]

/-- C43: the interval order `<` (`>`) holds iff every point of the first is below (above) every point
of the second; `<=`, `>=` are the negations; empty operands throw. -/
theorem interval_compare_exact (F : Fmt) (A B : Interval) (hA : A.Ok F) (hB : B.Ok F)
    (nA : ∃ x, Mem x A) (nB : ∃ x, Mem x B) :
    ∃ l g : Bool, ltI F A B = .ok l ∧ gtI F A B = .ok g ∧ leI F A B = .ok (!g) ∧ geI F A B = .ok (!l) ∧
    (l = true ↔ ∀ x y, Mem x A → Mem y B → x < y) ∧ (g = true ↔ ∀ x y, Mem x A → Mem y B → y < x) := by
  have hrA : Room A.lo.w A.hi.w A.lc A.rc := by obtain ⟨x, hx⟩ := nA; exact room_of_btw hx
  have hrB : Room B.lo.w B.hi.w B.lc B.rc := by obtain ⟨x, hx⟩ := nB; exact room_of_btw hx
  have e1 := (isEmpty_room hA).mpr hrA
  have e2 := (isEmpty_room hB).mpr hrB
  have key : ∀ (C D : Interval), C.Ok F → D.Ok F → Room C.lo.w C.hi.w C.lc C.rc → Room D.lo.w D.hi.w D.lc D.rc →
      ((C.hi.w < D.lo.w ∨ (C.hi.w = D.lo.w ∧ (C.rc = false ∨ D.lc = false))) ↔
        ∀ x y, Mem x C → Mem y D → x < y) := by
    intro C D hC hD hrC hrD
    constructor
    · intro h x y hx hy
      unfold Mem at hx hy
      revert h hx hy
      generalize C.lo.w = a; generalize D.lo.w = b; generalize C.hi.w = c; generalize D.hi.w = d
      cases C.lc <;> cases C.rc <;> cases D.lc <;> cases D.rc <;> grind
    · intro h
      by_contra hc
      push Not at hc
      obtain ⟨h1, h2⟩ := hc
      rcases lt_or_eq_of_le h1 with h3 | h3
      · obtain ⟨m, hm1, hm2⟩ := exists_between h3
        obtain ⟨x, hx, hx2⟩ := near_hi hrC hm2
        obtain ⟨y, hy, hy2⟩ := near_lo hrD hm1
        have := h x y hx hy
        order
      · obtain ⟨h4, h5⟩ := h2 h3.symm
        have hx : Mem C.hi.w C := by
          unfold Mem; unfold Room at hrC
          revert hrC h4
          cases C.lc <;> cases C.rc <;> grind
        have hy : Mem D.lo.w D := by
          unfold Mem; unfold Room at hrD
          revert hrD h5
          cases D.lc <;> cases D.rc <;> grind
        have := h _ _ hx hy
        order
  refine ⟨lt F A.hi B.lo || (eq F A.hi B.lo && (!A.rc || !B.lc)),
    gt F A.lo B.hi || (eq F A.lo B.hi && (!A.lc || !B.rc)), by simp only [ltI, e1, e2, Bool.or_self, Bool.false_eq_true, if_false],
    by simp only [gtI, e1, e2, Bool.or_self, Bool.false_eq_true, if_false],
    by simp only [leI, gtI, e1, e2, Bool.or_self, Bool.false_eq_true, if_false]; rfl,
    by simp only [geI, ltI, e1, e2, Bool.or_self, Bool.false_eq_true, if_false]; rfl, ?_, ?_⟩
  · rw [← key A B hA hB hrA hrB]
    simp only [Bool.or_eq_true, Bool.and_eq_true, Bool.not_eq_true', lt_iff hA.2 hB.1, eq_iff hA.2 hB.1]
  · rw [show (∀ x y, Mem x A → Mem y B → y < x) ↔ ∀ x y, Mem x B → Mem y A → x < y from
      ⟨fun h x y hx hy => h y x hy hx, fun h x y hx hy => h y x hy hx⟩, ← key B A hB hA hrB hrA]
    simp only [Bool.or_eq_true, Bool.and_eq_true, Bool.not_eq_true', gt_iff hA.1 hB.2, eq_iff hA.1 hB.2]
    grind

end Interval
end SMT.Num
