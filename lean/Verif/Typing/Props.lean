import Verif.Typing.Spec

/-! # Well-sorted operands are accepted, and the node has the right sort (C55) -/

set_option linter.unusedSimpArgs false
set_option linter.unusedVariables false

namespace SMT.Typing
open SMT SMT.Kinds SMT.Sorts

theorem eqS_rep {a b : Srt} {t : Ty} (ha : Rep false a t) (hb : Rep false b t) : eqS a b = true := by
  cases ha <;> cases hb <;>
    simp_all [eqS, Srt.kind, Srt.name, Srt.arity, BOOL_SORT, INT_SORT, INTOREAL_SORT, REAL_SORT, STR_SORT, REG_SORT, ROUNDING_MODE_SORT,
      bvSort, fpSort, arraySort, decSort, childArity, Srt.children, Sorts.width]

/-- the kinds of the sort objects of a sort -/
theorem rep_kind {r a t} (h : Rep r a t) :
    (t = .bool → a = BOOL_SORT) ∧ (t = .int → a = INT_SORT ∨ a = INTOREAL_SORT) ∧ (t = .str → a = STR_SORT) ∧
    (t = .re → a = REG_SORT) ∧ (t = .rm → a = ROUNDING_MODE_SORT) ∧ (∀ w, t = .bv w → a = bvSort w) ∧
    (∀ e s, t = .fp e s → ∃ n, a = fpSort n e s) ∧
    (∀ i e, t = .arr i e → ∃ x y, a = arraySort x y ∧ Rep r x i ∧ Rep r y e) ∧
    (t = .real → a = REAL_SORT ∨ (r = true ∧ a = INTOREAL_SORT)) := by
  cases h <;> simp_all
  case fp n e s => exact ⟨n, rfl⟩
  case arr i e ti te hi he => exact ⟨i, e, rfl, hi, he⟩

theorem rep_num {s t} (h : Rep false s t) :
    (s.kind = .REAL → t = .real) ∧ (s.kind = .INT ∨ s.kind = .INTOREAL → t = .int) := by
  cases h <;> simp_all [Srt.kind, BOOL_SORT, INT_SORT, INTOREAL_SORT, REAL_SORT, STR_SORT, REG_SORT, ROUNDING_MODE_SORT,
          bvSort, fpSort, arraySort, decSort]

theorem repL_one {r as g} (h : RepL r as [g]) : ∃ a, as = [a] ∧ RepA r a g := by
  cases h with | cons h1 h2 => cases h2; exact ⟨_, rfl, h1⟩

theorem repL_two {r as g g'} (h : RepL r as [g, g']) : ∃ a b, as = [a, b] ∧ RepA r a g ∧ RepA r b g' := by
  cases h with | cons h1 h2 => obtain ⟨b, rfl, hb⟩ := repL_one h2; exact ⟨_, b, rfl, h1, hb⟩

theorem repL_three {r as g g' g''} (h : RepL r as [g, g', g'']) :
    ∃ a b c, as = [a, b, c] ∧ RepA r a g ∧ RepA r b g' ∧ RepA r c g'' := by
  cases h with | cons h1 h2 => obtain ⟨b, c, rfl, hb⟩ := repL_two h2; exact ⟨_, b, c, rfl, h1, hb⟩

theorem repL_four {r as g g' g'' g'''} (h : RepL r as [g, g', g'', g''']) :
    ∃ a b c d, as = [a, b, c, d] ∧ RepA r a g ∧ RepA r b g' ∧ RepA r c g'' ∧ RepA r d g''' := by
  cases h with | cons h1 h2 => obtain ⟨b, c, d, rfl, hb⟩ := repL_three h2; exact ⟨_, b, c, d, rfl, h1, hb⟩

theorem repL_rep {r g} : ∀ {n as}, RepL r as (List.replicate n g) → as.length = n ∧ ∀ a ∈ as, RepA r a g := by
  intro n
  induction n with
  | zero => intro as h; cases h; simp
  | succ n ih =>
    intro as h
    rw [List.replicate_succ] at h
    cases h with
    | cons h1 h2 =>
      obtain ⟨hl, hm⟩ := ih h2
      refine ⟨by simp [hl], fun a ha => ?_⟩
      rcases List.mem_cons.1 ha with rfl | ha
      · exact h1
      · exact hm a ha

theorem two_le {as : List A} (h : 2 ≤ as.length) : ∃ a b l, as = a :: b :: l := by
  match as, h with
  | a :: b :: l, _ => exact ⟨a, b, l, rfl⟩

/-! ## the common sort -/

theorem repA_t {r a ty} (h : RepA r a (.t ty)) :
    Rep r a.srt ty ∧ (a.tru = true ∨ a.fls = true → ty = .bool) ∧ (a.zero = true ∨ a.one = true → ty = .int ∨ ty = .real) := by
  cases h with | t h1 h2 h3 => exact ⟨h1, h2, h3⟩

theorem repA_n {r a i} (h : RepA r a (.n i)) : a.srt = INTOREAL_SORT ∧ a.cst = true ∧ a.int = i ∧ i < 2 ^ 64 := by
  cases h with | n h1 h2 h3 h4 _ _ => exact ⟨h1, h2, h3, h4⟩

/-- the common sort of operands of one sort: missing, or a sort object of that sort -/
theorem getSort_rep {as : List A} {t : Ty} (h : ∀ a ∈ as, RepA false a (.t t)) :
    ∀ s, getSort as = some s → Rep false s t := by
  intro s hs
  match as, h, hs with
  | a :: l, h, hs =>
    have ha := (repA_t (h a List.mem_cons_self)).1
    simp only [getSort] at hs
    split at hs
    · rename_i hk
      split at hs
      · rename_i hr
        obtain ⟨x, hx, hxr⟩ := List.any_eq_true.1 hr
        obtain rfl : REAL_SORT = s := by simpa using hs
        obtain rfl := (rep_num (repA_t (h x hx)).1).1 (by simpa using hxr)
        exact .real
      · rename_i hr
        obtain rfl : INT_SORT = s := by simpa using hs
        simp at hr
        obtain rfl := (rep_num ha).2 (by
          simp only [Bool.or_eq_true, beq_iff_eq] at hk
          rcases hk with (hk | hk) | hk
          · exact .inl hk
          · exact absurd hk hr.1
          · exact .inr hk)
        exact .int
    · cases hf : List.find? (fun x => !x.cst) (a :: l) with
      | none => rw [hf] at hs; cases hs
      | some x =>
        rw [hf] at hs
        have hm : x ∈ a :: l := List.mem_of_find?_eq_some hf
        obtain rfl : x.srt = s := by simpa using hs
        exact (repA_t (h x hm)).1

/-- numbers have a common sort -/
theorem getSort_num {a : A} {as : List A} {t : Ty} (h : RepA false a (.t t)) (ht : t = .int ∨ t = .real) :
    ∃ s, getSort (a :: as) = some s := by
  have ha := (repA_t h).1
  have : a.srt.kind = .INT ∨ a.srt.kind = .REAL ∨ a.srt.kind = .INTOREAL := by
    rcases ht with rfl | rfl
    · rcases (rep_kind ha).2.1 rfl with e | e <;> rw [e] <;> simp [INT_SORT, INTOREAL_SORT, Srt.kind]
    · rcases (rep_kind ha).2.2.2.2.2.2.2.2 rfl with e | ⟨e, _⟩
      · rw [e]; simp [REAL_SORT, Srt.kind]
      · cases e
  simp only [getSort]
  rw [if_pos (by rcases this with e | e | e <;> simp [e])]
  split <;> exact ⟨_, rfl⟩

theorem comparable_rep {a b : Srt} {t : Ty} (ha : Rep false a t) (hb : Rep false b t) : comparable a b = true := by
  simp [comparable, eqS_rep ha hb]

theorem allComparable_rep {as bs : List A} {t : Ty} (h : ∀ a ∈ as, RepA false a (.t t)) (hb : ∀ a ∈ bs, RepA false a (.t t)) :
    allComparable (getSort as) bs = true := by
  unfold allComparable
  cases hs : getSort as with
  | none => rfl
  | some s =>
    simp only [List.all_eq_true]
    intro b hb'
    exact comparable_rep (repA_t (hb b hb')).1 (getSort_rep h s hs)

theorem neighbours_rep {t : Ty} : ∀ {as : List A}, (∀ a ∈ as, RepA false a (.t t)) → neighbours as = true
  | [], _ => rfl
  | [_], _ => rfl
  | a :: b :: l, h => by
    simp only [neighbours, Bool.and_eq_true]
    exact ⟨comparable_rep (repA_t (h a (by simp))).1 (repA_t (h b (by simp))).1, neighbours_rep (fun x hx => h x (List.mem_cons_of_mem _ hx))⟩

/-- what the tests say about an operand of a sort -/
def Facts (a : A) : Ty → Prop
  | .bool => isBool a = true ∧ a.srt = BOOL_SORT
  | .int => isInt a = true ∧ (a.srt = INT_SORT ∨ a.srt = INTOREAL_SORT)
  | .real => isReal a = true ∧ a.srt = REAL_SORT
  | .str => isStr a = true ∧ a.srt = STR_SORT
  | .re => isReg a = true ∧ a.srt = REG_SORT
  | .rm => isRm a = true
  | .bv w => isBv a = true ∧ a.srt = bvSort w ∧ width a = w
  | .fp e s => isFp a = true ∧ ∃ n, a.srt = fpSort n e s
  | .arr i e => isArray a = true ∧ ∃ x y, a.srt = arraySort x y ∧ Rep false x i ∧ Rep false y e
  | .user _ _ => True

theorem facts {a ty} (h : RepA false a (.t ty)) : Facts a ty := by
  have hr := (repA_t h).1
  have k := rep_kind hr
  cases ty with
  | bool => exact ⟨by simp [isBool, k.1 rfl, BOOL_SORT, Srt.kind], k.1 rfl⟩
  | int => exact ⟨by rcases k.2.1 rfl with e | e <;> simp [isInt, e, INT_SORT, INTOREAL_SORT, Srt.kind], k.2.1 rfl⟩
  | real =>
    have : a.srt = REAL_SORT := by
      rcases k.2.2.2.2.2.2.2.2 rfl with e | e
      · exact e
      · cases e.1
    exact ⟨by simp [isReal, this, REAL_SORT, Srt.kind], this⟩
  | str => exact ⟨by simp [isStr, k.2.2.1 rfl, STR_SORT, Srt.kind], k.2.2.1 rfl⟩
  | re => exact ⟨by simp [isReg, k.2.2.2.1 rfl, REG_SORT, Srt.kind], k.2.2.2.1 rfl⟩
  | rm => simp [Facts, isRm, k.2.2.2.2.1 rfl, ROUNDING_MODE_SORT, Srt.kind]
  | bv w =>
    have := k.2.2.2.2.2.1 w rfl
    exact ⟨by simp [isBv, this, bvSort, Srt.kind], this, by simp [width, this, bvSort, childArity, Srt.children, Sorts.width, Srt.arity]⟩
  | fp e s =>
    obtain ⟨n, hn⟩ := k.2.2.2.2.2.2.1 e s rfl
    exact ⟨by simp [isFp, hn, fpSort, Srt.kind], n, hn⟩
  | arr i e =>
    obtain ⟨x, y, hx, h1, h2⟩ := k.2.2.2.2.2.2.2.1 i e rfl
    exact ⟨by simp [isArray, hx, arraySort, Srt.kind], x, y, hx, h1, h2⟩
  | user n a => trivial

theorem int_n {r a i} (h : RepA r a (.n i)) : isInt a = true := by
  simp [isInt, (repA_n h).1, INTOREAL_SORT, Srt.kind]

theorem cmpReal : comparable REAL_SORT REAL_SORT = true := by rfl

/-- operators with one signature -/
theorem complete_one {L k ts t as} (h : sig k = some (ts, t)) (hr : RepL false as (ts.map .t)) (hc : k ≠ .CEIL) :
    ∃ s, typ L k as = .ok s ∧ Rep false s t := by
  cases k <;> simp only [sig, Option.some.injEq, Prod.mk.injEq, reduceCtorEq, ne_eq, not_true] at h hc <;>
    (obtain ⟨rfl, rfl⟩ := h; simp only [List.map_cons, List.map_nil] at hr) <;>
    first
    | (obtain ⟨a, rfl, ha⟩ := repL_one hr
       have fa := facts ha
       simp only [Facts] at fa
       refine ⟨_, by simp [typ, chkN, chk1, req, fa]; rfl, ?_⟩
       first
       | exact (repA_t ha).1
       | constructor)
    | (obtain ⟨a, b, rfl, ha, hb⟩ := repL_two hr
       have fa := facts ha
       have fb := facts hb
       simp only [Facts] at fa fb
       refine ⟨_, by simp [typ, chkN, chk2, req, fa, fb, cmpReal]; rfl, ?_⟩
       first
       | exact (repA_t ha).1
       | exact .arr .int .str
       | constructor)
    | (obtain ⟨a, b, c, rfl, ha, hb, hc⟩ := repL_three hr
       have fa := facts ha
       have fb := facts hb
       have fc := facts hc
       simp only [Facts] at fa fb fc
       refine ⟨_, by simp [typ, chkN, chk3, req, fa, fb, fc]; rfl, ?_⟩
       first
       | exact (repA_t ha).1
       | constructor)

theorem kept_rep {as : List A} {t : Ty} (h : ∀ a ∈ as, RepA false a (.t t)) (hb : as.length = 1 → t = .bool) :
    ∃ s, kept as = .ok s ∧ Rep false s .bool := by
  match as, h, hb with
  | [], _, _ => exact ⟨_, rfl, .bool⟩
  | [a], h, hb =>
    have := (repA_t (h a (by simp))).1
    rw [hb rfl] at this
    exact ⟨_, rfl, this⟩
  | a :: b :: l, _, _ => exact ⟨_, rfl, .bool⟩

theorem filter_one {as : List A} {p : A → Bool} (h2 : 2 ≤ as.length) (h1 : (as.filter p).length = 1) : ∃ a ∈ as, p a = false := by
  refine Classical.byContradiction fun h => ?_
  have : as.filter p = as := List.filter_eq_self.2 (fun a ha => by
    cases e : p a with
    | true => rfl
    | false => exact absurd ⟨a, ha, e⟩ h)
  rw [this] at h1
  omega

theorem junct_rep {as : List A} {d : A → Bool} (h : ∀ a ∈ as, RepA false a (.t .bool)) : junct d as = .ok BOOL_SORT := by
  induction as with
  | nil => rfl
  | cons a l ih =>
    have fa := facts (h a (by simp))
    simp only [Facts] at fa
    simp only [junct, fa.1, if_true]
    split
    · rfl
    · exact ih (fun x hx => h x (List.mem_cons_of_mem _ hx))

theorem all_rep {p : A → Bool} {as : List A} {t : Ty} (h : ∀ a ∈ as, RepA false a (.t t)) (hp : ∀ a, Facts a t → p a = true) :
    as.all p = true := List.all_eq_true.2 fun a ha => hp a (facts (h a ha))

/-- operators of two or more operands of one sort -/
theorem complete_many {L k s t n as} (h : many k = some (s, t)) (hn : 2 ≤ n) (hr : RepL false as (List.replicate n (.t s))) :
    ∃ s, typ L k as = .ok s ∧ Rep false s t := by
  obtain ⟨rfl, hm⟩ := repL_rep hr
  obtain ⟨a, b, l, rfl⟩ := two_le hn
  cases k <;> simp only [many, Option.some.injEq, Prod.mk.injEq, reduceCtorEq] at h <;> obtain ⟨rfl, rfl⟩ := h
  case AND => exact ⟨_, by simp only [typ, chkN, junct_rep hm], .bool⟩
  case OR => exact ⟨_, by simp only [typ, chkN, junct_rep hm], .bool⟩
  case XOR =>
    simp only [typ, chkN]
    exact kept_rep (fun x hx => hm x ((List.mem_filter.1 hx).1)) (fun _ => rfl)
  case IMPLIES =>
    simp only [typ, chkN]
    have hrev : ∀ x ∈ (a :: b :: l).reverse, RepA false x (.t .bool) := fun x hx => hm x (List.mem_reverse.1 hx)
    have hlen : (a :: b :: l).reverse.length = l.length + 2 := by simp
    generalize (a :: b :: l).reverse = rv at hrev hlen ⊢
    match rv, hrev, hlen with
    | z :: y :: ps, hrev, _ =>
      simp only
      split
      · exact ⟨_, rfl, (repA_t (hrev z (by simp))).1⟩
      · exact ⟨_, rfl, .bool⟩
  case IAND =>
    obtain ⟨s, hs⟩ := getSort_num (as := b :: l) (hm a (by simp)) (.inl rfl)
    have hc := allComparable_rep hm hm
    rw [hs] at hc
    refine ⟨s, ?_, getSort_rep hm s hs⟩
    simp only [typ, chkN, hc, if_true, hs, orLogic]
  case STR_CONCAT =>
    have := all_rep (p := isStr) hm (fun a h => h.1)
    exact ⟨_, by simp only [typ, chkN, uniform, this, req, if_true], .str⟩
  all_goals
    have := all_rep (p := isReg) hm (fun a h => h.1)
    exact ⟨_, by simp only [typ, chkN, uniform, this, req, if_true], .re⟩

/-- sums, products and differences: what the logic must be like.  A product with a literal zero, a sum of literal zeros and a product of
literal ones get the sort from the logic, so integers need an integer logic and reals a real one. -/
def LogicFits (L : Logic) (k : K) (t : Ty) : Prop :=
  k = .ADD ∨ k = .MUL → (t = .int → L.int = true ∧ L.real = false) ∧ (t = .real → L.real = true ∧ L.int = false)

theorem rest_rep {c d : Res Srt} {as : List A} {t : Ty} (h : ∀ a ∈ as, RepA false a (.t t))
    (hc : ∃ s, c = .ok s ∧ Rep false s t) (hd : ∃ s, d = .ok s ∧ Rep false s t) : ∃ s, rest c d as = .ok s ∧ Rep false s t := by
  match as, h with
  | [], _ => exact hc
  | [a], h => exact ⟨_, rfl, (repA_t (h a (by simp))).1⟩
  | a :: b :: l, _ => exact hd

theorem mulGo_rep {L : Logic} {s0 : Srt} {t : Ty} (hs : Rep false s0 t)
    (ht : (t = .int ∧ L.int = true ∧ L.real = false) ∨ (t = .real ∧ L.real = true ∧ L.int = false)) :
    ∀ (as acc : List A), (∀ a ∈ as, RepA false a (.t t)) → (∀ a ∈ acc, RepA false a (.t t)) →
      ∃ s, mulGo L (some s0) as acc = .ok s ∧ Rep false s t := by
  intro as
  induction as with
  | cons a l ih =>
    intro acc h hacc
    have ha := h a (by simp)
    have hl : ∀ x ∈ l, RepA false x (.t t) := fun x hx => h x (List.mem_cons_of_mem _ hx)
    have hcmp : allComparable (some s0) [a] = true := by simp [allComparable, comparable_rep (repA_t ha).1 hs]
    rw [mulGo]
    simp only [hcmp, if_true]
    split
    · rcases ht with ⟨rfl, h1, h2⟩ | ⟨rfl, h1, h2⟩
      · exact ⟨_, by rw [if_pos h1], .numeral⟩
      · exact ⟨_, by rw [if_neg (by simp [h2]), if_pos h1], .real⟩
    · split
      · exact ih acc hl hacc
      · refine ih _ hl (fun x hx => ?_)
        rcases List.mem_append.1 hx with hx | hx
        · exact hacc x hx
        · obtain rfl : x = a := by simpa using hx
          exact ha
  | nil =>
    intro acc _ hacc
    match acc, hacc with
    | [], _ =>
      rw [mulGo]
      rcases ht with ⟨rfl, h1, h2⟩ | ⟨rfl, h1, h2⟩
      · exact ⟨_, by rw [oneSort, if_pos h1], .numeral⟩
      · exact ⟨_, by rw [oneSort, if_neg (by simp [h2]), if_pos h1], .real⟩
    | [a], hacc => exact ⟨_, by rw [mulGo], (repA_t (hacc a (by simp))).1⟩
    | [a, b], hacc =>
      rw [mulGo]
      have ha := facts (hacc a (by simp))
      rcases ht with ⟨rfl, _⟩ | ⟨rfl, _⟩
      · split
        · exact ⟨_, rfl, .numeral⟩
        · split
          · rename_i h1 h2
            exfalso
            have hb := facts (hacc b (by simp))
            simp only [Facts] at ha hb
            simp_all [isCInt, isCReal]
          · exact ⟨_, rfl, hs⟩
      · split
        · rename_i h1
          exfalso
          simp only [Facts] at ha
          simp [isCInt, isInt, ha.2, REAL_SORT, Srt.kind] at h1
        · split
          · exact ⟨_, rfl, .real⟩
          · exact ⟨_, rfl, hs⟩
    | a :: b :: c :: l, _ => exact ⟨s0, by rw [mulGo] <;> simp [orLogic], hs⟩

theorem complete_arith {L k t n as} (hk : k = .ADD ∨ k = .MUL ∨ k = .SUB ∨ k = .MAX ∨ k = .MIN) (ht : t = .int ∨ t = .real) (hn : 2 ≤ n)
    (hr : RepL false as (List.replicate n (.t t))) (hL : LogicFits L k t) : ∃ s, typ L k as = .ok s ∧ Rep false s t := by
  obtain ⟨rfl, hm⟩ := repL_rep hr
  obtain ⟨a, b, l, rfl⟩ := two_le hn
  obtain ⟨s0, hs⟩ := getSort_num (as := b :: l) (hm a (by simp)) ht
  have hs0 := getSort_rep hm s0 hs
  have hc := allComparable_rep hm hm
  have hc' : allComparable (getSort (a :: b :: l)) (a :: b :: l).dropLast = true :=
    allComparable_rep hm (fun x hx => hm x (List.dropLast_subset _ hx))
  rw [hs] at hc hc'
  rcases hk with rfl | rfl | rfl | rfl | rfl
  · have hL' := hL (.inl rfl)
    simp only [typ, chkN, hc, if_true, hs, orLogic]
    refine rest_rep (fun x hx => hm x ((List.mem_filter.1 hx).1)) ?_ ⟨s0, rfl, hs0⟩
    rcases ht with rfl | rfl
    · exact ⟨_, by rw [zeroSort, if_neg (by simp [(hL'.1 rfl).2]), if_pos (hL'.1 rfl).1], .numeral⟩
    · exact ⟨_, by rw [zeroSort, if_pos (hL'.2 rfl).1], .real⟩
  · have hL' := hL (.inr rfl)
    simp only [typ, chkN, hs]
    refine mulGo_rep hs0 ?_ _ [] hm (by simp)
    rcases ht with rfl | rfl
    · exact .inl ⟨rfl, hL'.1 rfl⟩
    · exact .inr ⟨rfl, hL'.2 rfl⟩
  · match l, hm, hc, hs with
    | [], hm, hc, hs =>
      have fa := facts (hm a (by simp))
      have fb := facts (hm b (by simp))
      have ha := (repA_t (hm a (by simp))).1
      have hb := (repA_t (hm b (by simp))).1
      simp only [typ, chkN, hc, if_true, hs, orLogic, Res.ok_bind]
      rcases ht with rfl | rfl
      · have : s0.kind ≠ .REAL := fun e => by have := (rep_num hs0).1 e; cases this
        split
        · exact ⟨_, rfl, .numeral⟩
        · split
          · simp_all
          · split
            · exact ⟨_, rfl, hb⟩
            · split
              · exact ⟨_, rfl, ha⟩
              · exact ⟨_, rfl, hs0⟩
      · have : ¬ (s0.kind = .INT ∨ s0.kind = .INTOREAL) := fun e => by have := (rep_num hs0).2 e; cases this
        split
        · simp_all
        · split
          · exact ⟨_, rfl, .real⟩
          · split
            · exact ⟨_, rfl, hb⟩
            · split
              · exact ⟨_, rfl, ha⟩
              · exact ⟨_, rfl, hs0⟩
    | c :: l, hm, hc, hs => exact ⟨s0, by simp only [typ, chkN, hc, if_true, hs, orLogic], hs0⟩
  · exact ⟨s0, by simp only [typ, chkN, hc', if_true, hs], hs0⟩
  · exact ⟨s0, by simp only [typ, chkN, hc', if_true, hs], hs0⟩

end SMT.Typing
