import Verif.Typing.Props

/-! # Well-sorted operands are accepted: the remaining operators, and terms (C55) -/

set_option linter.unusedSimpArgs false
set_option linter.unusedVariables false

namespace SMT.Typing
open SMT SMT.Kinds SMT.Sorts

theorem complete_eq {L k t n as} (hk : k = .EQ ∨ k = .DISTINCT) (hn : 2 ≤ n) (hr : RepL false as (List.replicate n (.t t))) :
    ∃ s, typ L k as = .ok s ∧ Rep false s .bool := by
  obtain ⟨rfl, hm⟩ := repL_rep hr
  obtain ⟨a, b, l, rfl⟩ := two_le hn
  have hc := allComparable_rep hm hm
  have key : ∀ p : A → Bool, (∀ x, p x = false → x.tru = true ∨ x.fls = true) →
      ∃ s, kept ((a :: b :: l).filter p) = .ok s ∧ Rep false s .bool := by
    intro p hp
    refine kept_rep (fun x hx => hm x (List.mem_filter.1 hx).1) (fun h1 => ?_)
    obtain ⟨x, hx, hpx⟩ := filter_one hn h1
    exact (repA_t (hm x hx)).2.1 (hp x hpx)
  rcases hk with rfl | rfl
  · match l, hm, hc, key with
    | [], hm, hc, key =>
      exact ⟨_, by simp only [typ, chkN, req, comparable_rep (repA_t (hm a (by simp))).1 (repA_t (hm b (by simp))).1, if_true], .bool⟩
    | c :: l, hm, hc, key =>
      simp only [typ, chkN, hc, if_true]
      exact key _ (fun x h => by simp at h; exact .inl h)
  · simp only [typ, chkN, hc, if_true]
    exact key _ (fun x h => by simp at h; exact .inr h)

theorem complete_cmp {L k t n as} (hk : k = .LE ∨ k = .LT ∨ k = .GE ∨ k = .GT) (hn : 2 ≤ n)
    (hr : RepL false as (List.replicate n (.t t))) : ∃ s, typ L k as = .ok s ∧ Rep false s .bool := by
  obtain ⟨rfl, hm⟩ := repL_rep hr
  obtain ⟨a, b, l, rfl⟩ := two_le hn
  have hc' : allComparable (getSort (a :: b :: l)) (a :: b :: l).dropLast = true :=
    allComparable_rep hm (fun x hx => hm x (List.dropLast_subset _ hx))
  have hnb := neighbours_rep hm
  have h2 := comparable_rep (repA_t (hm a (by simp))).1 (repA_t (hm b (by simp))).1
  match l, hc', hnb with
  | [], _, _ =>
    refine ⟨BOOL_SORT, ?_, .bool⟩
    rcases hk with rfl | rfl | rfl | rfl <;> simp only [typ, chkN, chk2, req, h2, if_true]
  | c :: l, hc', hnb =>
    refine ⟨BOOL_SORT, ?_, .bool⟩
    rcases hk with rfl | rfl | rfl | rfl <;> simp only [typ, chkN, hc', hnb, Bool.and_self, if_true]

theorem family_rep {p : A → Bool} {two : A → A → Res Srt} {as : List A} {e : Res Srt} {t : Ty} (hm : ∀ a ∈ as, RepA false a (.t t))
    (hp : ∀ a, Facts a t → p a = true) (h2 : ∀ a b, RepA false a (.t t) → RepA false b (.t t) → ∃ s, two a b = .ok s ∧ Rep false s t)
    (hn : 2 ≤ as.length) : ∃ s, family p two as e = .ok s ∧ Rep false s t := by
  match as, hm, hn with
  | [a, b], hm, _ => exact h2 a b (hm a (by simp)) (hm b (by simp))
  | a :: b :: c :: l, hm, _ =>
    have hall := all_rep hm hp
    rw [family]
    · have : allOf p (getSort (a :: b :: c :: l)) (a :: b :: c :: l) = true := by
        unfold allOf
        split
        · exact hall
        · rfl
      rw [if_pos this]
      refine ⟨_, rfl, ?_⟩
      cases hs : getSort (a :: b :: c :: l) with
      | none => exact (repA_t (hm a (by simp))).1
      | some s => exact getSort_rep hm s hs
    · simp
    · simp

theorem complete_bvMany {L k w n as} (hk : bvMany k = true) (hn : 2 ≤ n) (hr : RepL false as (List.replicate n (.t (.bv w)))) :
    ∃ s, typ L k as = .ok s ∧ Rep false s (.bv w) := by
  obtain ⟨rfl, hm⟩ := repL_rep hr
  have h2 : ∀ a b, RepA false a (.t (.bv w)) → RepA false b (.t (.bv w)) → ∃ s, chk2 k a b = .ok s ∧ Rep false s (.bv w) := by
    intro a b ha hb
    have fa := facts ha
    have fb := facts hb
    simp only [Facts] at fa fb
    refine ⟨a.srt, ?_, (repA_t ha).1⟩
    cases k <;> simp only [bvMany, reduceCtorEq, Bool.false_eq_true] at hk <;> simp only [chk2, req, fa.1, fb.1, Bool.and_self, if_true]
  cases k <;> simp only [bvMany, reduceCtorEq, Bool.false_eq_true] at hk <;>
    (simp only [typ, chkN]; exact family_rep hm (fun a h => h.1) h2 hn)

theorem sum_foldl (l : List Nat) : ∀ n, l.foldl (· + ·) n = n + l.sum := by
  induction l with
  | nil => intro n; simp
  | cons a l ih => intro n; rw [List.foldl_cons, ih]; simp; omega

theorem concat_rep : ∀ {ws : List Nat} {as : List A}, RepL false as (ws.map fun w => .t (.bv w)) →
    as.length = ws.length ∧ as.all isBv = true ∧ as.map width = ws
  | [], as, h => by cases h; simp
  | w :: ws, as, h => by
    rw [List.map_cons] at h
    cases h with
    | cons h1 h2 =>
      obtain ⟨e1, e2, e3⟩ := concat_rep h2
      have f := facts h1
      simp only [Facts] at f
      simp [e1, e2, e3, f.1, f.2.2]

/-- the widths that the result can have: a `size_t` -/
def Fits64 : Ty → Prop
  | .bv w => w < 2 ^ 64
  | .fp e s => e < 2 ^ 64 ∧ s < 2 ^ 64
  | _ => True

/-- the operators whose nodes have the wrong sort, see the violations below -/
def WrongSort (k : K) : Prop := k = .CEIL ∨ k = .BV_ZERO_EXT ∨ k = .BV_SIGN_EXT

/-- **C55.**  Operands that SMT-LIB allows are accepted, and the new node has the sort that SMT-LIB gives it -- for every operator but the
three of `WrongSort`, for every number of operands, every width and every nesting of array sorts, whichever operands are constants.
Partial because of `WrongSort`, and because literal zeros and ones in sums and products take the sort of the logic (`LogicFits`). -/
theorem accepts_wellsorted_partial {L k gs t as} (h : HasSort k gs t) (hr : RepL false as gs) (hw : ¬ WrongSort k) (hL : LogicFits L k t)
    (h64 : Fits64 t) : ∃ s, typ L k as = .ok s ∧ Rep false s t := by
  cases h with
  | one h => exact complete_one h hr (fun e => hw (.inl e))
  | many h hn => exact complete_many h hn hr
  | eq hk hn => exact complete_eq hk hn hr
  | ite =>
    obtain ⟨a, b, c, rfl, ha, hb, hc⟩ := repL_three hr
    exact ⟨_, rfl, (repA_t hb).1⟩
  | arith hk ht hn => exact complete_arith hk ht hn hr hL
  | neg hk ht =>
    obtain ⟨a, rfl, ha⟩ := repL_one hr
    refine ⟨a.srt, ?_, (repA_t ha).1⟩
    have fa := facts ha
    rcases hk with rfl | rfl | rfl
    · rfl
    · rfl
    · rcases ht with rfl | rfl <;> simp only [Facts] at fa <;> simp [typ, chkN, chk1, req, fa.1]
  | pow ht =>
    obtain ⟨a, b, rfl, ha, hb⟩ := repL_two hr
    exact ⟨_, rfl, (repA_t ha).1⟩
  | cmp hk ht hn => exact complete_cmp hk hn hr
  | bvUn hk =>
    obtain ⟨a, rfl, ha⟩ := repL_one hr
    have fa := facts ha
    simp only [Facts] at fa
    refine ⟨a.srt, ?_, (repA_t ha).1⟩
    rcases hk with rfl | rfl <;> simp [typ, chkN, chk1, req, fa.1]
  | bvBin hk =>
    obtain ⟨a, b, rfl, ha, hb⟩ := repL_two hr
    have fa := facts ha
    have fb := facts hb
    simp only [Facts] at fa fb
    refine ⟨a.srt, ?_, (repA_t ha).1⟩
    cases k <;> simp only [bvBin, reduceCtorEq, Bool.false_eq_true] at hk <;> simp [typ, chkN, chk2, req, fa.1, fb.1]
  | bvMany hk hn => exact complete_bvMany hk hn hr
  | bvCmp hk =>
    obtain ⟨a, b, rfl, ha, hb⟩ := repL_two hr
    have fa := facts ha
    have fb := facts hb
    simp only [Facts] at fa fb
    refine ⟨BOOL_SORT, ?_, .bool⟩
    cases k <;> simp only [bvCmp, reduceCtorEq, Bool.false_eq_true] at hk <;> simp [typ, chkN, chk2, req, fa.1, fb.1]
  | bvComp =>
    obtain ⟨a, b, rfl, ha, hb⟩ := repL_two hr
    have fa := facts ha
    have fb := facts hb
    simp only [Facts] at fa fb
    exact ⟨_, by simp [typ, chkN, chk2, req, fa.1, fb.1], .bv 1⟩
  | concat hn =>
    obtain ⟨e1, e2, e3⟩ := concat_rep hr
    rw [← e1] at hn
    obtain ⟨a, b, l, rfl⟩ := two_le hn
    refine ⟨_, ?_, .bv _⟩
    simp only [typ, chkN, req, e2, if_true, e3, sum_foldl, wrap, Nat.zero_add]
    rw [Nat.mod_eq_of_lt h64]
  | @extract w i j hij hiw =>
    obtain ⟨a, b, c, rfl, ha, hb, hc⟩ := repL_three hr
    have fa := facts ha
    simp only [Facts] at fa
    have ib := repA_n hb
    have ic := repA_n hc
    refine ⟨_, ?_, .bv _⟩
    simp only [typ, chkN, chk3, req, fa.1, int_n hb, int_n hc, Bool.and_self, if_true, wrap, ib.2.2.1, ic.2.2.1]
    have : (i + 2 ^ 64 - j + 1) % 2 ^ 64 = i - j + 1 := by
      have e : i + 2 ^ 64 - j + 1 = (i - j + 1) + 2 ^ 64 := by omega
      have h64' : i - j + 1 < 2 ^ 64 := h64
      rw [e, Nat.add_mod_right, Nat.mod_eq_of_lt h64']
    rw [this]
  | «repeat» hi =>
    obtain ⟨a, b, rfl, ha, hb⟩ := repL_two hr
    have fa := facts ha
    simp only [Facts] at fa
    have ib := repA_n hb
    refine ⟨_, ?_, .bv _⟩
    simp only [typ, chkN, chk2, req, fa.1, fa.2.2, int_n hb, Bool.and_self, if_true, wrap, ib.2.2.1]
    rw [Nat.mod_eq_of_lt h64]
  | ext hk =>
    rcases hk with rfl | rfl
    · exact absurd (.inr (.inl rfl)) hw
    · exact absurd (.inr (.inr rfl)) hw
  | rotate hk =>
    obtain ⟨a, b, rfl, ha, hb⟩ := repL_two hr
    have fa := facts ha
    simp only [Facts] at fa
    refine ⟨_, ?_, .bv _⟩
    rcases hk with rfl | rfl <;>
      simp only [typ, chkN, chk2, req, fa.1, fa.2.2, int_n hb, Bool.and_self, if_true]
  | toNat hk =>
    obtain ⟨a, rfl, ha⟩ := repL_one hr
    have fa := facts ha
    simp only [Facts] at fa
    refine ⟨INT_SORT, ?_, .int⟩
    rcases hk with rfl | rfl <;> simp [typ, chkN, chk1, req, fa.1]
  | toBv hk =>
    obtain ⟨a, b, rfl, ha, hb⟩ := repL_two hr
    have fa := facts ha
    simp only [Facts] at fa
    have ib := repA_n hb
    refine ⟨_, ?_, .bv _⟩
    rcases hk with rfl | rfl <;> simp only [typ, chkN, chk2, req, fa.1, int_n hb, Bool.and_self, if_true, ib.2.2.1]
  | fpUn hk =>
    obtain ⟨a, rfl, ha⟩ := repL_one hr
    have fa := facts ha
    simp only [Facts] at fa
    refine ⟨a.srt, ?_, (repA_t ha).1⟩
    rcases hk with rfl | rfl <;> simp [typ, chkN, chk1, req, fa.1]
  | fpRm hk =>
    obtain ⟨a, b, rfl, ha, hb⟩ := repL_two hr
    have fb := facts hb
    simp only [Facts] at fb
    refine ⟨b.srt, ?_, (repA_t hb).1⟩
    rcases hk with rfl | rfl <;> simp [typ, chkN, chk2, req, fb.1]
  | @fpBin _ e s hk =>
    obtain ⟨a, b, rfl, ha, hb⟩ := repL_two hr
    have fa := facts ha
    have fb := facts hb
    simp only [Facts] at fa fb
    have hm : ∀ x ∈ [a, b], RepA false x (.t (.fp e s)) := by
      intro x hx
      rcases List.mem_cons.1 hx with rfl | hx
      · exact ha
      · obtain rfl : x = b := by simpa using hx
        exact hb
    have hall : allOf isFp (getSort [a, b]) [a, b] = true := by
      unfold allOf
      split
      · simp [fa.1, fb.1]
      · rfl
    have hg : Rep false ((getSort [a, b]).getD a.srt) (.fp e s) := by
      cases hs : getSort [a, b] with
      | none => exact (repA_t ha).1
      | some s => exact getSort_rep hm s hs
    rcases hk with rfl | rfl | rfl
    · exact ⟨a.srt, by simp [typ, chkN, chk2, req, fa.1, fb.1], (repA_t ha).1⟩
    · exact ⟨_, by simp only [typ, chkN, family, hall, if_true], hg⟩
    · exact ⟨_, by simp only [typ, chkN, family, hall, if_true], hg⟩
  | fpRm2 hk =>
    obtain ⟨a, b, c, rfl, ha, hb, hc⟩ := repL_three hr
    have fa := facts ha
    have fb := facts hb
    have fc := facts hc
    simp only [Facts] at fa fb fc
    have e := eqS_rep (repA_t hb).1 (repA_t hc).1
    refine ⟨b.srt, ?_, (repA_t hb).1⟩
    rcases hk with rfl | rfl | rfl | rfl <;> simp only [typ, chkN, req, fa, fb.1, fc.1, e, Bool.and_self, if_true]
  | fma =>
    obtain ⟨a, b, c, d, rfl, ha, hb, hc, hd⟩ := repL_four hr
    have fa := facts ha
    have fb := facts hb
    have fc := facts hc
    have fd := facts hd
    simp only [Facts] at fa fb fc fd
    have e := eqS_rep (repA_t hc).1 (repA_t hb).1
    have e' := eqS_rep (repA_t hd).1 (repA_t hb).1
    exact ⟨b.srt, by simp only [typ, chkN, req, fa, fb.1, fc.1, fd.1, e, e', Bool.and_self, if_true], (repA_t hb).1⟩
  | fpTest hk =>
    obtain ⟨a, rfl, ha⟩ := repL_one hr
    have fa := facts ha
    simp only [Facts] at fa
    refine ⟨BOOL_SORT, ?_, .bool⟩
    cases k <;> simp only [fpTest, reduceCtorEq, Bool.false_eq_true] at hk <;> simp [typ, chkN, chk1, req, fa.1]
  | fpCmp hk =>
    obtain ⟨a, b, rfl, ha, hb⟩ := repL_two hr
    have fa := facts ha
    have fb := facts hb
    simp only [Facts] at fa fb
    refine ⟨BOOL_SORT, ?_, .bool⟩
    cases k <;> simp only [fpCmp, reduceCtorEq, Bool.false_eq_true] at hk <;> simp [typ, chkN, chk2, req, fa.1, fb.1]
  | fpReal =>
    obtain ⟨a, rfl, ha⟩ := repL_one hr
    have fa := facts ha
    simp only [Facts] at fa
    exact ⟨REAL_SORT, by simp [typ, chkN, chk1, req, fa.1], .real⟩
  | fpBv hk =>
    obtain ⟨a, b, c, rfl, ha, hb, hc⟩ := repL_three hr
    have fa := facts ha
    have fb := facts hb
    simp only [Facts] at fa fb
    have ic := repA_n hc
    refine ⟨_, ?_, .bv _⟩
    rcases hk with rfl | rfl <;> simp only [typ, chkN, chk3, req, fa, fb.1, int_n hc, Bool.and_self, if_true, ic.2.2.1]
  | toFpBits =>
    obtain ⟨a, b, c, rfl, ha, hb, hc⟩ := repL_three hr
    have fc := facts hc
    simp only [Facts] at fc
    have ia := repA_n ha
    have ib := repA_n hb
    exact ⟨_, by simp only [typ, chkN, chk3, req, fc.1, ia.2.1, ib.2.1, Bool.and_self, if_true, ia.2.2.1, ib.2.2.1], .fp cs!"FP" _ _⟩
  | toFp ht =>
    obtain ⟨a, b, c, d, rfl, ha, hb, hc, hd⟩ := repL_four hr
    have fc := facts hc
    have fd := facts hd
    simp only [Facts] at fc
    have ia := repA_n ha
    have ib := repA_n hb
    have hx : (isReal d || isBv d || isFp d) = true := by
      rcases ht with rfl | ⟨w, rfl⟩ | ⟨e', s', rfl⟩ <;> simp only [Facts] at fd <;> simp [fd.1]
    exact ⟨_, by simp only [typ, chkN, chk4, req, fc, hx, ia.2.1, ib.2.1, Bool.and_self, if_true, ia.2.2.1, ib.2.2.1], .fp cs!"FP" _ _⟩
  | toFpU =>
    obtain ⟨a, b, c, d, rfl, ha, hb, hc, hd⟩ := repL_four hr
    have fc := facts hc
    have fd := facts hd
    simp only [Facts] at fc fd
    have ia := repA_n ha
    have ib := repA_n hb
    exact ⟨_, by simp only [typ, chkN, chk4, req, fc, fd.1, ia.2.1, ib.2.1, Bool.and_self, if_true, ia.2.2.1, ib.2.2.1], .fp cs!"FP" _ _⟩
  | fpLit =>
    obtain ⟨a, b, c, rfl, ha, hb, hc⟩ := repL_three hr
    have fa := facts ha
    have fb := facts hb
    have fc := facts hc
    simp only [Facts] at fa fb fc
    refine ⟨_, ?_, .fp cs!"FP" _ _⟩
    simp only [typ, chkN, chk3, req, fa.1, fb.1, fc.1, fa.2.2, fb.2.2, fc.2.2, beq_self_eq_true, Bool.and_self, if_true, wrap]
    rw [Nat.mod_eq_of_lt h64.2]
  | select =>
    obtain ⟨a, b, rfl, ha, hb⟩ := repL_two hr
    have fa := facts ha
    simp only [Facts] at fa
    obtain ⟨f1, x, y, f2, hx, hy⟩ := fa
    have e := eqS_rep (repA_t hb).1 hx
    exact ⟨y, by simp only [typ, chkN, chk2, f2, arraySort, Srt.children, req, f1, e, Bool.and_self, if_true], hy⟩
  | store =>
    obtain ⟨a, b, c, rfl, ha, hb, hc⟩ := repL_three hr
    have fa := facts ha
    simp only [Facts] at fa
    obtain ⟨f1, x, y, f2, hx, hy⟩ := fa
    have e := eqS_rep (repA_t hb).1 hx
    have e' := eqS_rep (repA_t hc).1 hy
    exact ⟨arraySort x y, by simp only [typ, chkN, chk3, f2, arraySort, Srt.children, req, f1, e, e', Bool.and_self, if_true], .arr hx hy⟩
  | reRepeat =>
    obtain ⟨a, b, rfl, ha, hb⟩ := repL_two hr
    have fa := facts ha
    simp only [Facts] at fa
    exact ⟨_, by simp only [typ, chkN, chk2, req, fa.1, int_n hb, Bool.and_self, if_true], .re⟩
  | reLoop =>
    obtain ⟨a, b, c, rfl, ha, hb, hc⟩ := repL_three hr
    have fa := facts ha
    simp only [Facts] at fa
    exact ⟨_, by simp only [typ, chkN, chk3, req, fa.1, int_n hb, int_n hc, Bool.and_self, if_true], .re⟩


/-! ## Terms -/

/-- a term: a leaf (constant, variable), an index, an operator -/
inductive Tm where
  | leaf (a : A)
  | idx (i : Nat)
  | app (k : K) (cs : List Tm)

/-- what is known about a node that a constructor makes: its sort; and that only Booleans can be `true` or `false`, and only numbers zero
or one -/
structure Nodes where
  /-- the node of a kind with these operands and this sort -/
  node : K → List A → Srt → A
  /-- the numeral of an index -/
  numeral : Nat → A
  srt : ∀ k as s, (node k as s).srt = s
  bools : ∀ k as s, (node k as s).tru = true ∨ (node k as s).fls = true → s.kind = .BOOL
  nums : ∀ k as s, (node k as s).zero = true ∨ (node k as s).one = true → s.kind = .INT ∨ s.kind = .REAL ∨ s.kind = .INTOREAL
  idx : ∀ i, i < 2 ^ 64 → RepA false (numeral i) (.n i)

mutual
/-- the constructors called from the leaves up (as the parser does, see `Verif.Parse.Build`) -/
def make (L : Logic) (O : Nodes) : Tm → Res A
  | .leaf a => .ok a
  | .idx i => .ok (O.numeral i)
  | .app k cs => do
    let as ← makeL L O cs
    let s ← typ L k as
    return O.node k as s
def makeL (L : Logic) (O : Nodes) : List Tm → Res (List A)
  | [] => .ok []
  | t :: ts => do
    let a ← make L O t
    let as ← makeL L O ts
    return a :: as
end

mutual
/-- well-sorted terms -/
inductive WS (L : Logic) : Tm → Arg → Prop
  | leaf {a ty} : RepA false a (.t ty) → WS L (.leaf a) (.t ty)
  | idx {i} : i < 2 ^ 64 → WS L (.idx i) (.n i)
  | app {k cs gs t} : WSL L cs gs → HasSort k gs t → ¬ WrongSort k → LogicFits L k t → Fits64 t → WS L (.app k cs) (.t t)
/-- lists of well-sorted terms -/
inductive WSL (L : Logic) : List Tm → List Arg → Prop
  | nil : WSL L [] []
  | cons {t ts g gs} : WS L t g → WSL L ts gs → WSL L (t :: ts) (g :: gs)
end

theorem rep_node {O : Nodes} {k as s ty} (h : Rep false s ty) : RepA false (O.node k as s) (.t ty) := by
  refine .t (by rw [O.srt]; exact h) (fun e => ?_) (fun e => ?_)
  · have := O.bools k as s e
    cases h <;> simp_all [Srt.kind, INT_SORT, INTOREAL_SORT, REAL_SORT, STR_SORT, REG_SORT, ROUNDING_MODE_SORT, bvSort, fpSort, arraySort, decSort]
  · have := O.nums k as s e
    cases h <;> simp_all [Srt.kind, BOOL_SORT, STR_SORT, REG_SORT, ROUNDING_MODE_SORT, bvSort, fpSort, arraySort, decSort]

mutual
/-- **C55, for terms.**  Every well-sorted term of any size is built without a sort error, and the sort of its node is its SMT-LIB sort. -/
theorem term_sort_partial {L : Logic} {O : Nodes} : ∀ {t : Tm} {g : Arg}, WS L t g → ∃ a, make L O t = .ok a ∧ RepA false a g
  | _, _, .leaf h => ⟨_, by rw [make], h⟩
  | _, _, .idx h => ⟨_, by rw [make], O.idx _ h⟩
  | _, _, .app hl hk hw hL h64 => by
    obtain ⟨as, ha, hr⟩ := terms_sort hl
    obtain ⟨s, hs, hrep⟩ := accepts_wellsorted_partial hk hr hw hL h64
    exact ⟨_, by rw [make, ha]; simp only [Res.ok_bind, hs]; rfl, rep_node hrep⟩
theorem terms_sort {L : Logic} {O : Nodes} : ∀ {ts : List Tm} {gs : List Arg}, WSL L ts gs → ∃ as, makeL L O ts = .ok as ∧ RepL false as gs
  | _, _, .nil => ⟨[], by rw [makeL], .nil⟩
  | _, _, .cons h hl => by
    obtain ⟨a, ha, hr⟩ := term_sort_partial (O := O) h
    obtain ⟨as, hb, hrs⟩ := terms_sort (O := O) hl
    exact ⟨a :: as, by rw [makeL, ha, hb]; rfl, .cons hr hrs⟩
end

end SMT.Typing
