import Verif.Conv.Dnf
/-!
# C29: the elimination loop keeps the meaning and ends
-/
namespace SMT

open Term

/-- related element by element -/
inductive All2 {α β : Type} (R : α → β → Prop) : List α → List β → Prop where
  | nil : All2 R [] []
  | cons {a : α} {b : β} {l : List α} {r : List β} (h : R a b) (t : All2 R l r) :
    All2 R (a :: l) (b :: r)

/-- `r` is good and means the same as `t` -/
def Same (c : Cfg) (ρ : Env) (S : List Term) (t r : Term) : Prop :=
  Out c ρ S r ∧ bval ρ r = bval ρ t

theorem tt_out {c : Cfg} {ρ : Env} {S : List Term} (hc : ∃ u, DFit c u) : Out c ρ S .tt :=
  hc.elim fun _ hu => ⟨hu.other rfl, rfl, IsB_tt ρ, rfl⟩

theorem ff_out {c : Cfg} {ρ : Env} {S : List Term} (hc : ∃ u, DFit c u) : Out c ρ S .ff :=
  hc.elim fun _ hu => ⟨hu.other rfl, rfl, IsB_ff ρ, rfl⟩

section
variable {c : Cfg} {ρ : Env} {S : List Term} (hc : ∃ u, DFit c u)
include hc

theorem and2_out {a b : Term} (ha : Out c ρ S a) (hb : Out c ρ S b) :
    Out c ρ S (mkAnd c [a, b]) ∧ bval ρ (mkAnd c [a, b]) = (bval ρ a && bval ρ b) := by
  have := mkAnd_out hc (ts := [a, b]) (S := S) (ρ := ρ) (by simp [ha, hb])
  simpa using this

theorem or2_out {a b : Term} (ha : Out c ρ S a) (hb : Out c ρ S b) :
    Out c ρ S (mkOr c [a, b]) ∧ bval ρ (mkOr c [a, b]) = (bval ρ a || bval ρ b) := by
  have := mkOr_out hc (ts := [a, b]) (S := S) (ρ := ρ) (by simp [ha, hb])
  simpa using this

theorem elimXorR_out (ts : List Term) (h : ∀ t ∈ ts, Out c ρ S t) :
    Out c ρ S (elimXorR c ts) ∧
      bval ρ (elimXorR c ts) = (ts.map (bval ρ)).foldr Bool.xor false := by
  induction ts with
  | nil => exact ⟨ff_out hc, rfl⟩
  | cons b r ih =>
    cases r with
    | nil => exact ⟨h b (by simp), by simp [elimXorR]⟩
    | cons a r =>
      obtain ⟨h1, h2⟩ := ih fun t ht => h t (List.mem_cons_of_mem _ ht)
      have hb := h b (by simp)
      obtain ⟨n1, n2⟩ := mkNot_out hb
      obtain ⟨m1, m2⟩ := mkNot_out h1
      obtain ⟨p1, p2⟩ := and2_out hc h1 n1
      obtain ⟨q1, q2⟩ := and2_out hc m1 hb
      obtain ⟨r1, r2⟩ := or2_out hc p1 q1
      rw [elimXorR]
      · refine ⟨r1, ?_⟩
        rw [r2, p2, q2, n2, m2, h2, List.map_cons (l := a :: r), List.foldr_cons]
        cases bval ρ b <;> cases (List.map (bval ρ) (a :: r)).foldr Bool.xor false <;> rfl
      · simp

theorem elimXor_out (ts : List Term) (h : ∀ t ∈ ts, Out c ρ S t) :
    Out c ρ S (elimXor c ts) ∧
      bval ρ (elimXor c ts) = (ts.map (bval ρ)).foldl Bool.xor false := by
  obtain ⟨h1, h2⟩ := elimXorR_out (c := c) (ρ := ρ) (S := S) hc ts.reverse (by simpa using h)
  refine ⟨h1, ?_⟩
  rw [elimXor, h2, List.map_reverse, List.foldr_reverse]
  congr 1; funext x y; exact Bool.xor_comm y x

theorem elimEq2_out {a b : Term} (ha : Out c ρ S a) (hb : Out c ρ S b) :
    Out c ρ S (elimEq2 c a b) ∧ bval ρ (elimEq2 c a b) = (bval ρ a == bval ρ b) := by
  obtain ⟨n1, n2⟩ := mkNot_out hb
  obtain ⟨m1, m2⟩ := mkNot_out ha
  obtain ⟨p1, p2⟩ := and2_out hc ha hb
  obtain ⟨q1, q2⟩ := and2_out hc m1 n1
  obtain ⟨r1, r2⟩ := or2_out hc p1 q1
  refine ⟨r1, ?_⟩
  rw [elimEq2, r2, p2, q2, n2, m2]
  cases bval ρ a <;> cases bval ρ b <;> rfl

theorem pairsWith_out (ts : List Term) (h : ∀ t ∈ ts, Out c ρ S t) :
    (∀ t ∈ pairsWith (elimEq2 c) ts, Out c ρ S t) ∧
      (pairsWith (elimEq2 c) ts).all (bval ρ) = chain (· == ·) (ts.map (bval ρ)) := by
  induction ts with
  | nil => simp [pairsWith, chain]
  | cons a r ih =>
    cases r with
    | nil => simp [pairsWith, chain]
    | cons b r =>
      obtain ⟨h1, h2⟩ := ih fun t ht => h t (List.mem_cons_of_mem _ ht)
      obtain ⟨e1, e2⟩ := elimEq2_out hc (h a (by simp)) (h b (by simp))
      refine ⟨?_, ?_⟩
      · rw [pairsWith]; intro t ht; simp only [List.mem_cons] at ht
        rcases ht with rfl | ht
        · exact e1
        · exact h1 t ht
      · rw [pairsWith, List.all_cons, e2, h2]; rfl

omit hc in
theorem chainB_iff (bs : List Bool) :
    chain (· == ·) bs = true ↔ ∀ x ∈ bs, ∀ y ∈ bs, x = y := by
  induction bs with
  | nil => simp [chain]
  | cons a r ih =>
    cases r with
    | nil => simp [chain]
    | cons b r =>
      rw [chain, Bool.and_eq_true, ih]
      constructor
      · rintro ⟨h1, h2⟩
        have h1 : a = b := by simpa using h1
        subst h1
        intro x hx y hy
        have : ∀ z ∈ a :: a :: r, z ∈ a :: r := by intro z hz; simpa using hz
        exact h2 x (this x hx) y (this y hy)
      · intro h
        exact ⟨by simpa using h a (by simp) b (by simp),
          fun x hx y hy => h x (List.mem_cons_of_mem _ hx) y (List.mem_cons_of_mem _ hy)⟩

theorem elimEq_out (ts : List Term) (hl : 2 ≤ ts.length) (h : ∀ t ∈ ts, Out c ρ S t) :
    Out c ρ S (elimEq c ts) ∧
      (bval ρ (elimEq c ts) = true ↔ ∀ t ∈ ts, ∀ u ∈ ts, bval ρ t = bval ρ u) := by
  obtain ⟨h1, h2⟩ := pairsWith_out hc ts h
  match ts, hl with
  | [a, b], _ =>
    obtain ⟨e1, e2⟩ := elimEq2_out hc (h a (by simp)) (h b (by simp))
    refine ⟨e1, ?_⟩
    rw [elimEq, e2]; simp; grind
  | a :: b :: d :: r, _ =>
    obtain ⟨m1, m2⟩ := mkAnd_out hc h1
    refine ⟨m1, ?_⟩
    rw [elimEq, m2, h2, chainB_iff]
    · simp only [List.mem_map, forall_exists_index, and_imp, forall_apply_eq_imp_iff₂]
    all_goals simp

theorem elimDistinct_out (ts : List Term) (hl : 2 ≤ ts.length) (h : ∀ t ∈ ts, Out c ρ S t) :
    Out c ρ S (if ts.length > 2 then .ff else elimDistinct c ts) ∧
      (bval ρ (if ts.length > 2 then .ff else elimDistinct c ts) = true ↔
        ts.Pairwise fun t u => bval ρ t ≠ bval ρ u) := by
  match ts, hl with
  | [a, b], _ =>
    have ha := h a (by simp)
    have hb := h b (by simp)
    obtain ⟨n1, n2⟩ := mkNot_out hb
    obtain ⟨m1, m2⟩ := mkNot_out ha
    obtain ⟨p1, p2⟩ := and2_out hc ha n1
    obtain ⟨q1, q2⟩ := and2_out hc m1 hb
    obtain ⟨r1, r2⟩ := or2_out hc p1 q1
    refine ⟨by simpa [elimDistinct] using r1, ?_⟩
    simp only [elimDistinct, List.length_cons, List.length_nil, gt_iff_lt, Nat.lt_irrefl, if_false]
    rw [r2, p2, q2, n2, m2]
    have e : [a, b].Pairwise (fun t u => bval ρ t ≠ bval ρ u) ↔ bval ρ a ≠ bval ρ b := by simp
    rw [e]
    cases bval ρ a <;> cases bval ρ b <;> simp
  | a :: b :: d :: r, _ =>
    rw [if_pos (by simp)]
    refine ⟨ff_out hc, ?_⟩
    simp only [bval_ff, List.pairwise_cons, List.mem_cons]
    constructor
    · simp
    · rintro ⟨h1, h2, _⟩
      have e1 := h1 b (.inl rfl)
      have e2 := h1 d (.inr (.inl rfl))
      have e3 := h2 d (.inl rfl)
      revert e1 e2 e3
      cases bval ρ a <;> cases bval ρ b <;> cases bval ρ d <;> simp

end

/-! ### the recursion -/

theorem VMap.find_cons (k v t : Term) (m : VMap) :
    VMap.find ((k, v) :: m) t = if k = t then some v else VMap.find m t := rfl

/-- invariant of `visited` -/
def EInv (c : Cfg) (ρ : Env) (S : List Term) (m : VMap) : Prop :=
  ∀ k v, m.find k = some v → Same c ρ S k v

/-- what one call does to the state: `visited` grows, and `is_changed` is set only if a formula of `S`
is newly visited -/
structure Step (S : List Term) (a b : ESt) : Prop where
  mono : ∀ k, (a.vis.find k).isSome → (b.vis.find k).isSome
  ch : b.ch = true → a.ch = true ∨ ∃ s ∈ S, a.vis.find s = none ∧ (b.vis.find s).isSome

theorem Step.refl (S : List Term) (a : ESt) : Step S a a := ⟨fun _ h => h, fun h => .inl h⟩

theorem Step.trans {S : List Term} {a b d : ESt} (h1 : Step S a b) (h2 : Step S b d) :
    Step S a d := by
  refine ⟨fun k h => h2.mono k (h1.mono k h), fun h => ?_⟩
  rcases h2.ch h with h | ⟨s, hs, h3, h4⟩
  · rcases h1.ch h with h | ⟨s, hs, h3, h4⟩
    · exact .inl h
    · exact .inr ⟨s, hs, h3, h2.mono s h4⟩
  · refine .inr ⟨s, hs, ?_, h4⟩
    cases h5 : a.vis.find s with
    | none => rfl
    | some v => have := h1.mono s (by simp [h5]); simp [h3] at this

theorem Step.add {S : List Term} {a b : ESt} (h : Step S a b) (k v : Term) :
    Step S a ⟨(k, v) :: b.vis, b.ch⟩ := by
  refine h.trans ⟨?_, fun h => .inl h⟩
  intro t ht
  rw [VMap.find_cons]; split
  · rfl
  · exact ht

theorem Step.addNew {S : List Term} {a b : ESt} (h : Step S a b) (k v : Term) (hk : k ∈ S)
    (hn : a.vis.find k = none) : Step S a ⟨(k, v) :: b.vis, true⟩ := by
  refine ⟨(h.add k v).mono, fun _ => .inr ⟨k, hk, hn, ?_⟩⟩
  rw [VMap.find_cons, if_pos rfl]; rfl

theorem EInv.add {c : Cfg} {ρ : Env} {S : List Term} {m : VMap} (h : EInv c ρ S m) {k v : Term}
    (hv : Same c ρ S k v) : EInv c ρ S ((k, v) :: m) := by
  intro k' v' hf
  rw [VMap.find_cons] at hf
  split at hf
  · rename_i e; subst e; simp at hf; subst hf; exact hv
  · exact h k' v' hf

/-- a special node that is not an atom is in `S` -/
theorem Out.mem {c : Cfg} {ρ : Env} {S : List Term} {k : Kind} {s : Srt} {ts : List Term}
    (h : Out c ρ S (.app k s ts)) (hk : isSpecial k = true)
    (ha : isAtom (.app k s ts) = false) : .app k s ts ∈ S := by
  have h1 := h.sp
  have h2 : atomIn (.app k s ts) = false := by
    cases h3 : atomIn (.app k s ts) with
    | false => rfl
    | true => rw [atomIn_isAtom h3] at ha; cases ha
  have h3 : isPlain k = false := by cases k <;> simp [isSpecial] at hk <;> rfl
  simp only [spIn, h2, h3, Bool.false_and, Bool.or_false, Bool.false_or, Bool.and_eq_true,
    decide_eq_true_eq] at h1
  exact h1.1.2

theorem Out.kids {c : Cfg} {ρ : Env} {S : List Term} {k : Kind} {s : Srt} {ts : List Term}
    (h : Out c ρ S (.app k s ts)) (ha : isAtom (.app k s ts) = false)
    (hB : ∀ t ∈ ts, IsB ρ t) : ∀ t ∈ ts, Out c ρ S t := by
  have h2 : atomIn (.app k s ts) = false := by
    cases h3 : atomIn (.app k s ts) with
    | false => rfl
    | true => rw [atomIn_isAtom h3] at ha; cases ha
  have h1 := h.sp
  simp only [spIn, h2, Bool.or_eq_true, Bool.and_eq_true, spInL_iff] at h1
  have h3 : ∀ t ∈ ts, spIn S t = true := by grind
  have h4 := h.ok
  have h5 : ∀ t ∈ ts, dnfIn t = true := by
    cases k <;> simp only [dnfIn, h2, dnfInL_iff, Bool.and_eq_true, Bool.or_eq_true] at h4 <;> grind
  exact fun t ht => ⟨h.fit.child ht, h5 t ht, hB t ht, h3 t ht⟩

theorem forall₂_take_all {α β : Type} {R : α → β → Prop} {l : List α} {r : List β} {n : Nat}
    (h : All2 R (l.take n) r) (hn : l.length ≤ n) : All2 R l r := by
  rwa [List.take_of_length_le hn] at h

theorem forall₂_bval {c : Cfg} {ρ : Env} {S : List Term} {ts rs : List Term}
    (h : All2 (Same c ρ S) ts rs) :
    (∀ r ∈ rs, Out c ρ S r) ∧ rs.map (bval ρ) = ts.map (bval ρ) ∧ rs.length = ts.length := by
  induction h with
  | nil => simp
  | cons h1 _ ih => obtain ⟨i1, i2, i3⟩ := ih; simp [h1.1, h1.2, i2, i3]; exact i1

theorem elimL_spec (c : Cfg) (ρ : Env) (S : List Term) (own : Bool) (ts : List Term)
    (hE : ∀ t ∈ ts, ∀ st, Out c ρ S t → EInv c ρ S st.vis →
      Same c ρ S t (elim c t st).1 ∧ EInv c ρ S (elim c t st).2.vis ∧ Step S st (elim c t st).2) :
    ∀ (n : Nat) (st : ESt), (∀ t ∈ ts, Out c ρ S t) → EInv c ρ S st.vis →
      All2 (Same c ρ S) (ts.take n) (elimL c own n ts st).1 ∧
        EInv c ρ S (elimL c own n ts st).2.vis ∧ Step S st (elimL c own n ts st).2 := by
  induction ts with
  | nil =>
    intro n st _ hi
    cases n <;> simp only [elimL, List.take_nil, List.take_zero] <;>
      exact ⟨.nil, hi, Step.refl _ _⟩
  | cons t ts ih =>
    intro n st hO hi
    cases n with
    | zero => simp only [elimL, List.take_zero]; exact ⟨.nil, hi, Step.refl _ _⟩
    | succ n =>
      simp only [elimL, List.take_succ_cons]
      obtain ⟨e1, e2, e3⟩ := hE t (by simp) (if own = true then ⟨st.vis, false⟩ else st)
        (hO t (by simp)) (by split <;> exact hi)
      have hs : Step S st ⟨(elim c t (if own = true then ⟨st.vis, false⟩ else st)).2.vis,
          if own = true then st.ch || (elim c t (if own = true then ⟨st.vis, false⟩ else st)).2.ch
          else (elim c t (if own = true then ⟨st.vis, false⟩ else st)).2.ch⟩ := by
        cases own with
        | false => simpa using e3
        | true =>
          simp only [if_true] at e3 ⊢
          refine ⟨e3.mono, fun h => ?_⟩
          simp only [Bool.or_eq_true] at h
          rcases h with h | h
          · exact .inl h
          · rcases e3.ch h with h | h
            · simp at h
            · exact .inr h
      obtain ⟨f1, f2, f3⟩ := ih (fun t ht => hE t (List.mem_cons_of_mem _ ht)) n
        ⟨(elim c t (if own = true then ⟨st.vis, false⟩ else st)).2.vis,
          if own = true then st.ch || (elim c t (if own = true then ⟨st.vis, false⟩ else st)).2.ch
          else (elim c t (if own = true then ⟨st.vis, false⟩ else st)).2.ch⟩
        (fun t ht => hO t (List.mem_cons_of_mem _ ht)) e2
      exact ⟨.cons e1 f1, f2, hs.trans f3⟩

theorem elim_spec (c : Cfg) (ρ : Env) (S : List Term) : ∀ (n : Nat) (t : Term) (st : ESt),
    t.size ≤ n → Out c ρ S t → EInv c ρ S st.vis →
      Same c ρ S t (elim c t st).1 ∧ EInv c ρ S (elim c t st).2.vis ∧ Step S st (elim c t st).2 := by
  intro n
  induction n with
  | zero => intro t st h; cases t <;> simp [size] at h
  | succ n ih =>
    intro t st hn hO hi
    have hc : ∃ u, DFit c u := ⟨t, hO.fit⟩
    cases t with
    | app k s ts =>
      have hrefl : Same c ρ S (.app k s ts) (.app k s ts) := ⟨hO, rfl⟩
      rw [elim.eq_def]
      simp only
      split
      · exact ⟨hrefl, hi, Step.refl _ _⟩
      · rename_i hla
        simp only [Bool.or_eq_true, not_or, Bool.not_eq_true] at hla
        obtain ⟨_, ha⟩ := hla
        split
        · rename_i r hr
          exact ⟨hi _ _ hr, hi, Step.refl _ _⟩
        · rename_i hnone
          have hE : ∀ t ∈ ts, ∀ st, Out c ρ S t → EInv c ρ S st.vis →
              Same c ρ S t (elim c t st).1 ∧ EInv c ρ S (elim c t st).2.vis ∧
                Step S st (elim c t st).2 := by
            intro t ht st
            have := size_child (k := k) (s := s) ht
            exact ih t st (by omega)
          have hL := fun own => elimL_spec c ρ S own ts hE
          have hat : atomIn (.app k s ts) = false := by
            cases h3 : atomIn (.app k s ts) with
            | false => rfl
            | true => rw [atomIn_isAtom h3] at ha; cases ha
          split
          · -- not
            obtain ⟨u, rfl, hu, hv⟩ := not_child hO.isB
            have hk := hO.kids ha (by simpa using hu)
            obtain ⟨l1, l2, l3⟩ := hL true 1 st hk hi
            simp only [List.take_succ_cons, List.take_nil] at l1
            generalize elimL c true 1 [u] st = p at l1 l2 l3
            obtain ⟨rs, st'⟩ := p
            cases l1 with
            | cons a1 a2 =>
              obtain ⟨n1, n2⟩ := mkNot_out a1.1
              have hS : Same c ρ S (.app .not s [u]) (mkNot c _) := ⟨n1, by rw [n2, a1.2, hv]⟩
              exact ⟨hS, l2.add hS, l3.add _ _⟩
          · -- and
            obtain ⟨hB, hv⟩ := and_node hO.isB
            have hk := hO.kids ha hB
            obtain ⟨l1, l2, l3⟩ := hL true ts.length st hk hi
            obtain ⟨m1, m2, _⟩ := forall₂_bval (forall₂_take_all l1 (Nat.le_refl _))
            generalize elimL c true ts.length ts st = p at l1 l2 l3 m1 m2
            have hS : Same c ρ S (.app .and s ts) (if p.2.ch = true then mkAnd c p.1 else .app .and s ts) := by
              split
              · obtain ⟨a1, a2⟩ := mkAnd_out hc m1
                refine ⟨a1, ?_⟩
                have e := congrArg (List.all · id) m2
                simp only [List.all_map, Function.id_comp] at e
                rw [a2, hv]; exact e
              · exact hrefl
            exact ⟨hS, l2.add hS, l3.add _ _⟩
          · -- or
            obtain ⟨hB, hv⟩ := or_node hO.isB
            have hk := hO.kids ha hB
            obtain ⟨l1, l2, l3⟩ := hL true ts.length st hk hi
            obtain ⟨m1, m2, _⟩ := forall₂_bval (forall₂_take_all l1 (Nat.le_refl _))
            generalize elimL c true ts.length ts st = p at l1 l2 l3 m1 m2
            have hS : Same c ρ S (.app .or s ts) (if p.2.ch = true then mkOr c p.1 else .app .or s ts) := by
              split
              · obtain ⟨a1, a2⟩ := mkOr_out hc m1
                refine ⟨a1, ?_⟩
                have e := congrArg (List.any · id) m2
                simp only [List.any_map, Function.id_comp] at e
                rw [a2, hv]; exact e
              · exact hrefl
            exact ⟨hS, l2.add hS, l3.add _ _⟩
          · -- implies
            have hlen := hO.ok
            simp only [dnfIn, Bool.and_eq_true, beq_iff_eq] at hlen
            obtain ⟨a, b, rfl⟩ := len2 hlen.1
            obtain ⟨ha', hb', hv⟩ := implies_node2 hO.isB
            have hk := hO.kids ha (by simp [ha', hb'])
            obtain ⟨l1, l2, l3⟩ := hL false 2 st hk hi
            obtain ⟨m1, m2, m3⟩ := forall₂_bval (forall₂_take_all l1 (Nat.le_refl _))
            generalize elimL c false 2 [a, b] st = p at l1 l2 l3 m1 m2 m3
            obtain ⟨rs, st'⟩ := p
            obtain ⟨x, y, rfl⟩ := len2 m3
            simp only [List.map_cons, List.map_nil, List.cons.injEq, and_true] at m2
            obtain ⟨n1, n2⟩ := mkNot_out (m1 x (by simp))
            obtain ⟨r1, r2⟩ := or2_out hc n1 (m1 y (by simp))
            have hS : Same c ρ S (.app .implies s [a, b]) (mkOr c [mkNot c x, y]) :=
              ⟨r1, by rw [r2, n2, hv, m2.1, m2.2]⟩
            exact ⟨hS, l2.add hS, l3.addNew _ _ (hO.mem rfl ha) hnone⟩
          · -- ite
            obtain ⟨a, b, d, rfl, ha', hb', hd', hv⟩ := ite_node hO.isB
            have hk := hO.kids ha (by simp [ha', hb', hd'])
            obtain ⟨l1, l2, l3⟩ := hL false 3 st hk hi
            obtain ⟨m1, m2, m3⟩ := forall₂_bval (forall₂_take_all l1 (Nat.le_refl _))
            generalize elimL c false 3 [a, b, d] st = p at l1 l2 l3 m1 m2 m3
            obtain ⟨rs, st'⟩ := p
            match rs, m3 with
            | [x, y, z], _ =>
              simp only [List.map_cons, List.map_nil, List.cons.injEq, and_true] at m2
              obtain ⟨n1, n2⟩ := mkNot_out (m1 x (by simp))
              obtain ⟨r1, r2⟩ := or2_out hc n1 (m1 y (by simp))
              obtain ⟨q1, q2⟩ := or2_out hc (m1 x (by simp)) (m1 z (by simp))
              obtain ⟨w1, w2⟩ := and2_out hc r1 q1
              have hS : Same c ρ S (.app .ite s [a, b, d])
                  (mkAnd c [mkOr c [mkNot c x, y], mkOr c [x, z]]) := by
                refine ⟨w1, ?_⟩
                rw [w2, r2, q2, n2, hv, m2.1, m2.2.1, m2.2.2]
                cases bval ρ a <;> simp
              exact ⟨hS, l2.add hS, l3.addNew _ _ (hO.mem rfl ha) hnone⟩
          · -- xor
            obtain ⟨hB, hv⟩ := xor_node hO.isB
            have hk := hO.kids ha hB
            obtain ⟨l1, l2, l3⟩ := hL false ts.length st hk hi
            obtain ⟨m1, m2, _⟩ := forall₂_bval (forall₂_take_all l1 (Nat.le_refl _))
            generalize elimL c false ts.length ts st = p at l1 l2 l3 m1 m2
            obtain ⟨a1, a2⟩ := elimXor_out hc p.1 m1
            have hS : Same c ρ S (.app .xor s ts) (elimXor c p.1) := ⟨a1, by rw [a2, hv, m2]⟩
            exact ⟨hS, l2.add hS, l3.addNew _ _ (hO.mem rfl ha) hnone⟩
          · -- eq
            have hok := hO.ok
            simp only [dnfIn, hat, Bool.false_or, Bool.and_eq_true] at hok
            rw [if_pos hok.1]
            have hbs : ∀ t ∈ ts, t.sort = .bool := by simpa using hok.1
            obtain ⟨hlen, hB, hv⟩ := eq_node hO.isB hbs
            have hk := hO.kids ha hB
            obtain ⟨l1, l2, l3⟩ := hL true ts.length st hk hi
            obtain ⟨m1, m2, m3⟩ := forall₂_bval (forall₂_take_all l1 (Nat.le_refl _))
            generalize elimL c true ts.length ts st = p at l1 l2 l3 m1 m2 m3
            obtain ⟨a1, a2⟩ := elimEq_out hc p.1 (by omega) m1
            have hS : Same c ρ S (.app .eq s ts) (elimEq c p.1) := by
              refine ⟨a1, ?_⟩
              rw [Bool.eq_iff_iff, a2, hv]
              have e : ∀ l : List Term, (∀ t ∈ l, ∀ u ∈ l, bval ρ t = bval ρ u) ↔
                  ∀ x ∈ l.map (bval ρ), ∀ y ∈ l.map (bval ρ), x = y := by intro l; simp
              rw [e, e, m2]
            exact ⟨hS, l2.add hS, l3.addNew _ _ (hO.mem rfl ha) hnone⟩
          · -- distinct
            have hok := hO.ok
            simp only [dnfIn, hat, Bool.false_or, Bool.and_eq_true] at hok
            rw [if_pos hok.1]
            have hbs : ∀ t ∈ ts, t.sort = .bool := by simpa using hok.1
            obtain ⟨hlen, hB, hv⟩ := distinct_node hO.isB hbs
            have hk := hO.kids ha hB
            obtain ⟨l1, l2, l3⟩ := hL true ts.length st hk hi
            obtain ⟨m1, m2, m3⟩ := forall₂_bval (forall₂_take_all l1 (Nat.le_refl _))
            generalize elimL c true ts.length ts st = p at l1 l2 l3 m1 m2 m3
            obtain ⟨a1, a2⟩ := elimDistinct_out hc p.1 (by omega) m1
            have hS : Same c ρ S (.app .distinct s ts)
                (if p.1.length > 2 then .ff else elimDistinct c p.1) := by
              refine ⟨a1, ?_⟩
              rw [Bool.eq_iff_iff, a2, hv]
              have e : ∀ l : List Term, (l.Pairwise fun t u => bval ρ t ≠ bval ρ u) ↔
                  (l.map (bval ρ)).Pairwise (· ≠ ·) := by intro l; rw [List.pairwise_map]
              rw [e, e, m2]
            exact ⟨hS, l2.add hS, l3.addNew _ _ (hO.mem rfl ha) hnone⟩
          · exfalso
            have hok := hO.ok
            rw [dnfIn.eq_def] at hok
            split at hok <;> simp_all
    | var vk s x =>
      have := hO.isB.sort
      simp only [Term.sort] at this
      simp [elim, isLiteral, isVBool, this]
      exact ⟨⟨by simpa [this] using hO, rfl⟩, hi, Step.refl _ _⟩
    | tt => simp [elim, isLiteral, isVBool, isCBool, Term.isTrue]; exact ⟨⟨hO, rfl⟩, hi, Step.refl _ _⟩
    | ff => simp [elim, isLiteral, isVBool, isCBool, Term.isFalse]; exact ⟨⟨hO, rfl⟩, hi, Step.refl _ _⟩
    | cint i => have := hO.ok; simp [dnfIn, atomIn] at this
    | creal i q => have := hO.ok; simp [dnfIn, atomIn] at this
    | clit s x => have := hO.ok; simp [dnfIn, atomIn] at this
    | unknown => have := hO.ok; simp [dnfIn, atomIn] at this
    | err => have := hO.ok; simp [dnfIn, atomIn] at this

/-- how many formulas of `S` are still unvisited -/
def todo (S : List Term) (m : VMap) : Nat := S.countP fun s => (m.find s).isNone

theorem todo_lt {S : List Term} {a b : ESt} (h : Step S a b)
    (hn : ∃ s ∈ S, a.vis.find s = none ∧ (b.vis.find s).isSome) : todo S b.vis < todo S a.vis := by
  obtain ⟨s, hs, h1, h2⟩ := hn
  have hle : ∀ l : List Term, todo l b.vis ≤ todo l a.vis := by
    intro l
    refine List.countP_mono_left fun x _ hx => ?_
    cases h3 : a.vis.find x with
    | none => rfl
    | some v => have := h.mono x (by simp [h3]); cases h4 : b.vis.find x <;> simp_all
  obtain ⟨l, r, rfl⟩ := List.append_of_mem hs
  have e1 := hle l
  have e2 := hle r
  have e3 : (b.vis.find s).isNone = false := by cases h4 : b.vis.find s <;> simp_all
  simp only [todo, List.countP_append, List.countP_cons, h1, e3] at e1 e2 ⊢
  simp; omega

theorem elimLoop_spec (c : Cfg) (ρ : Env) (S : List Term) : ∀ (n : Nat) (t : Term) (m : VMap),
    Out c ρ S t → EInv c ρ S m → todo S m < n →
      ∃ r, elimLoop c n t m = some r ∧ Same c ρ S t r := by
  intro n
  induction n with
  | zero => intro t m _ _ h; omega
  | succ n ih =>
    intro t m hO hi hn
    obtain ⟨h1, h2, h3⟩ := elim_spec c ρ S _ t ⟨m, false⟩ (Nat.le_refl _) hO hi
    rw [elimLoop]
    split
    · rename_i hch
      have : todo S (elim c t ⟨m, false⟩).2.vis < todo S m := by
        refine todo_lt h3 ?_
        rcases h3.ch hch with h | h
        · simp at h
        · exact h
      obtain ⟨r, e1, e2, e3⟩ := ih _ _ h1.1 h2 (by omega)
      exact ⟨r, e1, e2, by rw [e3, h1.2]⟩
    · exact ⟨_, rfl, h1⟩

/-- any result of the loop is right, however many rounds it took -/
theorem elimLoop_sound (c : Cfg) (ρ : Env) (S : List Term) : ∀ (n : Nat) (t : Term) (m : VMap) (r : Term),
    Out c ρ S t → EInv c ρ S m → elimLoop c n t m = some r → Same c ρ S t r := by
  intro n
  induction n with
  | zero => intro t m r _ _ h; simp [elimLoop] at h
  | succ n ih =>
    intro t m r hO hi hr
    obtain ⟨h1, h2, h3⟩ := elim_spec c ρ S _ t ⟨m, false⟩ (Nat.le_refl _) hO hi
    rw [elimLoop] at hr
    split at hr
    · obtain ⟨e2, e3⟩ := ih _ _ r h1.1 h2 hr
      exact ⟨e2, by rw [e3, h1.2]⟩
    · simp at hr; subst hr; exact h1

end SMT
