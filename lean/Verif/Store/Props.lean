import Verif.Store.Model

/-! # Hash-consing (C19) -/

namespace SMT.Store
open SMT.Kinds SMT.Text

/-- Two pointers denote the same structure: same sort, kind, name, and pairwise the same children. -/
inductive Same (H : Heap) : Ptr → Ptr → Prop where
  | mk {p q : Ptr} {a b : Obj} : H[p]? = some a → H[q]? = some b → a.sort = b.sort → a.kind = b.kind → a.name = b.name →
      a.children.length = b.children.length →
      (∀ (i : Nat) (x y : Ptr), a.children[i]? = some x → b.children[i]? = some y → Same H x y) → Same H p q

/-- Children of an object were allocated before it. -/
def WF (H : Heap) : Prop := ∀ (p : Ptr) (o : Obj), H[p]? = some o → ∀ c ∈ o.children, c < p

/-- The hashes stored in the objects are the ones the constructor computes. -/
def HashOK (F : HashFn) (H : Heap) : Prop :=
  ∀ (p : Ptr) (o : Obj), H[p]? = some o → o.chash = chashOf F H o.children ∧
    o.hash = F.code o.sort o.kind o.name o.children.length o.chash

theorem lt_of_get {α} {l : List α} {i : Nat} {a : α} (h : l[i]? = some a) : i < l.length := by
  rcases Nat.lt_or_ge i l.length with h' | h'
  · exact h'
  · rw [List.getElem?_eq_none h'] at h; cases h

theorem same_refl {H : Heap} (w : WF H) : ∀ p, p < H.length → Same H p p := by
  intro p
  induction p using Nat.strongRecOn with
  | ind p ih =>
    intro hp
    have hg := List.getElem?_eq_getElem hp
    refine .mk hg hg rfl rfl rfl rfl fun i x y hx hy => ?_
    rw [hx] at hy; cases hy
    have := w p _ hg x (List.mem_of_getElem? hx)
    exact ih x this (by omega)

theorem same_symm {H : Heap} {p q : Ptr} (h : Same H p q) : Same H q p := by
  induction h with
  | mk h1 h2 h3 h4 h5 h6 _ ih => exact .mk h2 h1 h3.symm h4.symm h5.symm h6.symm fun i x y hx hy => ih i y x hy hx

theorem same_trans {H : Heap} {p q : Ptr} (h : Same H p q) : ∀ {r}, Same H q r → Same H p r := by
  induction h with
  | mk h1 h2 h3 h4 h5 h6 _ ih =>
    intro r hr
    cases hr with
    | mk g1 g2 g3 g4 g5 g6 g7 =>
      rw [h2] at g1; cases g1
      refine .mk h1 g2 (h3.trans g3) (h4.trans g4) (h5.trans g5) (h6.trans g6) fun i x y hx hy => ?_
      have hi := lt_of_get hx
      rw [h6] at hi
      exact ih i x _ hx (List.getElem?_eq_getElem hi) (g7 i _ y (List.getElem?_eq_getElem hi) hy)

/-- same structure, same hash -/
theorem same_hash {F : HashFn} {H : Heap} (ok : HashOK F H) {p q : Ptr} (h : Same H p q) :
    hashAt H p = hashAt H q ∧ ∀ a b : Obj, H[p]? = some a → H[q]? = some b → a.chash = b.chash := by
  induction h with
  | @mk p q a b h1 h2 h3 h4 h5 h6 _ ih =>
    obtain ⟨ca, ha⟩ := ok p a h1
    obtain ⟨cb, hb⟩ := ok q b h2
    have hm : a.children.map (hashAt H) = b.children.map (hashAt H) := by
      apply List.ext_getElem?
      intro i
      rw [List.getElem?_map, List.getElem?_map]
      rcases Nat.lt_or_ge i a.children.length with hi | hi
      · have hi' : i < b.children.length := by omega
        have e1 := List.getElem?_eq_getElem hi
        have e2 := List.getElem?_eq_getElem hi'
        rw [e1, e2]
        simp only [Option.map_some, Option.some.injEq]
        exact (ih i _ _ e1 e2).1
      · rw [List.getElem?_eq_none hi, List.getElem?_eq_none (by omega)]
    have hc : a.chash = b.chash := by
      rw [ca, cb]; unfold chashOf; rw [hm]
      have : a.children.isEmpty = b.children.isEmpty := by
        rw [Bool.eq_iff_iff, List.isEmpty_iff, List.isEmpty_iff, ← List.length_eq_zero_iff, h6, List.length_eq_zero_iff]
      rw [this]
    constructor
    · unfold hashAt; rw [h1, h2]; simp only [Option.map_some, Option.getD_some]
      rw [ha, hb, h3, h4, h5, h6, hc]
    · intro a' b' h1' h2'
      rw [h1] at h1'; cases h1'; rw [h2] at h2'; cases h2'; exact hc

/-- what `isEquivalentTo` may assume about the visited set, and what it gives back -/
theorem equivV_exact {F : HashFn} {H : Heap} (w : WF H) (ok : HashOK F H) :
    ∀ (n : Nat) (p q : Ptr) (v : Vis), p < n → p < H.length → q < H.length → (∀ e ∈ v, Same H e.1 e.2 ∨ p < e.1) →
      ((equivV H n p q v).1 = true → Same H p q ∧
        ∀ e ∈ (equivV H n p q v).2, e ∈ v ∨ Same H e.1 e.2) ∧
      ((equivV H n p q v).1 = false → ¬ Same H p q) := by
  intro n
  induction n with
  | zero => intro p q v hp; omega
  | succ n ih =>
    intro p q v hpn hp hq hv
    unfold equivV
    by_cases hpq : p = q
    · subst hpq
      simp only [if_true]
      exact ⟨fun _ => ⟨same_refl w p hp, fun e he => .inl he⟩, fun h => by cases h⟩
    · simp only [hpq, if_false]
      have ea := List.getElem?_eq_getElem hp
      have eb := List.getElem?_eq_getElem hq
      generalize H[p] = a at ea
      generalize H[q] = b at eb
      rw [ea, eb]
      simp only
      by_cases c1 : a.kind ≠ b.kind ∨ a.children.length ≠ b.children.length ∨ a.sort ≠ b.sort
      · rw [if_pos c1]
        refine ⟨fun h => (by cases h), fun _ hs => ?_⟩
        cases hs with
        | mk g1 g2 g3 g4 g5 g6 g7 =>
          rw [ea] at g1; cases g1; rw [eb] at g2; cases g2
          rcases c1 with c | c | c
          · exact c g4
          · exact c g6
          · exact c g3
      · rw [if_neg c1]
        simp only [ne_eq, not_or, Decidable.not_not] at c1
        obtain ⟨k1, k2, k3⟩ := c1
        by_cases c2 : a.name ≠ b.name
        · rw [if_pos c2]
          refine ⟨fun h => (by cases h), fun _ hs => ?_⟩
          cases hs with
          | mk g1 g2 g3 g4 g5 g6 g7 =>
            rw [ea] at g1; cases g1; rw [eb] at g2; cases g2
            exact c2 g5
        · rw [if_neg c2]
          simp only [ne_eq, Decidable.not_not] at c2
          by_cases c3 : a.chash ≠ none ∧ b.chash ≠ none ∧ a.chash ≠ b.chash
          · rw [if_pos c3]
            refine ⟨fun h => (by cases h), fun _ hs => ?_⟩
            exact c3.2.2 ((same_hash ok hs).2 a b ea eb)
          · rw [if_neg c3]
            by_cases c4 : (p, q) ∈ v
            · rw [if_pos c4]
              refine ⟨fun _ => ⟨?_, fun e he => .inl he⟩, fun h => by cases h⟩
              rcases hv _ c4 with h | h
              · exact h
              · exact absurd h (Nat.lt_irrefl _)
            · rw [if_neg c4]
              -- the loop over the children
              have loop : ∀ (xs ys : List Ptr) (u : Vis), xs.length = ys.length → (∀ x ∈ xs, x < p) → (∀ y ∈ ys, y < q) →
                  (∀ e ∈ u, Same H e.1 e.2 ∨ p ≤ e.1) →
                  ((allPairs (equivV H n) xs ys u).1 = true →
                    (∀ (i : Nat) (x y : Ptr), xs[i]? = some x → ys[i]? = some y → Same H x y) ∧
                    ∀ e ∈ (allPairs (equivV H n) xs ys u).2, e ∈ u ∨ Same H e.1 e.2) ∧
                  ((allPairs (equivV H n) xs ys u).1 = false →
                    ∃ (i : Nat) (x y : Ptr), xs[i]? = some x ∧ ys[i]? = some y ∧ ¬ Same H x y) := by
                intro xs
                induction xs with
                | nil =>
                  intro ys u _ _ _ _
                  unfold allPairs
                  exact ⟨fun _ => ⟨fun i x y hx => by simp at hx, fun e he => .inl he⟩, fun h => by cases h⟩
                | cons x xs ihx =>
                  intro ys u hl hx hy hu
                  cases ys with
                  | nil => simp at hl
                  | cons y ys =>
                    have hxp := hx x List.mem_cons_self
                    have hyq := hy y List.mem_cons_self
                    obtain ⟨t1, t2⟩ := ih x y u (by omega) (by omega) (by omega)
                      (fun e he => (hu e he).imp id (fun h => by omega))
                    unfold allPairs
                    cases hr : equivV H n x y u with
                    | mk r u' =>
                      rw [hr] at t1 t2
                      cases r with
                      | false =>
                        simp only
                        refine ⟨fun h => (by cases h), fun _ => ⟨0, x, y, rfl, rfl, t2 rfl⟩⟩
                      | true =>
                        simp only
                        obtain ⟨s1, s2⟩ := t1 rfl
                        obtain ⟨r1, r2⟩ := ihx ys u' (by simpa using hl)
                          (fun z hz => hx z (List.mem_cons_of_mem _ hz)) (fun z hz => hy z (List.mem_cons_of_mem _ hz))
                          (fun e he => (s2 e he).elim (hu e) .inl)
                        constructor
                        · intro h
                          obtain ⟨p1, p2⟩ := r1 h
                          constructor
                          · intro i a' b' ha hb
                            cases i with
                            | zero => simp only [List.getElem?_cons_zero, Option.some.injEq] at ha hb
                                      rw [← ha, ← hb]; exact s1
                            | succ i => exact p1 i a' b' (by simpa using ha) (by simpa using hb)
                          · intro e he
                            exact (p2 e he).elim (s2 e) .inr
                        · intro h
                          obtain ⟨i, a', b', ha, hb, hn⟩ := r2 h
                          exact ⟨i + 1, a', b', by simpa using ha, by simpa using hb, hn⟩
              obtain ⟨l1, l2⟩ := loop a.children b.children ((p, q) :: v) k2 (w p a ea) (w q b eb) (by
                intro e he
                rcases List.mem_cons.mp he with rfl | he
                · exact .inr (Nat.le_refl _)
                · exact (hv e he).imp id (fun h => by omega))
              constructor
              · intro h
                obtain ⟨m1, m2⟩ := l1 h
                have hs : Same H p q := .mk ea eb k3 k1 c2 k2 m1
                refine ⟨hs, fun e he => ?_⟩
                rcases m2 e he with h' | h'
                · rcases List.mem_cons.mp h' with rfl | h''
                  · exact .inr hs
                  · exact .inl h''
                · exact .inr h'
              · intro h hs
                obtain ⟨i, x, y, hx, hy, hn⟩ := l2 h
                cases hs with
                | mk g1 g2 g3 g4 g5 g6 g7 =>
                  rw [ea] at g1; cases g1; rw [eb] at g2; cases g2
                  exact hn (g7 i x y hx hy)

/-- **C19.**  Structural comparison of two nodes answers yes exactly when they have the same structure, for every DAG,
every sharing pattern and every hash function. -/
theorem equiv_exact {F : HashFn} {H : Heap} (w : WF H) (ok : HashOK F H) {p q : Ptr} (hp : p < H.length)
    (hq : q < H.length) : equiv H p q = true ↔ Same H p q := by
  obtain ⟨h1, h2⟩ := equivV_exact w ok (p + 1) p q [] (by omega) hp hq (fun e he => by cases he)
  unfold equiv
  cases h : (equivV H (p + 1) p q []).1 with
  | true => simp only [true_iff]; exact (h1 h).1
  | false => simp only [Bool.false_eq_true, false_iff]; exact h2 h

/-! ## Growing the heap -/

theorem get_append {H : Heap} {o : Obj} {p : Ptr} (hp : p < H.length) : (H ++ [o])[p]? = H[p]? :=
  List.getElem?_append_left hp

theorem hashAt_append {H : Heap} {o : Obj} {p : Ptr} (hp : p < H.length) : hashAt (H ++ [o]) p = hashAt H p := by
  unfold hashAt; rw [get_append hp]

theorem chash_append {F : HashFn} {H : Heap} {o : Obj} {cs : List Ptr} (h : ∀ c ∈ cs, c < H.length) :
    chashOf F (H ++ [o]) cs = chashOf F H cs := by
  unfold chashOf
  rw [List.map_congr_left (fun c hc => hashAt_append (h c hc))]

theorem wf_append {F : HashFn} {H : Heap} (w : WF H) {r : Req} (hc : ∀ c ∈ r.children, c < H.length) :
    WF (H ++ [mkObj F H r]) := by
  intro p o hp c hcm
  rcases Nat.lt_or_ge p H.length with h | h
  · rw [get_append h] at hp; exact w p o hp c hcm
  · have := lt_of_get hp
    simp only [List.length_append, List.length_cons, List.length_nil] at this
    have e : p = H.length := by omega
    subst e
    simp only [List.getElem?_concat_length, Option.some.injEq] at hp
    rw [← hp] at hcm
    exact hc c hcm

theorem hashOK_append {F : HashFn} {H : Heap} (w : WF H) (ok : HashOK F H) {r : Req} (hc : ∀ c ∈ r.children, c < H.length) :
    HashOK F (H ++ [mkObj F H r]) := by
  intro p o hp
  rcases Nat.lt_or_ge p H.length with h | h
  · rw [get_append h] at hp
    obtain ⟨h1, h2⟩ := ok p o hp
    refine ⟨?_, h2⟩
    rw [chash_append fun c hc' => by have := w p o hp c hc'; omega]; exact h1
  · have := lt_of_get hp
    simp only [List.length_append, List.length_cons, List.length_nil] at this
    have e : p = H.length := by omega
    subst e
    simp only [List.getElem?_concat_length, Option.some.injEq] at hp
    subst hp
    refine ⟨?_, rfl⟩
    show chashOf F H r.children = _
    exact (chash_append hc).symm

theorem same_append {H : Heap} {o : Obj} (w : WF H) {p q : Ptr} (hp : p < H.length) (hq : q < H.length) :
    Same (H ++ [o]) p q ↔ Same H p q := by
  constructor
  · intro h
    have key : ∀ {p q}, Same (H ++ [o]) p q → p < H.length → q < H.length → Same H p q := by
      intro p q h
      induction h with
      | mk h1 h2 h3 h4 h5 h6 _ ih =>
        intro hp hq
        rw [get_append hp] at h1; rw [get_append hq] at h2
        refine .mk h1 h2 h3 h4 h5 h6 fun i x y hx hy => ?_
        have := w _ _ h1 x (List.mem_of_getElem? hx)
        have := w _ _ h2 y (List.mem_of_getElem? hy)
        exact ih i x y hx hy (by omega) (by omega)
    exact key h hp hq
  · intro h
    clear hp hq
    induction h with
    | mk h1 h2 h3 h4 h5 h6 _ ih =>
      exact .mk (by rw [get_append (lt_of_get h1)]; exact h1) (by rw [get_append (lt_of_get h2)]; exact h2) h3 h4 h5 h6 ih

/-! ## The manager -/

/-- Invariant of the manager. -/
structure Inv (F : HashFn) (st : St) : Prop where
  wf : WF st.heap
  ok : HashOK F st.heap
  bound : ∀ p ∈ st.nodes, p < st.heap.length
  nodup : st.nodes.Nodup
  bucket : ∀ k h q i, (q, i) ∈ st.buckets k h ↔
    st.nodes[i]? = some q ∧ ∃ o, st.heap[q]? = some o ∧ o.kind = k ∧ o.hash = h
  canon : ∀ p ∈ st.nodes, ∀ q ∈ st.nodes, Same st.heap p q → p = q
  closed : ∀ p ∈ st.nodes, ∀ o, st.heap[p]? = some o → ∀ c ∈ o.children, c ∈ st.nodes

theorem inv_empty (F : HashFn) : Inv F empty := by
  constructor <;> simp [empty, WF, HashOK]

/-- the object carries exactly what was requested -/
def Carries (o : Obj) (r : Req) : Prop :=
  o.sort = r.sort ∧ o.kind = r.kind ∧ o.name = r.name ∧ o.children = r.children

theorem carries_mk (F : HashFn) (H : Heap) (r : Req) : Carries (mkObj F H r) r := ⟨rfl, rfl, rfl, rfl⟩

theorem carries_inj {o : Obj} {r r' : Req} (h : Carries o r) (h' : Carries o r') : r = r' := by
  obtain ⟨a, b, c, d⟩ := h; obtain ⟨a', b', c', d'⟩ := h'
  cases r; cases r'; simp_all

theorem getElem?_inj {α} {l : List α} (hn : l.Nodup) {i j : Nat} {a : α} (h1 : l[i]? = some a) (h2 : l[j]? = some a) :
    i = j := by
  have h := (List.getElem?_inj (lt_of_get h1) hn).mp (h1.trans h2.symm)
  exact h

/-- one creation request -/
theorem create_step {F : HashFn} {st : St} (inv : Inv F st) (r : Req) (hc : ∀ c ∈ r.children, c ∈ st.nodes) :
    Inv F (create F st r).2 ∧ st.nodes <+: (create F st r).2.nodes ∧
    (create F st r).1 ∈ (create F st r).2.nodes ∧
    (∃ o, (create F st r).2.heap = st.heap ++ [o]) ∧
    (∃ o, (create F st r).2.heap[(create F st r).1]? = some o ∧ Carries o r) ∧
    ((create F st r).1 ∈ st.nodes ∧ (create F st r).2.nodes = st.nodes ∨
      (create F st r).1 = st.heap.length ∧ (create F st r).2.nodes = st.nodes ++ [st.heap.length]) := by
  have hb : ∀ c ∈ r.children, c < st.heap.length := fun c h => inv.bound c (hc c h)
  generalize hH : st.heap ++ [mkObj F st.heap r] = H'
  generalize hn : st.heap.length = n
  have w' : WF H' := hH ▸ wf_append inv.wf hb
  have ok' : HashOK F H' := hH ▸ hashOK_append inv.wf inv.ok hb
  have hlen : H'.length = n + 1 := by rw [← hH, ← hn]; simp
  have hget : H'[n]? = some (mkObj F st.heap r) := by rw [← hH, ← hn]; simp
  have hold : ∀ p, p < n → H'[p]? = st.heap[p]? := fun p hp => by rw [← hH]; exact get_append (by omega)
  have hsame : ∀ p q, p < n → q < n → (Same H' p q ↔ Same st.heap p q) := by
    intro p q hp hq; rw [← hH]; exact same_append inv.wf (by omega) (by omega)
  have hbn : ∀ p ∈ st.nodes, p < n := fun p hp => hn ▸ inv.bound p hp
  have hbuck : ∀ k h q i, (q, i) ∈ st.buckets k h ↔
      st.nodes[i]? = some q ∧ ∃ o, H'[q]? = some o ∧ o.kind = k ∧ o.hash = h := by
    intro k h q i
    rw [inv.bucket]
    constructor
    · rintro ⟨h1, o, h2, h3⟩
      exact ⟨h1, o, (hold q (hbn q (List.mem_of_getElem? h1))).trans h2, h3⟩
    · rintro ⟨h1, o, h2, h3⟩
      exact ⟨h1, o, (hold q (hbn q (List.mem_of_getElem? h1))).symm.trans h2, h3⟩
  unfold create insertNode
  rw [hH, hn]
  simp only [hget]
  generalize ho : mkObj F st.heap r = o at *
  have hcar : Carries o r := ho ▸ carries_mk F st.heap r
  -- an entry passes the test exactly when it has the requested structure
  have hhit : ∀ e, e ∈ st.buckets o.kind o.hash → (hit H' n o e = true ↔ Same H' e.1 n) := by
    rintro ⟨q, i⟩ he
    rw [hbuck] at he
    obtain ⟨h1, b, h2, h3, h4⟩ := he
    have hq := hbn q (List.mem_of_getElem? h1)
    have hqn : (q == n) = false := by simp; omega
    unfold hit
    simp only [hqn, Bool.false_or, h2, Bool.and_eq_true, beq_iff_eq]
    rw [equiv_exact w' ok' (by omega) (by omega)]
    constructor
    · rintro ⟨_, h⟩; exact h
    · intro h
      refine ⟨?_, h⟩
      cases h with
      | mk g1 g2 g3 g4 g5 g6 g7 =>
        rw [h2] at g1; cases g1; rw [hget] at g2; cases g2
        exact ⟨⟨g4, g6⟩, g5⟩
  have invH : Inv F { st with heap := H' } := by
    constructor
    · exact w'
    · exact ok'
    · intro p hp; have := hbn p hp; show p < H'.length; omega
    · exact inv.nodup
    · exact hbuck
    · intro p hp q hq h
      exact inv.canon p hp q hq ((hsame p q (hbn p hp) (hbn q hq)).mp h)
    · intro p hp o' ho' c hcm
      rw [show ({ st with heap := H' } : St).heap = H' from rfl, hold p (hbn p hp)] at ho'
      exact inv.closed p hp o' ho' c hcm
  have hsplit : ∃ o', H' = st.heap ++ [o'] := ⟨o, hH.symm⟩
  cases hf : (st.buckets o.kind o.hash).find? (hit H' n o) with
  | some e =>
    obtain ⟨q, i⟩ := e
    have hmem := List.mem_of_find?_eq_some hf
    have hs := (hhit _ hmem).mp (List.find?_some hf)
    rw [hbuck] at hmem
    obtain ⟨h1, b, h2, h3, h4⟩ := hmem
    have hqm := List.mem_of_getElem? h1
    simp only [h1, Option.getD_some]
    refine ⟨invH, List.prefix_refl _, hqm, hsplit, ⟨b, h2, ?_⟩, .inl ⟨hqm, trivial⟩⟩
    cases hs with
    | mk g1 g2 g3 g4 g5 g6 g7 =>
      rw [h2] at g1; cases g1; rw [hget] at g2; cases g2
      refine ⟨g3.trans hcar.1, g4.trans hcar.2.1, g5.trans hcar.2.2.1, ?_⟩
      rw [← hcar.2.2.2]
      apply List.ext_getElem?
      intro j
      rcases Nat.lt_or_ge j b.children.length with hj | hj
      · have e1 := List.getElem?_eq_getElem hj
        have e2 : o.children[j]? = some o.children[j] := List.getElem?_eq_getElem (by omega)
        rw [e1, e2]
        have hx : b.children[j] ∈ st.nodes :=
          inv.closed q hqm b ((hold q (hbn q hqm)).symm.trans h2) _ (List.getElem_mem hj)
        have hy : o.children[j]'(by omega) ∈ st.nodes := hc _ (hcar.2.2.2 ▸ List.getElem_mem (by omega : j < o.children.length))
        have := g7 j _ _ e1 e2
        rw [hsame _ _ (hbn _ hx) (hbn _ hy)] at this
        exact congrArg some (inv.canon _ hx _ hy this)
      · rw [List.getElem?_eq_none hj, List.getElem?_eq_none (by omega)]
  | none =>
    have hno : ∀ p ∈ st.nodes, ¬ Same H' p n := by
      intro p hp hs
      obtain ⟨i, hi, hpi⟩ := List.getElem_of_mem hp
      have h1 : st.nodes[i]? = some p := hpi ▸ List.getElem?_eq_getElem hi
      have hb' : (p, i) ∈ st.buckets o.kind o.hash := by
        rw [hbuck]
        have hs' := hs
        cases hs' with
        | mk g1 g2 g3 g4 g5 g6 g7 =>
          rw [hget] at g2; cases g2
          refine ⟨h1, _, g1, g4, ?_⟩
          have := (same_hash ok' hs).1
          unfold hashAt at this
          rw [g1, hget] at this
          simpa using this
      have := List.find?_eq_none.mp hf _ hb'
      exact this ((hhit _ hb').mpr hs)
    have hnn : n ∉ st.nodes := fun h => Nat.lt_irrefl _ (hbn n h)
    simp only
    refine ⟨?_, List.prefix_append _ _, by simp, hsplit, ⟨o, hget, hcar⟩, .inr ⟨trivial, trivial⟩⟩
    constructor
    · exact w'
    · exact ok'
    · intro p hp
      show p < H'.length
      rcases List.mem_append.mp hp with hp | hp
      · have := hbn p hp; omega
      · simp only [List.mem_singleton] at hp; omega
    · show (st.nodes ++ [n]).Nodup
      rw [List.nodup_append]
      exact ⟨inv.nodup, by simp, by rintro a ha b hb rfl; simp only [List.mem_singleton] at hb; exact hnn (hb ▸ ha)⟩
    · intro k h q i
      show (q, i) ∈ (if k = o.kind ∧ h = o.hash then st.buckets k h ++ [(n, st.nodes.length)] else st.buckets k h) ↔
        (st.nodes ++ [n])[i]? = some q ∧ _
      have hA : (st.nodes ++ [n])[i]? = some q ↔ st.nodes[i]? = some q ∨ (i = st.nodes.length ∧ q = n) := by
        rcases Nat.lt_trichotomy i st.nodes.length with hi | hi | hi
        · rw [List.getElem?_append_left hi]
          exact ⟨.inl, fun h => h.elim id (fun h => by omega)⟩
        · subst hi
          simp only [List.getElem?_concat_length, Option.some.injEq, true_and]
          rw [List.getElem?_eq_none (Nat.le_refl _)]
          simp only [reduceCtorEq, false_or]; exact eq_comm
        · rw [List.getElem?_eq_none (by simp; omega), List.getElem?_eq_none (by omega)]
          simp only [reduceCtorEq, false_or, false_iff]; omega
      rw [hA]
      have hB : (q, i) ∈ (if k = o.kind ∧ h = o.hash then st.buckets k h ++ [(n, st.nodes.length)] else st.buckets k h) ↔
          (q, i) ∈ st.buckets k h ∨ (k = o.kind ∧ h = o.hash) ∧ q = n ∧ i = st.nodes.length := by
        split
        · rename_i hk; simp [hk]
        · rename_i hk; simp [hk]
      rw [hB, hbuck]
      constructor
      · rintro (⟨h1, h2⟩ | ⟨⟨rfl, rfl⟩, rfl, rfl⟩)
        · exact ⟨.inl h1, h2⟩
        · exact ⟨.inr ⟨rfl, rfl⟩, o, hget, rfl, rfl⟩
      · rintro ⟨h1 | ⟨rfl, rfl⟩, o', h2, rfl, rfl⟩
        · exact .inl ⟨h1, o', h2, rfl, rfl⟩
        · rw [hget] at h2; cases h2
          exact .inr ⟨⟨rfl, rfl⟩, rfl, rfl⟩
    · intro p hp q hq hs
      rcases List.mem_append.mp hp with hp' | hp' <;> rcases List.mem_append.mp hq with hq' | hq'
      · exact inv.canon p hp' q hq' ((hsame p q (hbn p hp') (hbn q hq')).mp hs)
      · simp only [List.mem_singleton] at hq'; rw [hq'] at hs; exact absurd hs (hno p hp')
      · simp only [List.mem_singleton] at hp'; rw [hp'] at hs; exact absurd (same_symm hs) (hno q hq')
      · simp only [List.mem_singleton] at hp' hq'; rw [hp', hq']
    · intro p hp o' ho' c hcm
      rcases List.mem_append.mp hp with hp | hp
      · rw [show ({ st with heap := H' } : St).heap = H' from rfl, hold p (hbn p hp)] at ho'
        exact List.mem_append_left _ (inv.closed p hp o' ho' c hcm)
      · simp only [List.mem_singleton] at hp; subst hp
        rw [show ({ st with heap := H' } : St).heap = H' from rfl, hget] at ho'; cases ho'
        exact List.mem_append_left _ (hc c (hcar.2.2.2 ▸ hcm))

/-- Manager states related by any number of creation requests whose children are nodes of the manager. -/
inductive Steps (F : HashFn) : St → St → Prop where
  | refl (st) : Steps F st st
  | step {st st'} (r : Req) : Steps F st st' → (∀ c ∈ r.children, c ∈ st'.nodes) → Steps F st (create F st' r).2

/-- Every history of a manager: the static nodes, then creation requests. -/
def Reach (F : HashFn) (st : St) : Prop := Steps F (init F) st

theorem createAll_inv {F : HashFn} (rs : List Req) (h : ∀ r ∈ rs, r.children = []) {st : St} (inv : Inv F st) :
    Inv F (createAll F st rs) := by
  induction rs generalizing st with
  | nil => exact inv
  | cons r rs ih =>
    exact ih (fun r' h' => h r' (List.mem_cons_of_mem _ h'))
      (create_step inv r (by rw [h r List.mem_cons_self]; simp)).1

theorem inv_init (F : HashFn) : Inv F (init F) :=
  createAll_inv statics (by decide) (inv_empty F)

theorem steps_inv {F : HashFn} {a b : St} (h : Steps F a b) (inv : Inv F a) :
    Inv F b ∧ a.nodes <+: b.nodes ∧ a.heap <+: b.heap := by
  induction h with
  | refl => exact ⟨inv, List.prefix_refl _, List.prefix_refl _⟩
  | step r h hc ih =>
    obtain ⟨i1, i2, i3⟩ := ih
    obtain ⟨j1, j2, _, ⟨o, ho⟩, _⟩ := create_step i1 r hc
    exact ⟨j1, i2.trans j2, i3.trans (ho ▸ List.prefix_append _ _)⟩

theorem reach_inv {F : HashFn} {st : St} (h : Reach F st) : Inv F st := (steps_inv h (inv_init F)).1

theorem steps_trans {F : HashFn} {a b c : St} (h1 : Steps F a b) (h2 : Steps F b c) : Steps F a c := by
  induction h2 with
  | refl => exact h1
  | step r _ hc ih => exact .step r ih hc

theorem prefix_get {α} {l l' : List α} (h : l <+: l') {i : Nat} {a : α} (hg : l[i]? = some a) : l'[i]? = some a := by
  obtain ⟨t, rfl⟩ := h
  rw [List.getElem?_append_left (lt_of_get hg)]; exact hg

/-- **C19.**  Whatever happened before, and whatever is created in between, two creation requests return the same node
if and only if they ask for the same sort, kind, name and children. -/
theorem hashcons_exact {F : HashFn} {st st' : St} (hr : Reach F st) (r r' : Req)
    (hc : ∀ c ∈ r.children, c ∈ st.nodes) (hlater : Steps F (create F st r).2 st')
    (hc' : ∀ c ∈ r'.children, c ∈ st'.nodes) :
    (create F st r).1 = (create F st' r').1 ↔ r = r' := by
  obtain ⟨i1, _, p1, _, ⟨o, c1, d1⟩, _⟩ := create_step (reach_inv hr) r hc
  obtain ⟨i2, n2, h2⟩ := steps_inv hlater i1
  obtain ⟨i3, n3, p3, ⟨_, e3⟩, ⟨o', c3, d3⟩, _⟩ := create_step i2 r' hc'
  have c1' : (create F st' r').2.heap[(create F st r).1]? = some o := by
    rw [e3]; exact prefix_get (List.prefix_append _ _) (prefix_get h2 c1)
  constructor
  · intro h
    rw [h, c3] at c1'
    cases c1'
    exact carries_inj d1 d3
  · rintro rfl
    refine i3.canon _ ?_ _ p3 ?_
    · exact n3.subset (n2.subset p1)
    · refine .mk c1' c3 (d1.1.trans d3.1.symm) (d1.2.1.trans d3.2.1.symm) (d1.2.2.1.trans d3.2.2.1.symm)
        (by rw [d1.2.2.2, d3.2.2.2]) fun i x y hx hy => ?_
      rw [d1.2.2.2] at hx; rw [d3.2.2.2] at hy
      rw [hx] at hy; cases hy
      have hm := n3.subset (hc' x (List.mem_of_getElem? hx))
      exact same_refl i3.wf x (i3.bound x hm)

theorem getIndex_of_mem {F : HashFn} {st : St} (inv : Inv F st) {p : Ptr} (hp : p ∈ st.nodes) :
    ∃ i, getIndex st p = some i ∧ st.nodes[i]? = some p := by
  obtain ⟨i, hi, hpi⟩ := List.getElem_of_mem hp
  have h1 : st.nodes[i]? = some p := hpi ▸ List.getElem?_eq_getElem hi
  have hb := inv.bound p hp
  have hg := List.getElem?_eq_getElem hb
  generalize st.heap[p] = o at hg
  have hm : (p, i) ∈ st.buckets o.kind o.hash := (inv.bucket _ _ _ _).mpr ⟨h1, o, hg, rfl, rfl⟩
  refine ⟨i, ?_, h1⟩
  unfold getIndex
  rw [hg]
  simp only
  cases hf : (st.buckets o.kind o.hash).find? (fun e => e.1 == p || equiv st.heap e.1 p) with
  | none =>
    have := List.find?_eq_none.mp hf _ hm
    simp at this
  | some e =>
    obtain ⟨q, j⟩ := e
    have h2 := List.mem_of_find?_eq_some hf
    rw [inv.bucket] at h2
    have hq := List.mem_of_getElem? h2.1
    have h3 := List.find?_some hf
    simp only [Bool.or_eq_true, beq_iff_eq] at h3
    have : q = p := by
      rcases h3 with h3 | h3
      · exact h3
      · exact inv.canon q hq p hp ((equiv_exact inv.wf inv.ok (inv.bound q hq) hb).mp h3)
    subst this
    rw [getElem?_inj inv.nodup h2.1 h1]; rfl

/-- **C19.**  The returned node is the requested one, it has an index at which the manager stores it, and neither the
index nor the contents ever change. -/
theorem index_stable {F : HashFn} {st : St} (hr : Reach F st) (r : Req) (hc : ∀ c ∈ r.children, c ∈ st.nodes) :
    ∃ i o, Carries o r ∧ ∀ st', Steps F (create F st r).2 st' →
      getIndex st' (create F st r).1 = some i ∧ getNode st' i = some (create F st r).1 ∧
      st'.heap[(create F st r).1]? = some o := by
  obtain ⟨i1, _, p1, _, ⟨o, c1, d1⟩, _⟩ := create_step (reach_inv hr) r hc
  obtain ⟨i, hi, hn⟩ := getIndex_of_mem i1 p1
  refine ⟨i, o, d1, fun st' hs => ?_⟩
  obtain ⟨i2, n2, h2⟩ := steps_inv hs i1
  have hn' := prefix_get n2 hn
  obtain ⟨j, hj, hjn⟩ := getIndex_of_mem i2 (n2.subset p1)
  have : j = i := getElem?_inj i2.nodup hjn hn'
  subst this
  exact ⟨hj, hn', prefix_get h2 c1⟩

/-- **C19.**  A request that has been made before creates nothing; a new one adds exactly one node. -/
theorem size_exact {F : HashFn} {st : St} (hr : Reach F st) (r : Req) (hc : ∀ c ∈ r.children, c ∈ st.nodes) :
    ((create F st r).2.nodes = st.nodes ∧ (create F st r).1 ∈ st.nodes) ∨
    ((create F st r).2.nodes = st.nodes ++ [(create F st r).1] ∧ (create F st r).1 ∉ st.nodes) := by
  have inv := reach_inv hr
  obtain ⟨_, _, _, _, _, h⟩ := create_step inv r hc
  rcases h with ⟨h1, h2⟩ | ⟨h1, h2⟩
  · exact .inl ⟨h2, h1⟩
  · refine .inr ⟨by rw [h1, h2], fun h => ?_⟩
    have := inv.bound _ h
    omega

/-- `Parser::mkRoundingMode` (`src/op_parser.cpp:693-697`): every call makes a fresh sort object (`s` below is its pointer)
and asks for a constant of it. -/
def mkRoundingMode (F : HashFn) (st : St) (s : Nat) (mode : List Char) : Ptr × St := create F st ⟨s, .CONST, mode, []⟩

/-- **C19, violated.**  Asking twice for the same rounding mode gives two different nodes, whatever the hash. -/
theorem roundingMode_violated {F : HashFn} {st : St} (hr : Reach F st) (mode : List Char) (s s' : Nat) (hs : s ≠ s') :
    (mkRoundingMode F st s mode).1 ≠ (mkRoundingMode F (mkRoundingMode F st s mode).2 s' mode).1 := by
  unfold mkRoundingMode
  rw [Ne, hashcons_exact hr _ _ (by simp) (.refl _) (by simp)]
  intro h; exact hs (congrArg Req.sort h)

/-- Non-vacuous: two requests for `x : Bool` separated by other requests return the same node, a request for `y` another. -/
example (F : HashFn) (s0 : St) (r0 : Reach F s0) :
    let x : Req := ⟨BOOL_S, .VAR, cs!"x", []⟩
    let y : Req := ⟨BOOL_S, .VAR, cs!"y", []⟩
    let s1 := create F s0 x
    let s2 := create F s1.2 y
    let s3 := create F s2.2 ⟨BOOL_S, .AND, cs!"and", [s1.1, s2.1]⟩
    let s4 := create F s3.2 x
    s4.1 = s1.1 ∧ s2.1 ≠ s1.1 ∧ (create F s4.2 ⟨BOOL_S, .AND, cs!"and", [s1.1, s2.1]⟩).1 = s3.1 ∧
    (create F s4.2 ⟨BOOL_S, .AND, cs!"and", [s2.1, s1.1]⟩).1 ≠ s3.1 := by
  intro x y s1 s2 s3 s4
  have i0 := reach_inv r0
  have t1 := create_step i0 x (by simp [x])
  have r1 : Reach F s1.2 := .step x r0 (by simp [x])
  have t2 := create_step t1.1 y (by simp [y])
  have r2 : Reach F s2.2 := .step y r1 (by simp [y])
  have hx : s1.1 ∈ s2.2.nodes := t2.2.1.subset t1.2.2.1
  have hy : s2.1 ∈ s2.2.nodes := t2.2.2.1
  have ha : ∀ c ∈ [s1.1, s2.1], c ∈ s2.2.nodes := by
    intro c hc; rcases List.mem_cons.mp hc with rfl | hc
    · exact hx
    · simp only [List.mem_singleton] at hc; rw [hc]; exact hy
  have l3 : Steps F s2.2 s3.2 := .step _ (.refl _) ha
  have l4 : Steps F s3.2 s4.2 := .step x (.refl _) (by simp [x])
  have n4 : s2.2.nodes <+: s4.2.nodes := (steps_inv (steps_trans l3 l4) (reach_inv r2)).2.1
  have ne : s2.1 ≠ s1.1 := by
    intro h
    have := (hashcons_exact r0 x y (by simp [x]) (.refl _) (by simp [y])).mp h.symm
    simp [x, y] at this
  refine ⟨?_, ne, ?_, ?_⟩
  · exact ((hashcons_exact r0 x x (by simp [x]) (steps_trans (.step y (.refl _) (by simp [y])) l3) (by simp [x])).mpr rfl).symm
  · exact ((hashcons_exact r2 _ _ ha l4 (fun c hc => n4.subset (ha c hc))).mpr rfl).symm
  · intro h
    have := (hashcons_exact r2 _ ⟨BOOL_S, .AND, cs!"and", [s2.1, s1.1]⟩ ha l4
      (fun c hc => n4.subset (ha c (by simp only [List.mem_cons, List.not_mem_nil, or_false] at hc ⊢; exact hc.symm)))).mp h.symm
    simp only [Req.mk.injEq, List.cons.injEq, and_true, true_and] at this
    exact ne this.2

/-- such a state exists -/
example (F : HashFn) : ∃ st, Reach F st := ⟨init F, .refl _⟩

end SMT.Store
