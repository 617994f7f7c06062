import Verif.Store.Props

/-! # Traversal (C21): `NodeVisitor::walk` and `Parser::getNodeCount` -/

namespace SMT.Store
open SMT.Kinds SMT.Text

/-- children of the node at a pointer (`include/node.h:131-134`) -/
def kids (H : Heap) (p : Ptr) : List Ptr := (H[p]?.map Obj.children).getD []

/-- membership in `std::unordered_set<Node, NodeHash, NodeEqual>` (`include/dag.h:1000-1014`) -/
def hasNode (H : Heap) (v : List Ptr) (p : Ptr) : Bool := v.any fun q => hashAt H q == hashAt H p && equiv H q p

/-- the loop of `NodeVisitor::walk` (`src/visitor.cpp:15-42`): `stack` has the top first, `v` is the visited set in
order of insertion, which is also the sequence of calls of `visit`.  `none`: not finished within `n` rounds. -/
def walkLoop (H : Heap) : Nat → List Ptr → List Ptr → Option (List Ptr)
  | _, [], v => some v
  | 0, _ :: _, _ => none
  | n + 1, p :: stack, v =>
    if hasNode H v p then walkLoop H n stack v
    else walkLoop H n (kids H p ++ stack) (v ++ [p])

/-- `NodeVisitor::walk` (`src/visitor.cpp:15-42`) on a visitor that has already visited `v` -/
def walk (H : Heap) (n : Nat) (v : List Ptr) (root : Ptr) : Option (List Ptr) := walkLoop H n [root] v

/-- one round of the inner loop of `getNodeCount` (`src/base_parser.cpp:190-196`); the set is keyed by pointer -/
def pushNew : List Ptr → List Ptr → List Ptr → List Ptr × List Ptr
  | [], q, v => (q, v)
  | c :: cs, q, v => if c ∈ v then pushNew cs q v else pushNew cs (q ++ [c]) (v ++ [c])

/-- the loop of `getNodeCount` (`src/base_parser.cpp:187-197`) -/
def countLoop (H : Heap) : Nat → List Ptr → List Ptr → Option (List Ptr)
  | _, [], v => some v
  | 0, _ :: _, _ => none
  | n + 1, p :: q, v => countLoop H n (pushNew (kids H p) q v).1 (pushNew (kids H p) q v).2

/-- inserting the roots into the set (`src/base_parser.cpp:163-186`) -/
def rootSet : List Ptr → List Ptr → List Ptr
  | [], v => v
  | r :: rs, v => rootSet rs (if r ∈ v then v else v ++ [r])

/-- `Parser::getNodeCount` (`src/base_parser.cpp:157-198`); `roots` are the assertions, assumptions, soft assertions, their
weights and the objective terms -/
def getNodeCount (H : Heap) (n : Nat) (roots : List Ptr) : Option Nat :=
  (countLoop H n roots (rootSet roots [])).map List.length

/-- `q` is reachable from `p` -/
inductive ReachN (H : Heap) : Ptr → Ptr → Prop where
  | refl (p) : ReachN H p p
  | step {p q r : Ptr} : ReachN H p q → r ∈ kids H q → ReachN H p r

theorem reachN_head {H : Heap} {p q r : Ptr} (h : q ∈ kids H p) (h2 : ReachN H q r) : ReachN H p r := by
  induction h2 with
  | refl => exact .step (.refl _) h
  | step _ hk ih => exact .step ih hk

theorem hasNode_exact {F : HashFn} {st : St} (inv : Inv F st) {v : List Ptr} {p : Ptr} (hv : ∀ x ∈ v, x ∈ st.nodes)
    (hp : p ∈ st.nodes) : hasNode st.heap v p = true ↔ p ∈ v := by
  unfold hasNode
  simp only [List.any_eq_true, Bool.and_eq_true, beq_iff_eq]
  constructor
  · rintro ⟨q, hq, _, he⟩
    have := inv.canon q (hv q hq) p hp ((equiv_exact inv.wf inv.ok (inv.bound q (hv q hq)) (inv.bound p hp)).mp he)
    exact this ▸ hq
  · intro h
    exact ⟨p, h, rfl, (equiv_exact inv.wf inv.ok (inv.bound p hp) (inv.bound p hp)).mpr (same_refl inv.wf p (inv.bound p hp))⟩

theorem kids_closed {F : HashFn} {st : St} (inv : Inv F st) {p : Ptr} (hp : p ∈ st.nodes) : ∀ c ∈ kids st.heap p, c ∈ st.nodes := by
  intro c hc
  unfold kids at hc
  have hg := List.getElem?_eq_getElem (inv.bound p hp)
  rw [hg] at hc
  exact inv.closed p hp _ hg c hc

theorem reachN_closed {F : HashFn} {st : St} (inv : Inv F st) {p q : Ptr} (hp : p ∈ st.nodes) (h : ReachN st.heap p q) :
    q ∈ st.nodes := by
  induction h with
  | refl => exact hp
  | step _ hk ih => exact kids_closed inv ih _ hk

/-- number of manager nodes not yet in `v` -/
def todo (nodes v : List Ptr) : Nat := (nodes.filter fun x => decide (x ∉ v)).length

theorem todo_lt {nodes v : List Ptr} {p : Ptr} (hp : p ∈ nodes) (hv : p ∉ v) : todo nodes (v ++ [p]) < todo nodes v := by
  unfold todo
  have h1 : ∀ l : List Ptr, (l.filter fun x => decide (x ∉ v ++ [p])).length ≤ (l.filter fun x => decide (x ∉ v)).length := by
    intro l
    induction l with
    | nil => simp
    | cons a l ih =>
      simp only [List.filter_cons, List.mem_append, List.mem_singleton, not_or] at ih ⊢
      by_cases hb : a = p
      · subst hb; simp [hv] at ih ⊢; omega
      · by_cases ha : a ∈ v <;> simp [ha, hb] at ih ⊢ <;> omega
  induction nodes with
  | nil => simp at hp
  | cons a l ih =>
    simp only [List.filter_cons]
    rcases List.mem_cons.mp hp with rfl | hp
    · have := h1 l
      simp only [List.mem_append, List.mem_singleton, or_true, not_true, decide_false, Bool.false_eq_true, if_false, hv,
        not_false_eq_true, decide_true, if_true, List.length_cons] at this ⊢
      omega
    · have := ih hp
      by_cases hb : a = p
      · subst hb; simp [hv] at this ⊢; omega
      · by_cases ha : a ∈ v <;> simp [ha, hb] at this ⊢ <;> omega

/-- everything about one run of the loop -/
theorem walkLoop_spec {F : HashFn} {st : St} (inv : Inv F st) :
    ∀ (m k : Nat) (stack v : List Ptr), todo st.nodes v ≤ m → stack.length ≤ k → (∀ x ∈ stack, x ∈ st.nodes) →
      (∀ x ∈ v, x ∈ st.nodes) → v.Nodup →
      ∃ n R, (∀ n' ≥ n, walkLoop st.heap n' stack v = some R) ∧ v <+: R ∧ R.Nodup ∧ (∀ x ∈ stack, x ∈ R) ∧
        (∀ x ∈ R, x ∈ v ∨ ∃ s ∈ stack, ReachN st.heap s x) ∧
        ((∀ x ∈ v, ∀ c ∈ kids st.heap x, c ∈ v ∨ c ∈ stack) → ∀ x ∈ R, ∀ c ∈ kids st.heap x, c ∈ R) := by
  intro m
  induction m using Nat.strongRecOn with
  | ind m ihm =>
    intro k
    induction k with
    | zero =>
      intro stack v _ hk _ hv hn
      have : stack = [] := List.eq_nil_of_length_eq_zero (by omega)
      subst this
      exact ⟨0, v, fun n' _ => by unfold walkLoop; rfl, List.prefix_refl _, hn, by simp, fun x hx => .inl hx,
        fun h x hx c hc => by simpa using h x hx c hc⟩
    | succ k ihk =>
      intro stack v hm hk hs hv hn
      cases stack with
      | nil =>
        exact ⟨0, v, fun n' _ => by unfold walkLoop; rfl, List.prefix_refl _, hn, by simp, fun x hx => .inl hx,
          fun h x hx c hc => by simpa using h x hx c hc⟩
      | cons p stack =>
        have hp := hs p List.mem_cons_self
        by_cases hpv : p ∈ v
        · obtain ⟨n, R, h1, h2, h3, h4, h5, h6⟩ := ihk stack v hm (by simpa using hk)
            (fun x hx => hs x (List.mem_cons_of_mem _ hx)) hv hn
          refine ⟨n + 1, R, ?_, h2, h3, ?_, ?_, ?_⟩
          · intro n' hn'
            obtain ⟨j, rfl⟩ : ∃ j, n' = j + 1 := ⟨n' - 1, by omega⟩
            unfold walkLoop
            rw [if_pos ((hasNode_exact inv hv hp).mpr hpv)]
            exact h1 j (by omega)
          · intro x hx
            rcases List.mem_cons.mp hx with rfl | hx
            · exact h2.subset hpv
            · exact h4 x hx
          · intro x hx
            exact (h5 x hx).imp id fun ⟨s, a, b⟩ => ⟨s, List.mem_cons_of_mem _ a, b⟩
          · intro h
            refine h6 fun x hx c hc => ?_
            rcases h x hx c hc with h' | h'
            · exact .inl h'
            · rcases List.mem_cons.mp h' with rfl | h'
              · exact .inl hpv
              · exact .inr h'
        · have hkids := kids_closed inv hp
          obtain ⟨n, R, h1, h2, h3, h4, h5, h6⟩ := ihm (todo st.nodes (v ++ [p]))
            (Nat.lt_of_lt_of_le (todo_lt hp hpv) hm) _ (kids st.heap p ++ stack) (v ++ [p]) (Nat.le_refl _) (Nat.le_refl _)
            (by
              intro x hx
              rcases List.mem_append.mp hx with hx | hx
              · exact hkids x hx
              · exact hs x (List.mem_cons_of_mem _ hx))
            (by
              intro x hx
              rcases List.mem_append.mp hx with hx | hx
              · exact hv x hx
              · simp only [List.mem_singleton] at hx; exact hx ▸ hp)
            (by
              rw [List.nodup_append]
              exact ⟨hn, by simp, by rintro a ha b hb rfl; simp only [List.mem_singleton] at hb; exact hpv (hb ▸ ha)⟩)
          refine ⟨n + 1, R, ?_, (List.prefix_append _ _).trans h2, h3, ?_, ?_, ?_⟩
          · intro n' hn'
            obtain ⟨j, rfl⟩ : ∃ j, n' = j + 1 := ⟨n' - 1, by omega⟩
            unfold walkLoop
            rw [if_neg (fun h => hpv ((hasNode_exact inv hv hp).mp h))]
            exact h1 j (by omega)
          · intro x hx
            rcases List.mem_cons.mp hx with rfl | hx
            · exact h2.subset (by simp)
            · exact h4 x (List.mem_append_right _ hx)
          · intro x hx
            rcases h5 x hx with h | ⟨s, a, b⟩
            · rcases List.mem_append.mp h with h | h
              · exact .inl h
              · simp only [List.mem_singleton] at h
                exact .inr ⟨p, List.mem_cons_self, h ▸ .refl _⟩
            · rcases List.mem_append.mp a with a | a
              · exact .inr ⟨p, List.mem_cons_self, reachN_head a b⟩
              · exact .inr ⟨s, List.mem_cons_of_mem _ a, b⟩
          · intro h
            refine h6 fun x hx c hc => ?_
            rcases List.mem_append.mp hx with hx | hx
            · rcases h x hx c hc with h' | h'
              · exact .inl (List.mem_append_left _ h')
              · rcases List.mem_cons.mp h' with rfl | h'
                · exact .inl (by simp)
                · exact .inr (List.mem_append_right _ h')
            · simp only [List.mem_singleton] at hx; subst hx
              exact .inr (List.mem_append_left _ hc)

/-- **C21.**  Visiting an expression with a new visitor terminates; the sequence of visited nodes starts with the expression,
has no repetition, and contains exactly the nodes reachable from the expression. -/
theorem walk_exact {F : HashFn} {st : St} (hr : Reach F st) (root : Ptr) (h : root ∈ st.nodes) :
    ∃ n R, (∀ n' ≥ n, walk st.heap n' [] root = some R) ∧ R.Nodup ∧ R.head? = some root ∧
      ∀ x, x ∈ R ↔ ReachN st.heap root x := by
  have inv := reach_inv hr
  obtain ⟨n, R, h1, h2, h3, h4, h5, h6⟩ := walkLoop_spec inv _ _ [root] [] (Nat.le_refl _) (Nat.le_refl _)
    (by simpa using h) (by simp) List.nodup_nil
  refine ⟨n, R, h1, h3, ?_, fun x => ⟨fun hx => ?_, fun hx => ?_⟩⟩
  · have e := h1 (n + 1) (by omega)
    unfold walkLoop at e
    rw [if_neg (fun hh => by have := (hasNode_exact inv (by simp) h).mp hh; simp at this)] at e
    have hk := kids_closed inv h
    obtain ⟨n2, R2, g1, g2, _⟩ := walkLoop_spec inv _ _ (kids st.heap root ++ []) ([] ++ [root]) (Nat.le_refl _)
      (Nat.le_refl _) (by simpa using hk) (by simpa using h) (by simp)
    have e1 := h1 (n + n2 + 1) (by omega)
    unfold walkLoop at e1
    rw [if_neg (fun hh => by have := (hasNode_exact inv (by simp) h).mp hh; simp at this), g1 (n + n2) (by omega)] at e1
    cases e1
    obtain ⟨t, rfl⟩ := g2
    rfl
  · rcases h5 x hx with h' | ⟨s, a, b⟩
    · simp at h'
    · simp only [List.mem_singleton] at a; exact a ▸ b
  · induction hx with
    | refl => exact h4 root (by simp)
    | step _ hk ih => exact h6 (by simp) _ ih _ hk

/-- **C21.**  A visitor that is used again (after earlier complete walks) visits exactly the reachable nodes it has not
visited before, each once. -/
theorem walk_again {F : HashFn} {st : St} (hr : Reach F st) (v : List Ptr) (hv : ∀ x ∈ v, x ∈ st.nodes) (hn : v.Nodup)
    (hc : ∀ x ∈ v, ∀ c ∈ kids st.heap x, c ∈ v) (root : Ptr) (h : root ∈ st.nodes) :
    ∃ n R, (∀ n' ≥ n, walk st.heap n' v root = some (v ++ R)) ∧ (v ++ R).Nodup ∧
      ∀ x, x ∈ R ↔ ReachN st.heap root x ∧ x ∉ v := by
  have inv := reach_inv hr
  obtain ⟨n, R, h1, ⟨T, rfl⟩, h3, h4, h5, h6⟩ := walkLoop_spec inv _ _ [root] v (Nat.le_refl _) (Nat.le_refl _)
    (by simpa using h) hv hn
  have hcl := h6 (fun x hx c hc' => .inl (hc x hx c hc'))
  refine ⟨n, T, h1, h3, fun x => ⟨fun hx => ?_, fun hh => ?_⟩⟩
  · have hxv : x ∉ v := fun hxv => (List.nodup_append.mp h3).2.2 x hxv x hx rfl
    refine ⟨?_, hxv⟩
    rcases h5 x (List.mem_append_right _ hx) with h' | ⟨s, a, b⟩
    · exact absurd h' hxv
    · simp only [List.mem_singleton] at a; exact a ▸ b
  · have : x ∈ v ++ T := by
      have hx := hh.1
      clear hh
      induction hx with
      | refl => exact h4 root (by simp)
      | step _ hk ih => exact hcl _ ih _ hk
    exact (List.mem_append.mp this).resolve_left hh.2

/-! ## Node count -/

theorem pushNew_spec (cs q v : List Ptr) :
    ∃ T, pushNew cs q v = (q ++ T, v ++ T) ∧ (∀ x ∈ T, x ∈ cs ∧ x ∉ v) ∧ (v.Nodup → (v ++ T).Nodup) ∧
      (∀ c ∈ cs, c ∈ v ++ T) := by
  induction cs generalizing q v with
  | nil => exact ⟨[], by simp [pushNew], by simp, by simp, by simp⟩
  | cons c cs ih =>
    unfold pushNew
    split
    · rename_i hc
      obtain ⟨T, h1, h2, h3, h4⟩ := ih q v
      refine ⟨T, h1, fun x hx => ⟨List.mem_cons_of_mem _ (h2 x hx).1, (h2 x hx).2⟩, h3, fun d hd => ?_⟩
      rcases List.mem_cons.mp hd with rfl | hd
      · exact List.mem_append_left _ hc
      · exact h4 d hd
    · rename_i hc
      obtain ⟨T, h1, h2, h3, h4⟩ := ih (q ++ [c]) (v ++ [c])
      refine ⟨c :: T, by rw [h1]; simp, fun x hx => ?_, fun hn => ?_, fun d hd => ?_⟩
      · rcases List.mem_cons.mp hx with rfl | hx
        · exact ⟨List.mem_cons_self, hc⟩
        · exact ⟨List.mem_cons_of_mem _ (h2 x hx).1, fun hv => (h2 x hx).2 (List.mem_append_left _ hv)⟩
      · have : (v ++ [c]).Nodup := by
          rw [List.nodup_append]
          exact ⟨hn, by simp, by rintro a ha b hb rfl; simp only [List.mem_singleton] at hb; exact hc (hb ▸ ha)⟩
        simpa using h3 this
      · rcases List.mem_cons.mp hd with rfl | hd
        · simp
        · have := h4 d hd
          simpa using this

theorem rootSet_spec (rs v : List Ptr) (hn : v.Nodup) : (rootSet rs v).Nodup ∧ ∀ x, x ∈ rootSet rs v ↔ x ∈ v ∨ x ∈ rs := by
  induction rs generalizing v with
  | nil => exact ⟨hn, fun x => by simp [rootSet]⟩
  | cons r rs ih =>
    unfold rootSet
    split
    · rename_i hr
      refine ⟨(ih v hn).1, fun x => ?_⟩
      rw [(ih v hn).2, List.mem_cons]
      constructor
      · rintro (h | h)
        · exact .inl h
        · exact .inr (.inr h)
      · rintro (h | rfl | h)
        · exact .inl h
        · exact .inl hr
        · exact .inr h
    · rename_i hr
      have : (v ++ [r]).Nodup := by
        rw [List.nodup_append]
        exact ⟨hn, by simp, by rintro a ha b hb rfl; simp only [List.mem_singleton] at hb; exact hr (hb ▸ ha)⟩
      refine ⟨(ih _ this).1, fun x => ?_⟩
      rw [(ih _ this).2, List.mem_append, List.mem_singleton, List.mem_cons, or_assoc]

/-- how many nodes of the manager are unvisited, when some new ones are added -/
theorem todo_append {nodes v T : List Ptr} (hT : ∀ x ∈ T, x ∈ nodes) (hn : (v ++ T).Nodup) :
    todo nodes (v ++ T) + T.length ≤ todo nodes v := by
  induction T generalizing v with
  | nil => simp
  | cons a T ih =>
    have hn' : (v ++ [a] ++ T).Nodup := by simpa using hn
    have h1 := ih (v := v ++ [a]) (fun x hx => hT x (List.mem_cons_of_mem _ hx)) hn'
    have h2 : a ∉ v := by
      intro h
      have := (List.nodup_append.mp hn).2.2 a h a List.mem_cons_self
      exact this rfl
    have h3 := todo_lt (hT a List.mem_cons_self) h2
    simp only [List.append_assoc, List.singleton_append, List.length_cons] at h1 ⊢
    omega

theorem countLoop_spec {F : HashFn} {st : St} (inv : Inv F st) :
    ∀ (m : Nat) (q v : List Ptr), todo st.nodes v + q.length ≤ m → (∀ x ∈ q, x ∈ v) →
      (∀ x ∈ v, x ∈ st.nodes) → v.Nodup →
      ∃ n R, (∀ n' ≥ n, countLoop st.heap n' q v = some R) ∧ v <+: R ∧ R.Nodup ∧
        (∀ x ∈ R, x ∈ v ∨ ∃ s ∈ q, ReachN st.heap s x) ∧
        ((∀ x ∈ v, x ∈ q ∨ ∀ c ∈ kids st.heap x, c ∈ v) → ∀ x ∈ R, ∀ c ∈ kids st.heap x, c ∈ R) := by
  intro m
  induction m with
  | zero =>
    intro q v hm _ _ hn
    have : q = [] := List.eq_nil_of_length_eq_zero (by omega)
    subst this
    exact ⟨0, v, fun n' _ => by unfold countLoop; rfl, List.prefix_refl _, hn, fun x hx => .inl hx,
      fun h x hx c hc => by simpa using (h x hx).resolve_left (by simp) c hc⟩
  | succ m ih =>
    intro q v hm hq hv hn
    cases q with
    | nil =>
      exact ⟨0, v, fun n' _ => by unfold countLoop; rfl, List.prefix_refl _, hn, fun x hx => .inl hx,
        fun h x hx c hc => by simpa using (h x hx).resolve_left (by simp) c hc⟩
    | cons p q =>
      have hp := hv p (hq p List.mem_cons_self)
      have hk := kids_closed inv hp
      obtain ⟨T, h1, h2, h3, h4⟩ := pushNew_spec (kids st.heap p) q v
      have hT : ∀ x ∈ T, x ∈ st.nodes := fun x hx => hk x (h2 x hx).1
      have hle := todo_append hT (h3 hn)
      simp only [List.length_cons] at hm
      obtain ⟨n, R, g1, g2, g3, g4, g5⟩ := ih (q ++ T) (v ++ T) (by rw [List.length_append]; omega)
        (by
          intro x hx
          rcases List.mem_append.mp hx with hx | hx
          · exact List.mem_append_left _ (hq x (List.mem_cons_of_mem _ hx))
          · exact List.mem_append_right _ hx)
        (by
          intro x hx
          rcases List.mem_append.mp hx with hx | hx
          · exact hv x hx
          · exact hT x hx)
        (h3 hn)
      refine ⟨n + 1, R, ?_, (List.prefix_append _ _).trans g2, g3, ?_, ?_⟩
      · intro n' hn'
        obtain ⟨j, rfl⟩ : ∃ j, n' = j + 1 := ⟨n' - 1, by omega⟩
        unfold countLoop
        rw [h1]
        exact g1 j (by omega)
      · intro x hx
        rcases g4 x hx with h | ⟨s, a, b⟩
        · rcases List.mem_append.mp h with h | h
          · exact .inl h
          · exact .inr ⟨p, List.mem_cons_self, .step (.refl _) (h2 x h).1⟩
        · rcases List.mem_append.mp a with a | a
          · exact .inr ⟨s, List.mem_cons_of_mem _ a, b⟩
          · exact .inr ⟨p, List.mem_cons_self, reachN_head (h2 s a).1 b⟩
      · intro h
        refine g5 fun x hx => ?_
        rcases List.mem_append.mp hx with hx | hx
        · rcases h x hx with h' | h'
          · rcases List.mem_cons.mp h' with rfl | h'
            · exact .inr h4
            · exact .inl (List.mem_append_left _ h')
          · exact .inr fun c hc => List.mem_append_left _ (h' c hc)
        · exact .inl (List.mem_append_right _ hx)

/-- **C21.**  `getNodeCount` terminates and returns the number of distinct nodes reachable from the roots. -/
theorem nodeCount_exact {F : HashFn} {st : St} (hr : Reach F st) (roots : List Ptr) (h : ∀ x ∈ roots, x ∈ st.nodes) :
    ∃ (n : Nat) (R : List Ptr), (∀ n' ≥ n, getNodeCount st.heap n' roots = some R.length) ∧ R.Nodup ∧
      ∀ x, x ∈ R ↔ ∃ s ∈ roots, ReachN st.heap s x := by
  have inv := reach_inv hr
  obtain ⟨r1, r2⟩ := rootSet_spec roots [] List.nodup_nil
  have r2' : ∀ x, x ∈ rootSet roots [] ↔ x ∈ roots := fun x => by rw [r2]; simp
  obtain ⟨n, R, h1, h2, h3, h4, h5⟩ := countLoop_spec inv _ roots (rootSet roots []) (Nat.le_refl _)
    (fun x hx => (r2' x).mpr hx) (fun x hx => h x ((r2' x).mp hx)) r1
  refine ⟨n, R, fun n' hn' => ?_, h3, fun x => ⟨fun hx => ?_, ?_⟩⟩
  · unfold getNodeCount; rw [h1 n' hn']; rfl
  · rcases h4 x hx with h' | h'
    · exact ⟨x, (r2' x).mp h', .refl _⟩
    · exact h'
  · rintro ⟨s, hs, hx⟩
    induction hx with
    | refl => exact h2.subset ((r2' s).mpr hs)
    | step _ hk ih => exact h5 (fun x hx => .inl ((r2' x).mp hx)) _ ih _ hk

/-- Non-vacuous: the node `(and x x)` is visited once and `x` once. -/
example (F : HashFn) (s0 : St) (r0 : Reach F s0) :
    let x := create F s0 ⟨BOOL_S, .VAR, cs!"x", []⟩
    let a := create F x.2 ⟨BOOL_S, .AND, cs!"and", [x.1, x.1]⟩
    ReachN a.2.heap a.1 x.1 ∧ a.1 ∈ a.2.nodes ∧ Reach F a.2 := by
  intro x a
  have t1 := create_step (reach_inv r0) ⟨BOOL_S, .VAR, cs!"x", []⟩ (by simp)
  have r1 : Reach F x.2 := .step _ r0 (by simp)
  have hc : ∀ c ∈ [x.1, x.1], c ∈ x.2.nodes := by
    intro c hc; simp only [List.mem_cons, List.not_mem_nil, or_false, or_self] at hc; rw [hc]; exact t1.2.2.1
  obtain ⟨_, _, h3, _, ⟨o, h5, h6⟩, _⟩ := create_step t1.1 ⟨BOOL_S, .AND, cs!"and", [x.1, x.1]⟩ hc
  refine ⟨.step (.refl _) ?_, h3, .step _ r1 hc⟩
  unfold kids
  rw [show a.2.heap[a.1]? = some o from h5]
  simp only [Option.map_some, Option.getD_some]
  rw [h6.2.2.2]; simp

end SMT.Store
