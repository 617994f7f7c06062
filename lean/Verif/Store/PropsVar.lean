import Verif.Store.Props

/-! # The variable table (C20) and temporary variables (C47) -/

namespace SMT.Store
open SMT.Kinds SMT.Text

/-- API calls that make nodes: declaring a variable, asking for a temporary one, building any other node. -/
inductive Op where
  | var (sort : Nat) (name : List Char)
  | temp (sort : Nat)
  | other (r : Req)

/-- effect of a call -/
def run (F : HashFn) (t : Tab) : Op → Tab
  | .var s n => (mkVar F t s n).2
  | .temp s => (mkTempVar F t s).2
  | .other r => { t with mgr := (create F t.mgr r).2 }

/-- Only `mkVar` and `mkTempVar` make variable nodes; operands are nodes of the parser. -/
def Legal (t : Tab) : Op → Prop
  | .other r => r.kind ≠ .VAR ∧ r.kind ≠ .TEMP_VAR ∧ ∀ c ∈ r.children, c ∈ t.mgr.nodes
  | _ => True

/-- Tables related by any number of calls. -/
inductive TSteps (F : HashFn) : Tab → Tab → Prop where
  | refl (t) : TSteps F t t
  | step {t t'} (o : Op) : TSteps F t t' → Legal t' o → TSteps F t (run F t' o)

/-- every history of a parser -/
def TReach (F : HashFn) (t : Tab) : Prop := TSteps F (Tab.init F) t

/-- the node at `p` has the given kind and name -/
def IsNode (st : St) (p : Nat) (k : K) (n : List Char) : Prop := ∃ o : Obj, st.heap[p]? = some o ∧ o.kind = k ∧ o.name = n

structure TInv (F : HashFn) (t : Tab) : Prop where
  inv : Inv F t.mgr
  vars : ∀ n i, t.vars.lookup n = some i → ∃ p, t.mgr.nodes[i]? = some p ∧ IsNode t.mgr p .VAR n
  varc : ∀ p ∈ t.mgr.nodes, ∀ n, IsNode t.mgr p .VAR n → ∃ i, t.vars.lookup n = some i ∧ t.mgr.nodes[i]? = some p
  temps : ∀ n i, t.temps.lookup n = some i → ∃ p, t.mgr.nodes[i]? = some p ∧ IsNode t.mgr p .TEMP_VAR n
  tempn : ∀ p ∈ t.mgr.nodes, ∀ n, IsNode t.mgr p .TEMP_VAR n → ∃ j, j < t.counter ∧ n = tempName j
  tempc : ∀ p ∈ t.mgr.nodes, ∀ n, IsNode t.mgr p .TEMP_VAR n → ∃ i, t.temps.lookup n = some i ∧ t.mgr.nodes[i]? = some p

theorem tempName_inj {m n : Nat} (h : tempName m = tempName n) : m = n := dec_inj (List.append_cancel_left h)

theorem isNode_mono {a b : St} {p : Nat} {k : K} {n : List Char} (h : a.heap <+: b.heap) (hn : IsNode a p k n) :
    IsNode b p k n := by
  obtain ⟨o, h1, h2⟩ := hn
  exact ⟨o, prefix_get h h1, h2⟩

theorem isNode_back {F : HashFn} {a b : St} {p : Nat} {k : K} {n : List Char} (inv : Inv F a) (h : a.heap <+: b.heap)
    (hp : p ∈ a.nodes) (hn : IsNode b p k n) : IsNode a p k n := by
  obtain ⟨o, h1, h2⟩ := hn
  have hb := inv.bound p hp
  have hg := List.getElem?_eq_getElem hb
  have := prefix_get h hg
  rw [h1] at this; cases this
  exact ⟨_, hg, h2⟩

theorem isNode_unique {st : St} {p : Nat} {k k' : K} {n n' : List Char} (h : IsNode st p k n) (h' : IsNode st p k' n') :
    k = k' ∧ n = n' := by
  obtain ⟨o, a, b, c⟩ := h; obtain ⟨o', a', b', c'⟩ := h'
  rw [a] at a'; cases a'
  exact ⟨b ▸ b', c ▸ c'⟩

/-- what `create` does, in terms of `IsNode` -/
theorem create_node {F : HashFn} {st : St} (inv : Inv F st) (r : Req) (hc : ∀ c ∈ r.children, c ∈ st.nodes) :
    Inv F (create F st r).2 ∧ st.nodes <+: (create F st r).2.nodes ∧ st.heap <+: (create F st r).2.heap ∧
    (create F st r).1 ∈ (create F st r).2.nodes ∧ IsNode (create F st r).2 (create F st r).1 r.kind r.name ∧
    (∀ q ∈ (create F st r).2.nodes, q ∈ st.nodes ∨ q = (create F st r).1) := by
  obtain ⟨h1, h2, h3, ⟨o, h4⟩, ⟨o', h5, h6⟩, h7⟩ := create_step inv r hc
  refine ⟨h1, h2, h4 ▸ List.prefix_append _ _, h3, ⟨o', h5, h6.2.1, h6.2.2.1⟩, fun q hq => ?_⟩
  rcases h7 with ⟨_, e⟩ | ⟨e, e'⟩
  · rw [e] at hq; exact .inl hq
  · rw [e'] at hq
    rcases List.mem_append.mp hq with hq | hq
    · exact .inl hq
    · simp only [List.mem_singleton] at hq; exact .inr (by rw [hq, e])

theorem lookup_cons (n m : List Char) (i : Nat) (l : List (List Char × Nat)) :
    List.lookup n ((m, i) :: l) = if n = m then some i else l.lookup n := by
  rw [List.lookup_cons]
  by_cases h : n = m
  · simp [h]
  · rw [beq_eq_false_iff_ne.mpr h, if_neg h]

/-- transport of the invariant over a `create` that makes no variable -/
theorem tinv_other {F : HashFn} {t : Tab} (ti : TInv F t) (r : Req) (hc : ∀ c ∈ r.children, c ∈ t.mgr.nodes)
    (hk : r.kind ≠ .VAR) (hk' : r.kind ≠ .TEMP_VAR) : TInv F { t with mgr := (create F t.mgr r).2 } := by
  obtain ⟨h1, h2, h3, h4, h5, h6⟩ := create_node ti.inv r hc
  constructor
  · exact h1
  · intro n i h
    obtain ⟨p, a, b⟩ := ti.vars n i h
    exact ⟨p, prefix_get h2 a, isNode_mono h3 b⟩
  · intro p hp n hn
    rcases h6 p hp with hq | rfl
    · obtain ⟨i, a, b⟩ := ti.varc p hq n (isNode_back ti.inv h3 hq hn)
      exact ⟨i, a, prefix_get h2 b⟩
    · exact absurd (isNode_unique h5 hn).1 hk
  · intro n i h
    obtain ⟨p, a, b⟩ := ti.temps n i h
    exact ⟨p, prefix_get h2 a, isNode_mono h3 b⟩
  · intro p hp n hn
    rcases h6 p hp with hq | rfl
    · exact ti.tempn p hq n (isNode_back ti.inv h3 hq hn)
    · exact absurd (isNode_unique h5 hn).1 hk'
  · intro p hp n hn
    rcases h6 p hp with hq | rfl
    · obtain ⟨i, a, b⟩ := ti.tempc p hq n (isNode_back ti.inv h3 hq hn)
      exact ⟨i, a, prefix_get h2 b⟩
    · exact absurd (isNode_unique h5 hn).1 hk'

theorem isNode_init (F : HashFn) {p : Nat} {k : K} {n : List Char} (hk : k = .VAR ∨ k = .TEMP_VAR) :
    p ∈ (init F).nodes → ¬ IsNode (init F) p k n := by
  have key : ∀ (rs : List Req) (st : St), (∀ r ∈ rs, r.children = [] ∧ r.kind ≠ k) → Inv F st →
      (∀ p ∈ st.nodes, ¬ IsNode st p k n) → ∀ p ∈ (createAll F st rs).nodes, ¬ IsNode (createAll F st rs) p k n := by
    intro rs
    induction rs with
    | nil => intro st _ _ h; exact h
    | cons r rs ih =>
      intro st hr inv h
      have hr1 := hr r List.mem_cons_self
      obtain ⟨h1, h2, h3, h4, h5, h6⟩ := create_node inv r (by rw [hr1.1]; simp)
      refine ih _ (fun r' hr' => hr r' (List.mem_cons_of_mem _ hr')) h1 (fun p hp hn => ?_)
      rcases h6 p hp with hq | rfl
      · exact h p hq (isNode_back inv h3 hq hn)
      · exact hr1.2 (isNode_unique h5 hn).1
  refine key statics empty ?_ (inv_empty F) (by simp [empty]) p
  rcases hk with rfl | rfl <;> decide

attribute [local irreducible] init

theorem tinv_init (F : HashFn) : TInv F (Tab.init F) := by
  constructor
  · exact inv_init F
  · intro n i h; simp [Tab.init] at h
  · intro p hp n hn; exact absurd hn (isNode_init F (.inl rfl) hp)
  · intro n i h; simp [Tab.init] at h
  · intro p hp n hn; exact absurd hn (isNode_init F (.inr rfl) hp)
  · intro p hp n hn; exact absurd hn (isNode_init F (.inr rfl) hp)

/-- `mkVar` on a name not yet declared -/
theorem mkVar_new {F : HashFn} {t : Tab} (ti : TInv F t) (s : Nat) (n : List Char) (hl : t.vars.lookup n = none) :
    ∃ i, (mkVar F t s n).1 = (create F t.mgr ⟨s, .VAR, n, []⟩).1 ∧
    (mkVar F t s n).2 = { t with mgr := (create F t.mgr ⟨s, .VAR, n, []⟩).2, vars := (n, i) :: t.vars } ∧
    (create F t.mgr ⟨s, .VAR, n, []⟩).2.nodes[i]? = some (create F t.mgr ⟨s, .VAR, n, []⟩).1 := by
  obtain ⟨h1, h2, h3, h4, h5, h6⟩ := create_node ti.inv ⟨s, .VAR, n, []⟩ (by simp)
  obtain ⟨i, hi, hn⟩ := getIndex_of_mem h1 h4
  refine ⟨i, ?_, ?_, hn⟩
  · unfold mkVar; rw [hl]
  · unfold mkVar; rw [hl]; simp only [hi, Option.getD_some]

theorem tinv_var {F : HashFn} {t : Tab} (ti : TInv F t) (s : Nat) (n : List Char) : TInv F (mkVar F t s n).2 := by
  cases hl : t.vars.lookup n with
  | some i => unfold mkVar; rw [hl]; exact ti
  | none =>
    obtain ⟨i, e1, e2, e3⟩ := mkVar_new ti s n hl
    obtain ⟨h1, h2, h3, h4, h5, h6⟩ := create_node ti.inv ⟨s, .VAR, n, []⟩ (by simp)
    rw [e2]
    constructor
    · exact h1
    · intro m j h
      rw [lookup_cons] at h
      split at h
      · rename_i hm; subst hm; cases h
        exact ⟨_, e3, h5⟩
      · obtain ⟨p, a, b⟩ := ti.vars m j h
        exact ⟨p, prefix_get h2 a, isNode_mono h3 b⟩
    · intro p hp m hn
      show ∃ j, List.lookup m ((n, i) :: t.vars) = some j ∧ _
      rcases h6 p hp with hq | rfl
      · obtain ⟨j, a, b⟩ := ti.varc p hq m (isNode_back ti.inv h3 hq hn)
        refine ⟨j, ?_, prefix_get h2 b⟩
        rw [lookup_cons, if_neg]
        · exact a
        · rintro rfl; rw [hl] at a; cases a
      · have := (isNode_unique h5 hn).2
        simp only at this; subst this
        exact ⟨i, by rw [lookup_cons, if_pos rfl], e3⟩
    · intro m j h
      obtain ⟨p, a, b⟩ := ti.temps m j h
      exact ⟨p, prefix_get h2 a, isNode_mono h3 b⟩
    · intro p hp m hn
      rcases h6 p hp with hq | rfl
      · exact ti.tempn p hq m (isNode_back ti.inv h3 hq hn)
      · exact absurd (isNode_unique h5 hn).1 (by simp)
    · intro p hp m hn
      rcases h6 p hp with hq | rfl
      · obtain ⟨j, a, b⟩ := ti.tempc p hq m (isNode_back ti.inv h3 hq hn)
        exact ⟨j, a, prefix_get h2 b⟩
      · exact absurd (isNode_unique h5 hn).1 (by simp)

theorem temp_fresh_name {F : HashFn} {t : Tab} (ti : TInv F t) : t.temps.lookup (tempName t.counter) = none := by
  cases h : t.temps.lookup (tempName t.counter) with
  | none => rfl
  | some i =>
    obtain ⟨p, a, b⟩ := ti.temps _ _ h
    obtain ⟨j, hj, he⟩ := ti.tempn p (List.mem_of_getElem? a) _ b
    have := tempName_inj he
    omega

theorem mkTempVar_new {F : HashFn} {t : Tab} (ti : TInv F t) (s : Nat) :
    ∃ i, (mkTempVar F t s).1 = (create F t.mgr ⟨s, .TEMP_VAR, tempName t.counter, []⟩).1 ∧
    (mkTempVar F t s).2 = { t with
      mgr := (create F t.mgr ⟨s, .TEMP_VAR, tempName t.counter, []⟩).2,
      temps := (tempName t.counter, i) :: t.temps, counter := t.counter + 1 } ∧
    (create F t.mgr ⟨s, .TEMP_VAR, tempName t.counter, []⟩).2.nodes[i]? =
      some (create F t.mgr ⟨s, .TEMP_VAR, tempName t.counter, []⟩).1 := by
  obtain ⟨h1, h2, h3, h4, h5, h6⟩ := create_node ti.inv ⟨s, .TEMP_VAR, tempName t.counter, []⟩ (by simp)
  obtain ⟨i, hi, hn⟩ := getIndex_of_mem h1 h4
  have hl := temp_fresh_name ti
  refine ⟨i, ?_, ?_, hn⟩
  · unfold mkTempVar; simp only [hl]
  · unfold mkTempVar; simp only [hl, hi, Option.getD_some]

theorem tinv_temp {F : HashFn} {t : Tab} (ti : TInv F t) (s : Nat) : TInv F (mkTempVar F t s).2 := by
  obtain ⟨i, e1, e2, e3⟩ := mkTempVar_new ti s
  obtain ⟨h1, h2, h3, h4, h5, h6⟩ := create_node ti.inv ⟨s, .TEMP_VAR, tempName t.counter, []⟩ (by simp)
  have hl := temp_fresh_name ti
  rw [e2]
  constructor
  · exact h1
  · intro m j h
    obtain ⟨p, a, b⟩ := ti.vars m j h
    exact ⟨p, prefix_get h2 a, isNode_mono h3 b⟩
  · intro p hp m hn
    rcases h6 p hp with hq | rfl
    · obtain ⟨j, a, b⟩ := ti.varc p hq m (isNode_back ti.inv h3 hq hn)
      exact ⟨j, a, prefix_get h2 b⟩
    · exact absurd (isNode_unique h5 hn).1 (by simp)
  · intro m j h
    rw [lookup_cons] at h
    split at h
    · rename_i hm; subst hm; cases h
      exact ⟨_, e3, h5⟩
    · obtain ⟨p, a, b⟩ := ti.temps m j h
      exact ⟨p, prefix_get h2 a, isNode_mono h3 b⟩
  · intro p hp m hn
    show ∃ j, j < t.counter + 1 ∧ _
    rcases h6 p hp with hq | rfl
    · obtain ⟨j, a, b⟩ := ti.tempn p hq m (isNode_back ti.inv h3 hq hn)
      exact ⟨j, by omega, b⟩
    · exact ⟨t.counter, by omega, (isNode_unique h5 hn).2.symm⟩
  · intro p hp m hn
    show ∃ j, List.lookup m ((tempName t.counter, i) :: t.temps) = some j ∧ _
    rcases h6 p hp with hq | rfl
    · obtain ⟨j, a, b⟩ := ti.tempc p hq m (isNode_back ti.inv h3 hq hn)
      refine ⟨j, ?_, prefix_get h2 b⟩
      rw [lookup_cons, if_neg]
      · exact a
      · rintro rfl; rw [hl] at a; cases a
    · have := (isNode_unique h5 hn).2
      simp only at this; subst this
      exact ⟨i, by rw [lookup_cons, if_pos rfl], e3⟩

theorem run_inv {F : HashFn} {t : Tab} (ti : TInv F t) (o : Op) (ho : Legal t o) :
    TInv F (run F t o) ∧ t.mgr.nodes <+: (run F t o).mgr.nodes ∧ t.mgr.heap <+: (run F t o).mgr.heap ∧
    (∀ n i, t.vars.lookup n = some i → (run F t o).vars.lookup n = some i) ∧
    (∀ n i, t.temps.lookup n = some i → (run F t o).temps.lookup n = some i) := by
  cases o with
  | other r =>
    obtain ⟨h1, h2, h3, _⟩ := create_node ti.inv r ho.2.2
    exact ⟨tinv_other ti r ho.2.2 ho.1 ho.2.1, h2, h3, fun _ _ h => h, fun _ _ h => h⟩
  | var s n =>
    refine ⟨tinv_var ti s n, ?_⟩
    show t.mgr.nodes <+: (mkVar F t s n).2.mgr.nodes ∧ t.mgr.heap <+: (mkVar F t s n).2.mgr.heap ∧
      (∀ m i, t.vars.lookup m = some i → (mkVar F t s n).2.vars.lookup m = some i) ∧
      (∀ m i, t.temps.lookup m = some i → (mkVar F t s n).2.temps.lookup m = some i)
    cases hl : t.vars.lookup n with
    | some i =>
      unfold mkVar; rw [hl]
      exact ⟨List.prefix_refl _, List.prefix_refl _, fun _ _ h => h, fun _ _ h => h⟩
    | none =>
      obtain ⟨i, e1, e2, e3⟩ := mkVar_new ti s n hl
      obtain ⟨h1, h2, h3, _⟩ := create_node ti.inv ⟨s, .VAR, n, []⟩ (by simp)
      rw [e2]
      refine ⟨h2, h3, fun m j h => ?_, fun _ _ h => h⟩
      show List.lookup m ((n, i) :: t.vars) = some j
      rw [lookup_cons, if_neg]
      · exact h
      · rintro rfl; rw [hl] at h; cases h
  | temp s =>
    refine ⟨tinv_temp ti s, ?_⟩
    obtain ⟨i, e1, e2, e3⟩ := mkTempVar_new ti s
    obtain ⟨h1, h2, h3, _⟩ := create_node ti.inv ⟨s, .TEMP_VAR, tempName t.counter, []⟩ (by simp)
    show t.mgr.nodes <+: (mkTempVar F t s).2.mgr.nodes ∧ t.mgr.heap <+: (mkTempVar F t s).2.mgr.heap ∧
      (∀ m i, t.vars.lookup m = some i → (mkTempVar F t s).2.vars.lookup m = some i) ∧
      (∀ m i, t.temps.lookup m = some i → (mkTempVar F t s).2.temps.lookup m = some i)
    rw [e2]
    refine ⟨h2, h3, fun _ _ h => h, fun m j h => ?_⟩
    show List.lookup m ((tempName t.counter, i) :: t.temps) = some j
    rw [lookup_cons, if_neg]
    · exact h
    · rintro rfl; rw [temp_fresh_name ti] at h; cases h

theorem tsteps_inv {F : HashFn} {a b : Tab} (h : TSteps F a b) (ti : TInv F a) :
    TInv F b ∧ a.mgr.nodes <+: b.mgr.nodes ∧ a.mgr.heap <+: b.mgr.heap ∧
    (∀ n i, a.vars.lookup n = some i → b.vars.lookup n = some i) ∧
    (∀ n i, a.temps.lookup n = some i → b.temps.lookup n = some i) := by
  induction h with
  | refl => exact ⟨ti, List.prefix_refl _, List.prefix_refl _, fun _ _ h => h, fun _ _ h => h⟩
  | step o _ ho ih =>
    obtain ⟨i1, i2, i3, i4, i5⟩ := ih
    obtain ⟨j1, j2, j3, j4, j5⟩ := run_inv i1 o ho
    exact ⟨j1, i2.trans j2, i3.trans j3, fun n i h => j4 n i (i4 n i h), fun n i h => j5 n i (i5 n i h)⟩

theorem treach_inv {F : HashFn} {t : Tab} (h : TReach F t) : TInv F t := (tsteps_inv h (tinv_init F)).1

/-- what `mkVar` returns, old name or new -/
theorem mkVar_res {F : HashFn} {t : Tab} (ti : TInv F t) (s : Nat) (n : List Char) :
    ∃ i, (mkVar F t s n).2.vars.lookup n = some i ∧ (mkVar F t s n).2.mgr.nodes[i]? = some (mkVar F t s n).1 ∧
      IsNode (mkVar F t s n).2.mgr (mkVar F t s n).1 .VAR n := by
  have ti' := tinv_var ti s n
  cases hl : t.vars.lookup n with
  | some i =>
    obtain ⟨p, a, b⟩ := ti.vars n i hl
    have e : mkVar F t s n = (p, t) := by unfold mkVar getNode; rw [hl]; simp only [a, Option.getD_some]
    rw [e]; exact ⟨i, hl, a, b⟩
  | none =>
    obtain ⟨i, e1, e2, e3⟩ := mkVar_new ti s n hl
    obtain ⟨h1, h2, h3, h4, h5, h6⟩ := create_node ti.inv ⟨s, .VAR, n, []⟩ (by simp)
    rw [e1, e2]
    exact ⟨i, by rw [lookup_cons, if_pos rfl], e3, h5⟩

/-- **C20.**  After a variable has been declared, however many calls are made later: looking its name up returns that
variable, declaring the name again (with any sort) returns that variable, and the variable is a variable node
carrying that name. -/
theorem declared_stays {F : HashFn} {t t' : Tab} (hr : TReach F t) (s s' : Nat) (n : List Char)
    (hl : TSteps F (mkVar F t s n).2 t') :
    getVariable t' n = (mkVar F t s n).1 ∧ (mkVar F t' s' n).1 = (mkVar F t s n).1 ∧
    IsNode t'.mgr (mkVar F t s n).1 .VAR n := by
  have ti := treach_inv hr
  obtain ⟨i, a, b, c⟩ := mkVar_res ti s n
  obtain ⟨i1, i2, i3, i4, _⟩ := tsteps_inv hl (tinv_var ti s n)
  have a' := i4 n i a
  have b' := prefix_get i2 b
  refine ⟨?_, ?_, isNode_mono i3 c⟩
  · unfold getVariable getNode; rw [a']; simp only [b', Option.getD_some]
  · rw [mkVar, a']; simp only [getNode, b', Option.getD_some]

/-- **C20.**  The first declaration of a name makes a variable of the requested sort that did not exist before. -/
theorem declared_new {F : HashFn} {t : Tab} (hr : TReach F t) (s : Nat) (n : List Char)
    (hn : t.vars.lookup n = none) :
    (mkVar F t s n).1 ∉ t.mgr.nodes ∧
    ∃ o, (mkVar F t s n).2.mgr.heap[(mkVar F t s n).1]? = some o ∧ o.sort = s ∧ o.kind = .VAR ∧ o.name = n ∧
      o.children = [] := by
  have ti := treach_inv hr
  obtain ⟨i, e1, e2, e3⟩ := mkVar_new ti s n hn
  obtain ⟨h1, h2, h3, ⟨_, h4⟩, ⟨o, h5, h6⟩, h7⟩ := create_step ti.inv ⟨s, .VAR, n, []⟩ (by simp)
  constructor
  · rw [e1]; intro h
    have hb := isNode_back (b := (create F t.mgr ⟨s, .VAR, n, []⟩).2) ti.inv (h4 ▸ List.prefix_append _ _) h
      ⟨o, h5, h6.2.1, h6.2.2.1⟩
    obtain ⟨j, a, _⟩ := ti.varc _ h n hb
    rw [hn] at a; cases a
  · rw [e1, e2]; exact ⟨o, h5, h6⟩

/-- **C20.**  Variables declared under different names are different. -/
theorem declared_distinct {F : HashFn} {t t' : Tab} (hr : TReach F t) (s s' : Nat) (n n' : List Char)
    (hl : TSteps F (mkVar F t s n).2 t') (hne : n ≠ n') : (mkVar F t s n).1 ≠ (mkVar F t' s' n').1 := by
  have ti := treach_inv hr
  obtain ⟨i, a, b, c⟩ := mkVar_res ti s n
  obtain ⟨i1, i2, i3, i4, _⟩ := tsteps_inv hl (tinv_var ti s n)
  obtain ⟨j, a', b', c'⟩ := mkVar_res i1 s' n'
  intro h
  rw [← h] at c'
  have h3 := (run_inv i1 (.var s' n') trivial).2.2.1
  exact hne (isNode_unique (isNode_mono h3 (isNode_mono i3 c)) c').2

/-- names declared or generated in a history -/
def declares (n : List Char) : Op → Prop
  | .var _ m => m = n
  | _ => False

/-- **C20.**  A name that no call of the history declared, and that is not the name of a temporary variable, is not found. -/
theorem undeclared_null {F : HashFn} {t : Tab} (hr : TReach F t) (n : List Char)
    (hv : ∀ p ∈ t.mgr.nodes, ¬ IsNode t.mgr p .VAR n) (ht : ∀ j, n ≠ tempName j) : getVariable t n = NULL_NODE := by
  have ti := treach_inv hr
  unfold getVariable
  cases h : t.vars.lookup n with
  | some i => obtain ⟨p, a, b⟩ := ti.vars n i h; exact absurd b (hv p (List.mem_of_getElem? a))
  | none =>
    cases h' : t.temps.lookup n with
    | none => rfl
    | some i =>
      obtain ⟨p, a, b⟩ := ti.temps n i h'
      obtain ⟨j, _, e⟩ := ti.tempn p (List.mem_of_getElem? a) n b
      exact absurd e (ht j)

/-- a variable node named `n` exists only if some call declared `n` -/
theorem var_only_declared {F : HashFn} {t : Tab} (ti : TInv F t) (o : Op) (ho : Legal t o) (n : List Char)
    (h : ∀ p ∈ t.mgr.nodes, ¬ IsNode t.mgr p .VAR n) (hd : ¬ declares n o) :
    ∀ p ∈ (run F t o).mgr.nodes, ¬ IsNode (run F t o).mgr p .VAR n := by
  have hc : ∀ r : Req, (∀ c ∈ r.children, c ∈ t.mgr.nodes) → ¬ (r.kind = .VAR ∧ r.name = n) →
      ∀ p ∈ (create F t.mgr r).2.nodes, ¬ IsNode (create F t.mgr r).2 p .VAR n := by
    intro r hcr hk p hp hn
    obtain ⟨h1, h2, h3, h4, h5, h6⟩ := create_node ti.inv r hcr
    rcases h6 p hp with hq | rfl
    · exact h p hq (isNode_back ti.inv h3 hq hn)
    · exact hk (isNode_unique h5 hn)
  cases o with
  | other r => exact hc r ho.2.2 (fun h => ho.1 h.1)
  | var s m =>
    show ∀ p ∈ (mkVar F t s m).2.mgr.nodes, ¬ IsNode (mkVar F t s m).2.mgr p .VAR n
    cases hl : t.vars.lookup m with
    | some i => unfold mkVar; rw [hl]; exact h
    | none =>
      obtain ⟨i, _, e2, _⟩ := mkVar_new ti s m hl
      rw [e2]; exact hc _ (by simp) (fun h => hd h.2)
  | temp s =>
    show ∀ p ∈ (mkTempVar F t s).2.mgr.nodes, ¬ IsNode (mkTempVar F t s).2.mgr p .VAR n
    obtain ⟨i, _, e2, _⟩ := mkTempVar_new ti s
    rw [e2]; exact hc _ (by simp) (fun h => by simp at h)

/-- effect of a sequence of calls -/
def runs (F : HashFn) : Tab → List Op → Tab
  | t, [] => t
  | t, o :: os => runs F (run F t o) os

/-- every call of the sequence is legal when it is made -/
def LegalAll (F : HashFn) : Tab → List Op → Prop
  | _, [] => True
  | t, o :: os => Legal t o ∧ LegalAll F (run F t o) os

/-- **C20.**  `getVariable` finds a name only if it was declared: for every sequence of calls without a declaration of `n`
(`n` not of the form `temp_<number>`), the lookup fails. -/
theorem undeclared_not_found (F : HashFn) (os : List Op) (hl : LegalAll F (Tab.init F) os) (n : List Char)
    (hd : ∀ o ∈ os, ¬ declares n o) (ht : ∀ j, n ≠ tempName j) : getVariable (runs F (Tab.init F) os) n = NULL_NODE := by
  have key : ∀ (os : List Op) (t : Tab), TSteps F (Tab.init F) t → LegalAll F t os → (∀ o ∈ os, ¬ declares n o) →
      (∀ p ∈ t.mgr.nodes, ¬ IsNode t.mgr p .VAR n) →
      TSteps F (Tab.init F) (runs F t os) ∧ ∀ p ∈ (runs F t os).mgr.nodes, ¬ IsNode (runs F t os).mgr p .VAR n := by
    intro os
    induction os with
    | nil => intro t h1 _ _ h2; exact ⟨h1, h2⟩
    | cons o os ih =>
      intro t h1 hl hd h2
      exact ih _ (.step o h1 hl.1) hl.2 (fun o' h' => hd o' (List.mem_cons_of_mem _ h'))
        (var_only_declared (treach_inv h1) o hl.1 n h2 (hd o List.mem_cons_self))
  obtain ⟨h1, h2⟩ := key os _ (.refl _) hl hd (fun p hp => isNode_init F (.inl rfl) hp)
  exact undeclared_null h1 n h2 ht

/-! ## Renaming -/

/-- **C20, renaming.**  After `rename(v, new)` the new name finds `v`, `v` prints as the new name, and every name other than
the new one finds what it found before. -/
theorem rename_new {F : HashFn} {t : Tab} (hr : TReach F t) (s : Nat) (n new : List Char) :
    let p := (mkVar F t s n).1
    let t' := (rename (mkVar F t s n).2 p new).2
    getVariable t' new = p ∧ printVar t' p = new ∧
    ∀ m, m ≠ new → getVariable t' m = getVariable (mkVar F t s n).2 m := by
  intro p t'
  have ti := treach_inv hr
  obtain ⟨i, a, b, o, c1, c2, c3⟩ := mkVar_res ti s n
  have ht' : t' = { (mkVar F t s n).2 with
      mgr := { (mkVar F t s n).2.mgr with heap := renameObj (mkVar F t s n).2.mgr.heap p new },
      vars := assign (mkVar F t s n).2.vars new i } := by
    show (rename (mkVar F t s n).2 p new).2 = _
    unfold rename
    rw [show (mkVar F t s n).2.mgr.heap[p]? = some o from c1]
    simp only [c2, reduceCtorEq, if_false, c3, a]
  rw [ht']
  refine ⟨?_, ?_, ?_⟩
  · unfold getVariable assign getNode
    simp only [lookup_cons, if_true, b, Option.getD_some]; rfl
  · unfold printVar renameObj
    simp only [List.getElem?_modify, if_true]
    rw [show (mkVar F t s n).2.mgr.heap[p]? = some o from c1]; rfl
  · intro m hm
    unfold getVariable assign
    simp only [lookup_cons, hm, if_false]; rfl

/-- **C20, violated.**  The old name is not given up: after `rename(v, new)` looking up the old name still returns `v`, and
declaring the old name again returns `v`, a node that now prints as `new`. -/
theorem rename_old_violated {F : HashFn} {t : Tab} (hr : TReach F t) (s s' : Nat) (n new : List Char) (hne : n ≠ new) :
    let p := (mkVar F t s n).1
    let t' := (rename (mkVar F t s n).2 p new).2
    getVariable t' n = p ∧ (mkVar F t' s' n).1 = p ∧ printVar t' p = new := by
  intro p t'
  obtain ⟨h1, h2, h3⟩ := rename_new hr s n new
  have hg := (declared_stays hr s s' n (.refl _)).1
  have hn : getVariable t' n = p := (h3 n hne).trans hg
  refine ⟨hn, ?_, h2⟩
  have ti := treach_inv hr
  obtain ⟨i, a, b, o, c1, c2, c3⟩ := mkVar_res ti s n
  have : t'.vars.lookup n = some i ∧ t'.mgr.nodes = (mkVar F t s n).2.mgr.nodes := by
    show (rename (mkVar F t s n).2 p new).2.vars.lookup n = some i ∧ (rename (mkVar F t s n).2 p new).2.mgr.nodes = _
    unfold rename
    rw [show (mkVar F t s n).2.mgr.heap[p]? = some o from c1]
    simp only [c2, reduceCtorEq, if_false, c3, a]
    unfold assign
    rw [lookup_cons, if_neg hne]; exact ⟨a, trivial⟩
  unfold mkVar getNode; rw [this.1]
  simp only [this.2, b, Option.getD_some]; rfl

/-- **C20, violated.**  Renaming a variable to the name of another declared variable makes two different variables print
alike, and the other one can no longer be found. -/
theorem rename_clash_violated {F : HashFn} {t : Tab} (hr : TReach F t) (s : Nat) (x y : List Char) (hne : x ≠ y) :
    let vx := mkVar F t s x
    let vy := mkVar F vx.2 s y
    let t' := (rename vy.2 vx.1 y).2
    vx.1 ≠ vy.1 ∧ printVar t' vx.1 = y ∧ printVar t' vy.1 = y ∧ getVariable t' y = vx.1 := by
  intro vx vy t'
  have ti := treach_inv hr
  have t1 : TReach F vx.2 := .step (.var s x) hr trivial
  have ti1 := treach_inv t1
  have t2 : TReach F vy.2 := .step (.var s y) t1 trivial
  have ti2 := treach_inv t2
  have hd : vx.1 ≠ vy.1 := declared_distinct hr s s x y (.refl _) hne
  obtain ⟨i, a, b, c⟩ := mkVar_res ti s x
  have hs : TSteps F vx.2 vy.2 := .step (.var s y) (.refl _) trivial
  obtain ⟨_, i2, i3, i4, _⟩ := tsteps_inv hs ti1
  have a' : vy.2.vars.lookup x = some i := i4 x i a
  have b' : vy.2.mgr.nodes[i]? = some vx.1 := prefix_get i2 b
  obtain ⟨o, c1, c2, c3⟩ : IsNode vy.2.mgr vx.1 .VAR x := isNode_mono i3 c
  obtain ⟨j, ay, byy, oy, d1, d2, d3⟩ := mkVar_res ti1 s y
  have ht' : t' = { vy.2 with
      mgr := { vy.2.mgr with heap := renameObj vy.2.mgr.heap vx.1 y },
      vars := assign vy.2.vars y i } := by
    show (rename vy.2 vx.1 y).2 = _
    unfold rename
    rw [c1]
    simp only [c2, reduceCtorEq, if_false, c3, a']
  rw [ht']
  refine ⟨hd, ?_, ?_, ?_⟩
  · unfold printVar renameObj
    simp only [List.getElem?_modify, if_true, c1]; rfl
  · unfold printVar renameObj
    simp only [List.getElem?_modify, hd, if_false]
    rw [show vy.2.mgr.heap[vy.1]? = some oy from d1]; exact d3
  · unfold getVariable assign getNode
    simp only [lookup_cons, if_true, b', Option.getD_some]

/-! ## Temporary variables -/

/-- **C47.**  In every history a temporary variable is a new node: different from every node that existed before, so from every
variable and every earlier temporary variable; it carries the requested sort. -/
theorem temp_fresh_node_partial {F : HashFn} {t : Tab} (hr : TReach F t) (s : Nat) :
    (mkTempVar F t s).1 ∉ t.mgr.nodes ∧
    (∃ o, (mkTempVar F t s).2.mgr.heap[(mkTempVar F t s).1]? = some o ∧ o.sort = s ∧ o.kind = .TEMP_VAR ∧
      o.name = tempName t.counter) := by
  have ti := treach_inv hr
  obtain ⟨i, e1, e2, e3⟩ := mkTempVar_new ti s
  obtain ⟨h1, h2, h3, ⟨_, h4⟩, ⟨o, h5, h6⟩, h7⟩ := create_step ti.inv ⟨s, .TEMP_VAR, tempName t.counter, []⟩ (by simp)
  constructor
  · rw [e1]; intro h
    have hb := isNode_back (b := (create F t.mgr ⟨s, .TEMP_VAR, tempName t.counter, []⟩).2) ti.inv
      (h4 ▸ List.prefix_append _ _) h ⟨o, h5, h6.2.1, h6.2.2.1⟩
    obtain ⟨j, a, b⟩ := ti.tempn _ h _ hb
    have := tempName_inj b
    omega
  · rw [e1, e2]; exact ⟨o, h5, h6.1, h6.2.1, h6.2.2.1⟩

/-- **C47.**  It prints differently from every earlier temporary variable, and from every variable whose name is not of the form
`temp_<number>`. -/
theorem temp_fresh_print_partial {F : HashFn} {t : Tab} (hr : TReach F t) (s : Nat) (p : Nat) (hp : p ∈ t.mgr.nodes)
    (n : List Char) (h : IsNode t.mgr p .TEMP_VAR n ∨ IsNode t.mgr p .VAR n ∧ ∀ j, n ≠ tempName j) :
    printVar (mkTempVar F t s).2 (mkTempVar F t s).1 ≠ printVar (mkTempVar F t s).2 p := by
  have ti := treach_inv hr
  obtain ⟨_, o, h1, _, _, h2⟩ := temp_fresh_node_partial hr s
  have hh : t.mgr.heap <+: (mkTempVar F t s).2.mgr.heap := (run_inv ti (.temp s) trivial).2.2.1
  have e1 : printVar (mkTempVar F t s).2 (mkTempVar F t s).1 = tempName t.counter := by
    unfold printVar; rw [h1]; exact h2
  have e2 : printVar (mkTempVar F t s).2 p = n := by
    have : ∃ k, IsNode (mkTempVar F t s).2.mgr p k n := by
      rcases h with h | h
      · exact ⟨_, isNode_mono hh h⟩
      · exact ⟨_, isNode_mono hh h.1⟩
    obtain ⟨k, o', g1, _, g3⟩ := this
    unfold printVar; rw [g1]; exact g3
  rw [e1, e2]
  rcases h with h | h
  · obtain ⟨j, a, b⟩ := ti.tempn p hp n h
    rw [b]; intro e; have := tempName_inj e; omega
  · exact fun e => h.2 _ e.symm

/-- **C47, violated.**  A user variable named like the next temporary variable prints exactly like it, although the two are
different nodes; this can happen in every state. -/
theorem temp_print_violated {F : HashFn} {t : Tab} (hr : TReach F t) (s : Nat) (hu : t.vars.lookup (tempName t.counter) = none) :
    let v := mkVar F t s (tempName t.counter)
    let w := mkTempVar F v.2 s
    v.1 ≠ w.1 ∧ printVar w.2 v.1 = printVar w.2 w.1 := by
  intro v w
  have ti := treach_inv hr
  have t1 : TReach F v.2 := .step (.var s (tempName t.counter)) hr trivial
  have ti1 := treach_inv t1
  obtain ⟨i, a, b, c⟩ := mkVar_res ti s (tempName t.counter)
  obtain ⟨h1, o, h2, _, _, h3⟩ := temp_fresh_node_partial t1 s
  have hm : v.1 ∈ v.2.mgr.nodes := List.mem_of_getElem? b
  have hcnt : v.2.counter = t.counter := by
    show (mkVar F t s (tempName t.counter)).2.counter = _
    unfold mkVar; rw [hu]
  refine ⟨fun e => h1 (e ▸ hm), ?_⟩
  have hh : v.2.mgr.heap <+: w.2.mgr.heap := (run_inv ti1 (.temp s) trivial).2.2.1
  obtain ⟨o', g1, _, g3⟩ := isNode_mono hh c
  unfold printVar
  rw [show w.2.mgr.heap[w.1]? = some o from h2, show w.2.mgr.heap[v.1]? = some o' from g1]
  simp only [Option.map_some, Option.getD_some]
  rw [g3, h3, hcnt]

/-- **C47, violated.**  After renaming a temporary variable to the next temporary name, the next request yields the
`unknown` node instead of a variable. -/
theorem temp_after_rename_violated {F : HashFn} {t : Tab} (hr : TReach F t) (s : Nat) :
    let v := mkTempVar F t s
    let t' := (rename v.2 v.1 (tempName (t.counter + 1))).2
    (mkTempVar F t' s).1 = UNKNOWN_NODE := by
  intro v t'
  have ti := treach_inv hr
  obtain ⟨_, o, h2, _, hk, h3⟩ := temp_fresh_node_partial hr s
  obtain ⟨i, e1, e2, e3⟩ := mkTempVar_new ti s
  have hl : v.2.temps.lookup (tempName t.counter) = some i := by
    show (mkTempVar F t s).2.temps.lookup _ = _
    rw [e2]; rw [lookup_cons, if_pos rfl]
  have hc : v.2.counter = t.counter + 1 := by
    show (mkTempVar F t s).2.counter = _
    rw [e2]
  have ht' : t'.temps.lookup (tempName t'.counter) = some i := by
    show (rename v.2 v.1 (tempName (t.counter + 1))).2.temps.lookup
      (tempName (rename v.2 v.1 (tempName (t.counter + 1))).2.counter) = _
    unfold rename
    rw [show v.2.mgr.heap[v.1]? = some o from h2]
    simp only [hk, if_true, h3, hl, hc]
    unfold assign
    rw [lookup_cons, if_pos rfl]
  unfold mkTempVar
  simp only [ht']

/-- Non-vacuous: a concrete history with two variables, a temporary and an application. -/
example (F : HashFn) : ∃ t : Tab, TReach F t ∧ t.vars.length = 2 ∧ t.counter = 1 := by
  have h0 : TReach F (Tab.init F) := .refl _
  have l1 : (Tab.init F).vars.lookup cs!"x" = none := rfl
  obtain ⟨i, _, e1, _⟩ := mkVar_new (treach_inv h0) BOOL_S cs!"x" l1
  have h1 : TReach F (mkVar F (Tab.init F) BOOL_S cs!"x").2 := .step (.var BOOL_S cs!"x") h0 trivial
  have l2 : (mkVar F (Tab.init F) BOOL_S cs!"x").2.vars.lookup cs!"y" = none := by
    rw [e1]; rw [lookup_cons, if_neg (by decide)]; rfl
  obtain ⟨j, _, e2, _⟩ := mkVar_new (treach_inv h1) BOOL_S cs!"y" l2
  have h2 : TReach F (mkVar F (mkVar F (Tab.init F) BOOL_S cs!"x").2 BOOL_S cs!"y").2 := .step (.var BOOL_S cs!"y") h1 trivial
  obtain ⟨k, _, e3, _⟩ := mkTempVar_new (treach_inv h2) BOOL_S
  refine ⟨_, .step (.temp BOOL_S) h2 trivial, ?_, ?_⟩
  · show (mkTempVar F _ BOOL_S).2.vars.length = 2
    rw [e3, e2, e1]; rfl
  · show (mkTempVar F _ BOOL_S).2.counter = 1
    rw [e3, e2, e1]; rfl

end SMT.Store
