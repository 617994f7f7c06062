import Verif.Walk.Props

/-! # Collecting variables and atoms (C60): the properties -/

namespace SMT.Walk
open SMT.Kinds SMT.Text SMT.Store

/-- the node is a variable of some sort -/
def Var (H : Heap) (p : Nat) : Prop := isVarK (kindAt H p) = true

/-- variables have no operands -/
def Leaves (H : Heap) : Prop := ∀ p, Var H p → kids H p = []

theorem Path.mono {H : Heap} {i j : Nat → Prop} (hij : ∀ q, i q → j q) {p q : Nat} (h : Path H i p q) : Path H j p q := by
  induction h with
  | refl => exact .refl _
  | step _ hi hk ih => exact .step ih (hij _ hi) hk

theorem path_reach {H : Heap} {inner : Nat → Prop} {p q : Nat} (h : Path H inner p q) : ReachN H p q := by
  induction h with
  | refl => exact .refl _
  | step _ _ hk ih => exact .step ih hk

theorem reach_path {H : Heap} {inner : Nat → Prop} (hin : ∀ p, ¬ inner p → kids H p = []) {p q : Nat} (h : ReachN H p q) :
    Path H inner p q := by
  induction h with
  | refl => exact .refl _
  | step _ hk ih =>
    rename_i q r _
    by_cases hi : inner q
    · exact .step ih hi hk
    · rw [hin q hi] at hk; cases hk

/-- **C60.**  Collecting variables adds to the given set exactly the variables that occur in the given expressions, for every
expression graph, however shared, that the manager can hold. -/
theorem collectVars_exact {F : HashFn} {st : St} (hr : Reach F st) (hl : Leaves st.heap) (es vars : List Nat) (x : Nat) :
    x ∈ (collectVars st.heap es vars).acc ↔ x ∈ vars ∨ (Var st.heap x ∧ ∃ e ∈ es, ReachN st.heap e x) := by
  unfold collectVars
  rw [did_exact (collectL_did (reach_inv hr).wf _ _ es _)]
  constructor
  · rintro (h | ⟨h, e, he, hp⟩)
    · exact .inl h
    · exact .inr ⟨h, e, he, path_reach hp⟩
  · rintro (h | ⟨h, e, he, hp⟩)
    · exact .inl h
    · refine .inr ⟨h, e, he, reach_path (fun p hp => hl p ?_) hp⟩
      unfold Var
      cases hk : isVarK (kindAt st.heap p) with
      | true => rfl
      | false => exact absurd ⟨hk, by simp [hk]⟩ hp

/-- **C60.**  The number of calls made is at most the number of expressions plus the number of operand slots of the distinct
nodes reached: a shared subterm is not walked again. -/
theorem collectVars_linear {F : HashFn} {st : St} (hr : Reach F st) (es vars : List Nat) :
    ∃ R : List Nat, R.Nodup ∧ (∀ x ∈ R, ∃ e ∈ es, ReachN st.heap e x) ∧
      (collectVars st.heap es vars).calls ≤ es.length + (R.map fun p => (kids st.heap p).length).sum := by
  have d := collectL_did (reach_inv hr).wf (fun p => isVarK (kindAt st.heap p)) (fun p => !isVarK (kindAt st.heap p)) es
    ⟨vars, [], 0⟩
  obtain ⟨T, e, n, c⟩ := d.grow
  simp only [List.nil_append] at e
  refine ⟨T, by rw [← e]; exact n List.nodup_nil, fun x hx => ?_, by unfold collectVars; simp only [Nat.zero_add] at c; exact c⟩
  rcases d.from' x (e ▸ hx) with h | ⟨p, hp, h⟩
  · simp at h
  · exact ⟨p, hp, path_reach h⟩

/-- The value of a node when every node that is not a variable gets its value from its kind, name and sort and the values of its
operands, and variables from `ρ`. -/
def value {V : Type} (H : Heap) (I : K → List Char → Nat → List V → V) (ρ : Nat → V) : Nat → Nat → V
  | 0, p => ρ p
  | n + 1, p =>
    if isVarK (kindAt H p) then ρ p
    else I (kindAt H p) ((H[p]?.map Obj.name).getD []) (sortAt H p) ((kids H p).map (value H I ρ n))

theorem value_congr {V : Type} {H : Heap} (wf : WF H) (I : K → List Char → Nat → List V → V) (ρ ρ' : Nat → V) :
    ∀ (n p : Nat), p < n → (∀ x, Var H x → Path H (fun q => ¬ Var H q) p x → ρ x = ρ' x) →
      value H I ρ n p = value H I ρ' n p := by
  intro n
  induction n with
  | zero => intro p h; omega
  | succ n ih =>
    intro p hp h
    unfold value
    by_cases hv : isVarK (kindAt H p) = true
    · rw [if_pos hv, if_pos hv]; exact h p hv (.refl _)
    · rw [if_neg hv, if_neg hv]
      congr 1
      apply List.map_congr_left
      intro c hc
      exact ih c (by have := kids_lt wf hc; omega) fun x hx hpx => h x hx (Path.head hv hc hpx)

/-- **C60.**  The value of an expression depends only on the collected variables: two assignments that agree on them give it the
same value, for every interpretation of the operators. -/
theorem collectVars_determine {V : Type} {F : HashFn} {st : St} (hr : Reach F st) (es vars : List Nat)
    (I : K → List Char → Nat → List V → V) (ρ ρ' : Nat → V)
    (h : ∀ x ∈ (collectVars st.heap es vars).acc, ρ x = ρ' x) (e : Nat) (he : e ∈ es) :
    value st.heap I ρ (e + 1) e = value st.heap I ρ' (e + 1) e := by
  refine value_congr (reach_inv hr).wf I ρ ρ' _ e (by omega) fun x hx hp => h x ?_
  unfold collectVars
  rw [did_exact (collectL_did (reach_inv hr).wf _ _ es _)]
  refine .inr ⟨hx, e, he, hp.mono fun q hq => ?_⟩
  have hf : isVarK (kindAt st.heap q) = false := by unfold Var at hq; simpa using hq
  exact ⟨hf, by simp [hf]⟩

/-- **C60.**  Collecting assignable variables adds exactly the variables and applications of uninterpreted functions that occur
outside the operands of such applications. -/
theorem collectAssignableVars_exact {F : HashFn} {st : St} (hr : Reach F st) (es vars : List Nat) (x : Nat) :
    x ∈ (collectAssignableVars st.heap es vars).acc ↔ x ∈ vars ∨
      ((Var st.heap x ∨ kindAt st.heap x = .UF_APPLY) ∧
        ∃ e ∈ es, Path st.heap (fun q => ¬ Var st.heap q ∧ kindAt st.heap q ≠ .UF_APPLY) e x) := by
  unfold collectAssignableVars
  rw [did_exact (collectL_did (reach_inv hr).wf _ _ es _)]
  have e1 : ∀ q, ((isVarK (kindAt st.heap q) || kindAt st.heap q == .UF_APPLY) = false ∧
      (!(fun p => isVarK (kindAt st.heap p) || kindAt st.heap p == .UF_APPLY) q) = true) ↔
      (¬ Var st.heap q ∧ kindAt st.heap q ≠ .UF_APPLY) := by
    intro q; unfold Var; simp
  constructor
  · rintro (h | ⟨h, e, he, hp⟩)
    · exact .inl h
    · exact .inr ⟨by unfold Var; simpa using h, e, he, hp.mono fun q => (e1 q).1⟩
  · rintro (h | ⟨h, e, he, hp⟩)
    · exact .inl h
    · exact .inr ⟨by unfold Var at h; simpa using h, e, he, hp.mono fun q => (e1 q).2⟩

/-- **C60.**  Collecting atoms adds exactly the atoms that occur in the expressions outside other atoms. -/
theorem collectAtoms_exact {F : HashFn} {st : St} (hr : Reach F st) (S : SortTest) (es atoms : List Nat) (x : Nat) :
    x ∈ (collectAtoms S st.heap es atoms).acc ↔ x ∈ atoms ∨
      (isAtom S st.heap x = true ∧ ∃ e ∈ es, Path st.heap (fun q => isAtom S st.heap q = false) e x) := by
  unfold collectAtoms
  rw [did_exact (collectL_did (reach_inv hr).wf _ _ es _)]
  constructor
  · rintro (h | ⟨h, e, he, hp⟩)
    · exact .inl h
    · exact .inr ⟨h, e, he, hp.mono fun q hq => hq.1⟩
  · rintro (h | ⟨h, e, he, hp⟩)
    · exact .inl h
    · exact .inr ⟨h, e, he, hp.mono fun q hq => ⟨hq, by rw [hq]; rfl⟩⟩

theorem ground_did {H : Heap} (wf : WF H) (S : SortTest) (es : List Nat) (w : W) :
    Did H (isAtom S H) (fun p => kindAt H p == .AND) (· ∈ es) es.length w
      (es.foldl (fun w e => if e ∈ w.vis then w
        else collect H (isAtom S H) (fun p => kindAt H p == .AND) (e + 1) e w) w) := by
  apply foldl_did
  intro e _ w'
  by_cases hv : e ∈ w'.vis
  · rw [if_pos hv]
    exact ⟨⟨[], by simp, id, by omega⟩, fun q hq => hq ▸ hv, fun x hx => .inl hx, fun x hx h => absurd hx h,
      fun x => ⟨.inl, fun h => h.elim id fun h => absurd h.1 h.2.1⟩⟩
  · rw [if_neg hv]; exact collect_did wf _ _ (e + 1) e w' (by omega)

theorem and_not_atom {S : SortTest} {H : Heap} {q : Nat} (h : kindAt H q = .AND) : isAtom S H q = false := by
  unfold isAtom
  rw [h]
  cases kids H q <;> rfl

/-- **C60.**  Collecting ground atoms adds exactly the atoms reached through conjunctions only. -/
theorem collectGroundAtoms_exact {F : HashFn} {st : St} (hr : Reach F st) (S : SortTest) (es atoms : List Nat) (x : Nat) :
    x ∈ (collectGroundAtoms S st.heap es atoms).acc ↔ x ∈ atoms ∨
      (isAtom S st.heap x = true ∧ ∃ e ∈ es, Path st.heap (fun q => kindAt st.heap q = .AND) e x) := by
  unfold collectGroundAtoms
  rw [did_exact (ground_did (reach_inv hr).wf S es _)]
  constructor
  · rintro (h | ⟨h, e, he, hp⟩)
    · exact .inl h
    · exact .inr ⟨h, e, he, hp.mono fun q hq => by simpa using hq.2⟩
  · rintro (h | ⟨h, e, he, hp⟩)
    · exact .inl h
    · exact .inr ⟨h, e, he, hp.mono fun q hq => ⟨and_not_atom hq, by simp [hq]⟩⟩

/-- **C60.**  Every ground atom found is a consequence of the expressions: if they all hold, it holds, whatever the truth values,
as long as a conjunction holds only if all its operands do. -/
theorem collectGroundAtoms_implied {F : HashFn} {st : St} (hr : Reach F st) (S : SortTest) (es : List Nat) (holds : Nat → Prop)
    (hand : ∀ q, kindAt st.heap q = .AND → holds q → ∀ c ∈ kids st.heap q, holds c) (hes : ∀ e ∈ es, holds e) :
    ∀ x ∈ (collectGroundAtoms S st.heap es []).acc, holds x := by
  intro x hx
  rw [collectGroundAtoms_exact hr] at hx
  rcases hx with h | ⟨ha, e, he, hp⟩
  · simp at h
  · clear ha
    induction hp with
    | refl => exact hes _ he
    | step _ hi hk ih => exact hand _ hi ih _ hk

/-! ## `hasSomeKinds` -/

theorem kindsLoop_spec {F : HashFn} {st : St} (inv : Inv F st) (ks : K → Bool) :
    ∀ (m k : Nat) (stack v : List Nat), todo st.nodes v ≤ m → stack.length ≤ k → (∀ x ∈ stack, x ∈ st.nodes) →
      (∀ x ∈ v, x ∈ st.nodes) → (∀ x ∈ v, ks (kindAt st.heap x) = false) →
      (∀ x ∈ v, ∀ c ∈ kids st.heap x, c ∈ v ∨ c ∈ stack) →
      ∃ n b, (∀ n' ≥ n, kindsLoop st.heap ks n' stack v = some b) ∧
        (b = true ↔ ∃ s ∈ stack, ∃ x, ReachN st.heap s x ∧ ks (kindAt st.heap x) = true) := by
  intro m
  induction m using Nat.strongRecOn with
  | ind m ihm =>
    intro k
    induction k with
    | zero =>
      intro stack v _ hk _ _ _ _
      have : stack = [] := List.eq_nil_of_length_eq_zero (by omega)
      subst this
      exact ⟨0, false, fun n' _ => by unfold kindsLoop; rfl, by simp⟩
    | succ k ihk =>
      intro stack v hm hk hs hv hnv hcl
      cases stack with
      | nil => exact ⟨0, false, fun n' _ => by unfold kindsLoop; rfl, by simp⟩
      | cons p stack =>
        have hp := hs p List.mem_cons_self
        by_cases hpv : p ∈ v
        · -- everything reachable from a visited node is visited and of another kind, or reachable from the rest
          obtain ⟨n, b, h1, h2⟩ := ihk stack v hm (by simpa using hk)
            (fun x hx => hs x (List.mem_cons_of_mem _ hx)) hv hnv (fun x hx c hc => by
              rcases hcl x hx c hc with h | h
              · exact .inl h
              · rcases List.mem_cons.mp h with rfl | h
                · exact .inl hpv
                · exact .inr h)
          refine ⟨n + 1, b, fun n' hn' => ?_, ?_⟩
          · obtain ⟨j, rfl⟩ : ∃ j, n' = j + 1 := ⟨n' - 1, by omega⟩
            unfold kindsLoop
            rw [if_pos hpv]
            exact h1 j (by omega)
          · rw [h2]
            constructor
            · rintro ⟨s, hs', x, hx⟩; exact ⟨s, List.mem_cons_of_mem _ hs', x, hx⟩
            · rintro ⟨s, hs', x, hx, hkx⟩
              rcases List.mem_cons.mp hs' with rfl | hs'
              · have key : ∀ y, ReachN st.heap s y → y ∈ v ∨ ∃ t ∈ stack, ReachN st.heap t y := by
                  intro y hy
                  induction hy with
                  | refl => exact .inl hpv
                  | step _ hk' ih =>
                    rcases ih with ih | ⟨t, ht, hty⟩
                    · rcases hcl _ ih _ hk' with h | h
                      · exact .inl h
                      · rcases List.mem_cons.mp h with rfl | h
                        · exact .inl hpv
                        · exact .inr ⟨_, h, .refl _⟩
                    · exact .inr ⟨t, ht, .step hty hk'⟩
                rcases key x hx with h | ⟨t, ht, h⟩
                · rw [hnv x h] at hkx; cases hkx
                · exact ⟨t, ht, x, h, hkx⟩
              · exact ⟨s, hs', x, hx, hkx⟩
        · by_cases hkp : ks (kindAt st.heap p) = true
          · refine ⟨1, true, fun n' hn' => ?_, by simpa using .inl ⟨p, .refl _, hkp⟩⟩
            obtain ⟨j, rfl⟩ : ∃ j, n' = j + 1 := ⟨n' - 1, by omega⟩
            unfold kindsLoop
            rw [if_neg hpv, if_pos hkp]
          · have hkp' : ks (kindAt st.heap p) = false := by simpa using hkp
            have hkids := kids_closed inv hp
            have hmem : ∀ x, x ∈ ((kids st.heap p).filter fun c => decide (c ∉ v ++ [p])).reverse ++ stack ↔
                (x ∈ kids st.heap p ∧ x ∉ v ++ [p]) ∨ x ∈ stack := by
              intro x; rw [List.mem_append, List.mem_reverse, List.mem_filter, decide_eq_true_eq]
            obtain ⟨n, b, h1, h2⟩ := ihm (todo st.nodes (v ++ [p]))
              (Nat.lt_of_lt_of_le (todo_lt hp hpv) hm) _
              (((kids st.heap p).filter fun c => decide (c ∉ v ++ [p])).reverse ++ stack) (v ++ [p]) (Nat.le_refl _)
              (Nat.le_refl _)
              (by
                intro x hx
                rcases (hmem x).1 hx with hx | hx
                · exact hkids x hx.1
                · exact hs x (List.mem_cons_of_mem _ hx))
              (by
                intro x hx
                rcases List.mem_append.mp hx with hx | hx
                · exact hv x hx
                · rw [List.mem_singleton.mp hx]; exact hp)
              (by
                intro x hx
                rcases List.mem_append.mp hx with hx | hx
                · exact hnv x hx
                · rw [List.mem_singleton.mp hx]; exact hkp')
              (by
                intro x hx c hc
                by_cases hcv : c ∈ v ++ [p]
                · exact .inl hcv
                · refine .inr ((hmem c).2 ?_)
                  rcases List.mem_append.mp hx with hx | hx
                  · rcases hcl x hx c hc with h | h
                    · exact absurd (List.mem_append_left _ h) hcv
                    · rcases List.mem_cons.mp h with rfl | h
                      · exact absurd (by simp) hcv
                      · exact .inr h
                  · rw [List.mem_singleton.mp hx] at hc
                    exact .inl ⟨hc, hcv⟩)
            refine ⟨n + 1, b, fun n' hn' => ?_, ?_⟩
            · obtain ⟨j, rfl⟩ : ∃ j, n' = j + 1 := ⟨n' - 1, by omega⟩
              unfold kindsLoop
              rw [if_neg hpv, if_neg hkp]
              exact h1 j (by omega)
            · rw [h2]
              constructor
              · rintro ⟨s, hs', x, hx, hkx⟩
                rcases (hmem s).1 hs' with h | h
                · exact ⟨p, List.mem_cons_self, x, reachN_head h.1 hx, hkx⟩
                · exact ⟨s, List.mem_cons_of_mem _ h, x, hx, hkx⟩
              · rintro ⟨s, hs', x, hx, hkx⟩
                have key : ∀ y, ReachN st.heap s y → y ∈ v ++ [p] ∨ ∃ t ∈ ((kids st.heap p).filter fun c =>
                    decide (c ∉ v ++ [p])).reverse ++ stack, ReachN st.heap t y := by
                  intro y hy
                  induction hy with
                  | refl =>
                    rcases List.mem_cons.mp hs' with h | h
                    · exact .inl (by simp [h])
                    · exact .inr ⟨s, (hmem s).2 (.inr h), .refl _⟩
                  | step _ hk' ih =>
                    rename_i q r _
                    rcases ih with ih | ⟨t, ht, hty⟩
                    · by_cases hcv : r ∈ v ++ [p]
                      · exact .inl hcv
                      · refine .inr ⟨r, (hmem r).2 ?_, .refl _⟩
                        rcases List.mem_append.mp ih with ih | ih
                        · rcases hcl q ih r hk' with h | h
                          · exact absurd (List.mem_append_left _ h) hcv
                          · rcases List.mem_cons.mp h with h | h
                            · exact absurd (by simp [h]) hcv
                            · exact .inr h
                        · rw [List.mem_singleton.mp ih] at hk'
                          exact .inl ⟨hk', hcv⟩
                    · exact .inr ⟨t, ht, .step hty hk'⟩
                rcases key x hx with h | ⟨t, ht, h⟩
                · rcases List.mem_append.mp h with h | h
                  · rw [hnv x h] at hkx; cases hkx
                  · rw [List.mem_singleton.mp h, hkp'] at hkx; cases hkx
                · exact ⟨t, ht, x, h, hkx⟩

/-- **C60.**  `hasSomeKinds` terminates and answers whether some node of the expression has one of the kinds. -/
theorem hasSomeKinds_exact {F : HashFn} {st : St} (hr : Reach F st) (ks : K → Bool) (p : Nat) (hp : p ∈ st.nodes) :
    ∃ n b, (∀ n' ≥ n, hasSomeKinds st.heap ks n' p = some b) ∧
      (b = true ↔ ∃ x, ReachN st.heap p x ∧ ks (kindAt st.heap x) = true) := by
  obtain ⟨n, b, h1, h2⟩ := kindsLoop_spec (reach_inv hr) ks _ _ [p] [] (Nat.le_refl _) (Nat.le_refl _) (by simpa using hp)
    (by simp) (by simp) (by simp)
  refine ⟨n, b, h1, by rw [h2]; simp⟩

/-! ## Which nodes are atoms -/

/-- a comparison, order test, divisibility test, floating-point test or string test -/
def theoryPreds : List K := [.LE, .LT, .GE, .GT, .IS_INT, .IS_DIVISIBLE, .IS_PRIME, .IS_EVEN, .IS_ODD,
  .BV_ULT, .BV_ULE, .BV_UGT, .BV_UGE, .BV_SLT, .BV_SLE, .BV_SGT, .BV_SGE, .FP_LE, .FP_LT, .FP_GE, .FP_GT, .FP_EQ,
  .FP_IS_NORMAL, .FP_IS_SUBNORMAL, .FP_IS_ZERO, .FP_IS_INF, .FP_IS_NAN, .FP_IS_NEG, .FP_IS_POS,
  .STR_LT, .STR_LE, .STR_GT, .STR_GE, .STR_IN_REG, .STR_CONTAINS, .STR_IS_DIGIT]

/-- the operators of a formula -/
def connectives : List K := [.NOT, .AND, .OR, .IMPLIES, .XOR, .ITE, .LET, .LET_CHAIN, .FORALL, .EXISTS, .CONST_TRUE, .CONST_FALSE,
  .VAR, .TEMP_VAR, .QUANT_VAR, .LET_BIND_VAR]

/-- **C60 (part).**  A node headed by a theory predicate is an atom, as is an application of an uninterpreted predicate, and an
equation or disequation whose first operand is a variable, a constant, an `ite` or an uninterpreted application of an integer,
real, bit-vector or floating-point sort.  Missing: see `isAtom_violated`. -/
theorem isAtom_complete_partial (S : SortTest) (H : Heap) (p : Nat)
    (h : kindAt H p ∈ theoryPreds ∨ (kindAt H p = .UF_APPLY ∧ S.isBool (sortAt H p) = true) ∨
      (kindAt H p ∈ [K.EQ, .EQ_OTHER, .DISTINCT, .DISTINCT_OTHER] ∧ ∃ a as, kids H p = a :: as ∧
        (Var H a ∨ kindAt H a ∈ [K.CONST, .ITE, .UF_APPLY]) ∧
        (S.isInt (sortAt H a) || S.isReal (sortAt H a) || S.isBv (sortAt H a) || S.isFp (sortAt H a)) = true)) :
    isAtom S H p = true := by
  rcases h with h | ⟨h1, h2⟩ | ⟨h1, a, as, h2, h3, h4⟩
  · unfold isAtom
    have : isPredK (kindAt H p) = true := by
      revert h; generalize kindAt H p = k; intro h
      simp only [theoryPreds, List.mem_cons, List.not_mem_nil, or_false] at h
      rcases h with h | h | h | h | h | h | h | h | h | h | h | h | h | h | h | h | h | h | h | h | h | h | h | h | h | h | h | h |
        h | h | h | h | h | h | h | h <;> subst h <;> rfl
    simp [this]
  · unfold isAtom; simp [h1, h2]
  · unfold isAtom
    rw [h2]
    have h5 : (isEqK (kindAt H p) || isDistinctK (kindAt H p)) = true := by
      revert h1; generalize kindAt H p = k; intro h1
      simp only [List.mem_cons, List.not_mem_nil, or_false] at h1
      rcases h1 with h | h | h | h <;> subst h <;> rfl
    have h6 : (isVarK (kindAt H a) || isConstK (kindAt H a) || isPickK (kindAt H a) || kindAt H a == .UF_APPLY) = true := by
      rcases h3 with h | h
      · unfold Var at h; simp [h]
      · simp only [List.mem_cons, List.not_mem_nil, or_false] at h
        rcases h with h | h | h <;> rw [h] <;> rfl
    have h7 : (isArithTerm S (kindAt H a) (sortAt H a) || isBVTerm S (kindAt H a) (sortAt H a) ||
        isFPTerm S (kindAt H a) (sortAt H a)) = true := by
      unfold isArithTerm isBVTerm isFPTerm
      simp only [Bool.or_eq_true, Bool.and_eq_true] at h4 h6 ⊢
      rcases h4 with ((h4 | h4) | h4) | h4 <;> rcases h6 with ((h6 | h6) | h6) | h6 <;> simp [h4, h6]
    simp [h5, h7]

/-- **C60.**  No connective, quantifier, Boolean constant or variable is an atom. -/
theorem isAtom_sound (S : SortTest) (H : Heap) (p : Nat) (h : kindAt H p ∈ connectives) : isAtom S H p = false := by
  unfold isAtom
  revert h; generalize kindAt H p = k; intro h
  simp only [connectives, List.mem_cons, List.not_mem_nil, or_false] at h
  rcases h with h | h | h | h | h | h | h | h | h | h | h | h | h | h | h | h <;> subst h <;> cases kids H p <;>
    simp [isPredK, isEqK, isDistinctK]

/-- **C60.**  The variables are exactly the nodes of these kinds: declared, temporary, bound by a quantifier or a let, placeholders. -/
theorem var_kinds (H : Heap) (p : Nat) :
    Var H p ↔ kindAt H p ∈ [K.VAR, .TEMP_VAR, .QUANT_VAR, .LET_BIND_VAR, .PLACEHOLDER_VAR] := by
  unfold Var
  generalize kindAt H p = k
  constructor
  · intro h
    unfold isVarK at h
    split at h <;> first | decide | cases h
  · intro h
    simp only [List.mem_cons, List.not_mem_nil, or_false] at h
    rcases h with h | h | h | h | h <;> subst h <;> rfl

/-- **C60.**  An application of an uninterpreted function is an atom exactly if it is Boolean. -/
theorem isAtom_app (S : SortTest) (H : Heap) (p : Nat) (h : kindAt H p = .UF_APPLY) : isAtom S H p = S.isBool (sortAt H p) := by
  unfold isAtom
  rw [h]
  cases kids H p <;> simp [isPredK, isEqK, isDistinctK]

/-- **C60.**  An atom is a theory predicate, a Boolean application, an equation or a disequation. -/
theorem isAtom_kinds (S : SortTest) (H : Heap) (p : Nat) (h : isAtom S H p = true) :
    kindAt H p ∈ theoryPreds ∨ (kindAt H p = .UF_APPLY ∧ S.isBool (sortAt H p) = true) ∨
    (kindAt H p ∈ [K.EQ, .EQ_BOOL, .EQ_OTHER, .DISTINCT, .DISTINCT_BOOL, .DISTINCT_OTHER] ∧ kids H p ≠ []) := by
  unfold isAtom at h
  rw [Bool.or_eq_true, Bool.or_eq_true, Bool.and_eq_true] at h
  rcases h with (h | ⟨h, h'⟩) | h
  · refine .inl ?_
    revert h; generalize kindAt H p = k; intro h
    unfold isPredK at h
    split at h <;> first | decide | cases h
  · exact .inr (.inl ⟨by simpa using h, h'⟩)
  · refine .inr (.inr ?_)
    have hk : isEqK (kindAt H p) = true ∨ isDistinctK (kindAt H p) = true := by
      cases hc : kids H p with
      | nil => rw [hc] at h; cases h
      | cons a as =>
        rw [hc] at h
        simp only [Bool.or_eq_true, Bool.and_eq_true] at h
        rcases h with h | h
        · exact h.1
        · exact .inl h.1.1
    refine ⟨?_, fun q => by rw [q] at h; cases h⟩
    revert hk; generalize kindAt H p = k; intro hk
    rcases hk with hk | hk
    · unfold isEqK at hk
      split at hk <;> first | decide | cases hk
    · unfold isDistinctK at hk
      split at hk <;> first | decide | cases hk

/-- **C60 (violated).**  Prefix and suffix tests, the bit-vector overflow tests and reading a Boolean out of an array are not atoms,
nor is an equation whose first operand is headed by `gcd`, `lcm`, `bvneg`, `bvcomp`, `bv2nat`, an array read or a defined function,
whatever their sorts: the collector of atoms does not report them, for any graph. -/
theorem isAtom_violated {F : HashFn} {st : St} (hr : Reach F st) (S : SortTest) (p : Nat)
    (h : kindAt st.heap p ∈ [K.STR_PREFIXOF, .STR_SUFFIXOF, .BV_NEGO, .BV_UADDO, .BV_SADDO, .BV_UMULO, .BV_SMULO, .SELECT] ∨
      (kindAt st.heap p ∈ [K.EQ, .EQ_OTHER, .DISTINCT, .DISTINCT_OTHER] ∧ ∃ a as, kids st.heap p = a :: as ∧
        kindAt st.heap a ∈ [K.GCD, .LCM, .FACT, .BV_NEG, .BV_COMP, .BV_TO_NAT, .BV_TO_INT, .STR_TO_INT, .STR_TO_CODE, .SELECT,
          .FUNC_APPLY])) :
    p ∉ (collectAtoms S st.heap [p] []).acc := by
  rw [collectAtoms_exact hr]
  rintro (h' | ⟨h', _⟩)
  · simp at h'
  · revert h'
    rw [imp_false, Bool.not_eq_true]
    unfold isAtom
    rcases h with h | ⟨h1, a, as, h2, h3⟩
    · revert h; generalize kindAt st.heap p = k; intro h
      simp only [List.mem_cons, List.not_mem_nil, or_false] at h
      rcases h with h | h | h | h | h | h | h | h <;> subst h <;> cases kids st.heap p <;>
        simp [isPredK, isEqK, isDistinctK]
    · rw [h2]
      have e1 : (isArithTerm S (kindAt st.heap a) (sortAt st.heap a) || isBVTerm S (kindAt st.heap a) (sortAt st.heap a) ||
          isFPTerm S (kindAt st.heap a) (sortAt st.heap a)) = false ∧ isStrTerm S (kindAt st.heap a) (sortAt st.heap a) = false := by
        revert h3; generalize kindAt st.heap a = k; intro h
        simp only [List.mem_cons, List.not_mem_nil, or_false] at h
        rcases h with h | h | h | h | h | h | h | h | h | h | h <;> subst h <;>
          simp [isArithTerm, isBVTerm, isFPTerm, isStrTerm, isArithK, isVarK, isConstK, isPickK, isBVOpK, isFPOpK, isFPConvK, isStrOpK]
      simp only [e1.1, e1.2, Bool.and_false, Bool.or_false]
      revert h1; generalize kindAt st.heap p = k; intro h
      simp only [List.mem_cons, List.not_mem_nil, or_false] at h
      rcases h with h | h | h | h <;> subst h <;> simp [isPredK]

/-- **C60 (violated).**  A variable that occurs only as an operand of an uninterpreted function is not among the assignable
variables, for every graph. -/
theorem assignable_uf_violated {F : HashFn} {st : St} (hr : Reach F st) (p : Nat) (h : kindAt st.heap p = .UF_APPLY) (x : Nat)
    (hx : x ∈ kids st.heap p) : x ∉ (collectAssignableVars st.heap [p] []).acc ∧ ReachN st.heap p x := by
  refine ⟨?_, .step (.refl _) hx⟩
  rw [collectAssignableVars_exact hr]
  rintro (h' | ⟨_, e, he, hp⟩)
  · simp at h'
  · rw [List.mem_singleton.mp he] at hp
    have : ∀ y, Path st.heap (fun q => ¬Var st.heap q ∧ kindAt st.heap q ≠ .UF_APPLY) p y → y = p := by
      intro y hy
      induction hy with
      | refl => rfl
      | step _ hi hk ih => subst ih; exact absurd h hi.2
    have hlt := kids_lt (reach_inv hr).wf hx
    have := this x hp
    omega

/-- the graph of `(and (< x y) (< x y))`: positions 0 and 1 hold `x` and `y`, 2 the comparison, 3 the conjunction -/
def exHeap : Heap := [⟨INT_S, .VAR, cs!"x", [], none, 0⟩, ⟨INT_S, .VAR, cs!"y", [], none, 0⟩,
  ⟨BOOL_S, .LT, cs!"<", [0, 1], none, 0⟩, ⟨BOOL_S, .AND, cs!"and", [2, 2], none, 0⟩]

/-- sorts of the example -/
def exSorts : SortTest where
  isBool := (· == BOOL_S)
  isInt := (· == INT_S)
  isReal := (· == REAL_S)
  isIntOrReal := fun _ => false
  isBv := fun _ => false
  isFp := fun _ => false
  isStr := (· == STR_S)

/-- The collectors run on a shared graph: the comparison is walked once. -/
example : (collectVars exHeap [3] []).acc = [0, 1] ∧ (collectVars exHeap [3] []).calls = 5 ∧
    (collectAtoms exSorts exHeap [3] []).acc = [2] ∧ (collectGroundAtoms exSorts exHeap [3] []).acc = [2] ∧
    hasSomeKinds exHeap (· == .LT) 10 3 = some true ∧ hasSomeKinds exHeap (· == .OR) 10 3 = some false := by
  refine ⟨?_, ?_, ?_, ?_, ?_, ?_⟩ <;> decide +kernel

/-- The hypotheses are met: the same graph, built by the manager in any state it can be in, has variables as leaves if that state
does, and the conjunction reaches both variables. -/
example (F : HashFn) (s0 : St) (r0 : Reach F s0) :
    let x := create F s0 ⟨BOOL_S, .VAR, cs!"x", []⟩
    let a := create F x.2 ⟨BOOL_S, .AND, cs!"and", [x.1, x.1]⟩
    x.1 ∈ (collectGroundAtoms exSorts a.2.heap [a.1] [x.1]).acc ∧ Reach F a.2 := by
  intro x a
  have t1 := create_step (reach_inv r0) ⟨BOOL_S, .VAR, cs!"x", []⟩ (by simp)
  have r1 : Reach F x.2 := .step _ r0 (by simp)
  have hc : ∀ c ∈ [x.1, x.1], c ∈ x.2.nodes := by
    intro c hc; simp only [List.mem_cons, List.not_mem_nil, or_false, or_self] at hc; rw [hc]; exact t1.2.2.1
  have r2 : Reach F a.2 := .step _ r1 hc
  exact ⟨(collectGroundAtoms_exact r2 _ _ _ _).2 (.inl (by simp)), r2⟩

end SMT.Walk
