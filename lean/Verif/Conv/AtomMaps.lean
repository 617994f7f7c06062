import Verif.Conv.PropsCnf

/-!
# The tables between atoms and the propositional variables of a CNF (`src/conv_parser.cpp:94-157, 839-857, 917-937`)

Both tables are hash maps; a map is a list of bindings here, the newest first, read by `VMap.find`.
-/

namespace SMT.AtomMaps
open SMT Term

/-- `cnf_atom_map`, `cnf_bool_var_map` (`include/parser.h:176-179`) and the number of the next temporary variable -/
structure Maps where
  n : Nat
  atomOf : VMap
  varOf : VMap

/-- one round of the loop over the atoms (`src/conv_parser.cpp:841-857`, `920-936`) -/
def record (c : Cfg) (m : Maps) (a : Term) : Maps :=
  let x := tempVar m.n
  ⟨m.n + 1, (mkNot c x, mkNot c a) :: (x, a) :: m.atomOf, (mkNot c a, mkNot c x) :: (a, x) :: m.varOf⟩

/-- the loop, over the atoms of any number of conversions (the single-expression conversion keeps the tables, lines 890-974; the
conversion of a list starts with empty ones, lines 798-800) -/
def recordAll (c : Cfg) (as : List Term) (m : Maps) : Maps := as.foldl (record c) m

/-- `getCNFAtom`, `getTExplanation` (`src/conv_parser.cpp:94-105`); `none` is the null node -/
def getCNFAtom (m : Maps) (e : Term) : Option Term := m.atomOf.find e
/-- `isTAbstraction` (`src/conv_parser.cpp:106-111`) -/
def isTAbstraction (m : Maps) (e : Term) : Bool := (m.atomOf.find e).isSome
/-- `getCNFBoolVar` (`src/conv_parser.cpp:134-139`) -/
def getCNFBoolVar (m : Maps) (a : Term) : Option Term := m.varOf.find a

/-- `DAGNode::isNot` -/
def isNot : Term → Bool
  | .app .not _ _ => true
  | _ => false

/-- The loop of `getCNFAtoms` (`src/conv_parser.cpp:112-133`) over the table in some iteration order, each entry an atom and its
variable; `v` is the visited set. -/
def atomsLoop (c : Cfg) : List (Term × Term) → List Term → List Term
  | [], _ => []
  | (a, x) :: l, v =>
    if x ∈ v then atomsLoop c l v
    else if mkNot c x ∈ v then atomsLoop c l v
    else if isNot x then atomsLoop c l (v ++ [x])
    else a :: atomsLoop c l (v ++ [x])

/-- The loop of `getCNFBoolVars` (`src/conv_parser.cpp:140-156`): the same over the other table, keyed by the variable. -/
def varsLoop (c : Cfg) : List (Term × Term) → List Term → List Term
  | [], _ => []
  | (x, _) :: l, v =>
    if x ∈ v then varsLoop c l v
    else if mkNot c x ∈ v then varsLoop c l v
    else if isNot x then varsLoop c l (v ++ [x])
    else x :: varsLoop c l (v ++ [x])

/-- `l` lists a table in some iteration order: every key once, with its value -/
structure Order (m : VMap) (l : List (Term × Term)) : Prop where
  nodup : (l.map Prod.fst).Nodup
  exact : ∀ k v, (k, v) ∈ l ↔ m.find k = some v

/-! ## Properties -/

/-- the negated temporary -/
def notTemp (i : Nat) : Term := .app .not .bool [tempVar i]

theorem mkNot_notTemp (c : Cfg) (i : Nat) : mkNot c (notTemp i) = tempVar i := by
  rw [mkNot.eq_def]
  simp [notTemp, Term.sort]

theorem temp_inj {i j : Nat} (h : tempVar i = tempVar j) : i = j := by
  simp only [tempVar, Term.var.injEq, true_and] at h
  exact tempName_inj h

theorem notTemp_inj {i j : Nat} (h : notTemp i = notTemp j) : i = j := by
  simp only [notTemp, Term.app.injEq, true_and, List.cons.injEq, and_true] at h
  exact temp_inj h

theorem temp_ne_notTemp (i j : Nat) : tempVar i ≠ notTemp j := by simp [tempVar, notTemp]

theorem recordAll_atomOf (c : Cfg) : ∀ (as : List Term) (m : Maps) (e : Term),
    (∀ i, m.n ≤ i → e ≠ tempVar i ∧ e ≠ notTemp i) → (recordAll c as m).atomOf.find e = m.atomOf.find e := by
  intro as
  induction as with
  | nil => intro m e _; rfl
  | cons a as ih =>
    intro m e h
    have h0 := h m.n (Nat.le_refl _)
    rw [recordAll, List.foldl_cons, ← recordAll, ih _ e (fun i hi => h i (by simp only [record] at hi; omega))]
    simp only [record, mkNot_temp, VMap.find]
    rw [if_neg (fun h => h0.2 h.symm), if_neg (fun h => h0.1 h.symm)]

/-- **C61.**  After any sequence of conversions, the table of explanations gives for the `i`-th variable the `i`-th atom, for its
negation the negated atom, and knows no other expression. -/
theorem getCNFAtom_exact (c : Cfg) (n : Nat) (as : List Term) (e : Term) :
    getCNFAtom (recordAll c as ⟨n, [], []⟩) e =
      match (List.range as.length).find? (fun i => decide (e = tempVar (n + i) ∨ e = notTemp (n + i))) with
      | none => none
      | some i => if e = tempVar (n + i) then as[i]? else (as[i]?).map (mkNot c) := by
  have key : ∀ (as : List Term) (m : Maps) (i : Nat), i < as.length →
      (recordAll c as m).atomOf.find (tempVar (m.n + i)) = as[i]? ∧
      (recordAll c as m).atomOf.find (notTemp (m.n + i)) = (as[i]?).map (mkNot c) := by
    intro as
    induction as with
    | nil => intro m i h; simp at h
    | cons a as ih =>
      intro m i h
      rw [recordAll, List.foldl_cons, ← recordAll]
      cases i with
      | zero =>
        constructor
        · rw [recordAll_atomOf c as _ _ (fun j hj => ⟨fun hh => ?_, temp_ne_notTemp _ _⟩)]
          · simp only [record, mkNot_temp, VMap.find, Nat.add_zero]
            rw [if_neg (fun hh => temp_ne_notTemp _ _ hh.symm)]
            simp
          · have := temp_inj hh; simp only [record] at hj; omega
        · rw [recordAll_atomOf c as _ _ (fun j hj => ⟨fun hh => temp_ne_notTemp _ _ hh.symm, fun hh => ?_⟩)]
          · simp only [record, mkNot_temp, VMap.find, Nat.add_zero]
            rw [if_pos (show Term.app .not .bool [tempVar m.n] = notTemp m.n from rfl)]; simp
          · have := notTemp_inj hh; simp only [record] at hj; omega
      | succ i =>
        have := ih (record c m a) i (by simpa using h)
        rw [show (record c m a).n + i = m.n + (i + 1) by simp only [record]; omega] at this
        simpa using this
  unfold getCNFAtom
  split
  · rename_i hn
    rw [List.find?_eq_none] at hn
    -- an unknown expression
    have : ∀ (as : List Term) (m : Maps), m.atomOf.find e = none →
        (∀ i < as.length, e ≠ tempVar (m.n + i) ∧ e ≠ notTemp (m.n + i)) → (recordAll c as m).atomOf.find e = none := by
      intro as
      induction as with
      | nil => intro m h _; exact h
      | cons a as ih =>
        intro m h h'
        rw [recordAll, List.foldl_cons, ← recordAll]
        refine ih _ ?_ ?_
        · have h0 := h' 0 (by simp)
          simp only [record, mkNot_temp, VMap.find]
          rw [if_neg (fun h => h0.2 h.symm), if_neg (fun h => h0.1 h.symm)]
          exact h
        · intro i hi
          have := h' (i + 1) (by simpa using hi)
          simp only [record]
          rw [show m.n + 1 + i = m.n + (i + 1) by omega]
          exact this
    refine this as _ rfl fun i hi => ?_
    have := hn i (List.mem_range.2 hi)
    simpa [not_or] using this
  · rename_i i hi
    have hm := List.mem_of_find?_eq_some hi
    have hp := List.find?_some hi
    rw [List.mem_range] at hm
    have hk := key as ⟨n, [], []⟩ i hm
    rw [decide_eq_true_eq] at hp
    rcases hp with rfl | rfl
    · rw [if_pos rfl]; exact hk.1
    · rw [if_neg (fun h => temp_ne_notTemp _ _ h.symm)]; exact hk.2

/-- **C61.**  An expression is reported as standing for theory content exactly if it is one of the variables introduced, or the
negation of one. -/
theorem isTAbstraction_exact (c : Cfg) (n : Nat) (as : List Term) (e : Term) :
    isTAbstraction (recordAll c as ⟨n, [], []⟩) e = true ↔
      ∃ i < as.length, e = tempVar (n + i) ∨ e = notTemp (n + i) := by
  have h := getCNFAtom_exact c n as e
  unfold getCNFAtom at h
  unfold isTAbstraction
  rw [h]
  split
  · rename_i hn
    rw [List.find?_eq_none] at hn
    simp only [Option.isSome_none, Bool.false_eq_true, false_iff]
    rintro ⟨i, hi, he⟩
    exact hn i (List.mem_range.2 hi) (by simpa using he)
  · rename_i i hi
    have hm := List.mem_of_find?_eq_some hi
    have hp := List.find?_some hi
    rw [List.mem_range] at hm
    rw [decide_eq_true_eq] at hp
    refine ⟨fun _ => ⟨i, hm, hp⟩, fun _ => ?_⟩
    split
    · simp [List.getElem?_eq_getElem hm]
    · simp [List.getElem?_eq_getElem hm]

/-- the invariant behind the round trip -/
theorem recordAll_round (c : Cfg) : ∀ (as : List Term) (m : Maps),
    (∀ k v, m.varOf.find k = some v → m.atomOf.find v = some k ∧ ∃ i < m.n, v = tempVar i ∨ v = notTemp i) →
    ∀ k v, (recordAll c as m).varOf.find k = some v →
      (recordAll c as m).atomOf.find v = some k ∧ ∃ i < (recordAll c as m).n, v = tempVar i ∨ v = notTemp i := by
  intro as
  induction as with
  | nil => intro m h; exact h
  | cons a as ih =>
    intro m h
    rw [recordAll, List.foldl_cons, ← recordAll]
    refine ih _ ?_
    intro k v hk
    simp only [record, mkNot_temp, VMap.find] at hk ⊢
    have ne := temp_ne_notTemp m.n m.n
    unfold notTemp at ne
    split at hk
    · rename_i e
      cases hk
      exact ⟨by rw [if_pos rfl, e], m.n, by omega, .inr rfl⟩
    · split at hk
      · rename_i e
        cases hk
        rw [if_neg (fun hh => ne hh.symm), if_pos rfl]
        exact ⟨by rw [e], m.n, by omega, .inl rfl⟩
      · obtain ⟨h1, i, hi, h2⟩ := h k v hk
        have n1 : ¬ (Term.app .not .bool [tempVar m.n] = v) := by
          rintro rfl
          rcases h2 with h2 | h2
          · exact temp_ne_notTemp _ _ h2.symm
          · have := notTemp_inj (i := m.n) h2; omega
        have n2 : ¬ (tempVar m.n = v) := by
          rintro rfl
          rcases h2 with h2 | h2
          · have := temp_inj h2; omega
          · exact temp_ne_notTemp _ _ h2
        rw [if_neg n1, if_neg n2]
        exact ⟨h1, i, by omega, h2⟩

/-- **C61.**  The variable reported for an atom is explained by that very atom, after any sequence of conversions. -/
theorem boolVar_atom_round (c : Cfg) (n : Nat) (as : List Term) (a v : Term)
    (h : getCNFBoolVar (recordAll c as ⟨n, [], []⟩) a = some v) : getCNFAtom (recordAll c as ⟨n, [], []⟩) v = some a :=
  (recordAll_round c as ⟨n, [], []⟩ (by intro k v h; simp [VMap.find] at h) a v h).1

theorem record_isSome (c : Cfg) : ∀ (as : List Term) (m : Maps) (a : Term), a ∈ as ∨ (m.varOf.find a).isSome = true →
    ((recordAll c as m).varOf.find a).isSome = true := by
  intro as
  induction as with
  | nil => intro m a h; simpa [recordAll] using h
  | cons b as ih =>
    intro m a h
    rw [recordAll, List.foldl_cons, ← recordAll]
    by_cases ha : a ∈ as
    · exact ih _ a (.inl ha)
    · refine ih _ a (.inr ?_)
      simp only [record, VMap.find]
      split
      · rfl
      · split
        · rfl
        · rename_i h2
          rcases h with h | h
          · rcases List.mem_cons.mp h with rfl | h
            · exact absurd rfl h2
            · exact absurd h ha
          · exact h

/-- **C61.**  Every converted atom has a variable. -/
theorem boolVar_total (c : Cfg) (n : Nat) (as : List Term) (a : Term) (h : a ∈ as) :
    ∃ v, getCNFBoolVar (recordAll c as ⟨n, [], []⟩) a = some v ∧ getCNFAtom (recordAll c as ⟨n, [], []⟩) v = some a := by
  have := record_isSome c as ⟨n, [], []⟩ a (.inl h)
  obtain ⟨v, hv⟩ := Option.isSome_iff_exists.1 this
  exact ⟨v, hv, boolVar_atom_round c n as a v hv⟩

/-- **C61 (part).**  Whatever the iteration order, every atom that is listed has a variable that is not a negation.
Missing: every atom is listed, see `getCNFAtoms_violated`. -/
theorem getCNFAtoms_sound_partial (c : Cfg) (m : VMap) (l : List (Term × Term)) (ho : Order m l) (a : Term)
    (h : a ∈ atomsLoop c l []) : ∃ x, m.find a = some x ∧ isNot x = false := by
  have : ∀ (l : List (Term × Term)) (v : List Term), a ∈ atomsLoop c l v → ∃ x, (a, x) ∈ l ∧ isNot x = false := by
    intro l
    induction l with
    | nil => intro v h; simp [atomsLoop] at h
    | cons p l ih =>
      intro v h
      obtain ⟨b, x⟩ := p
      simp only [atomsLoop] at h
      split at h
      · obtain ⟨x, h1, h2⟩ := ih _ h; exact ⟨x, List.mem_cons_of_mem _ h1, h2⟩
      · split at h
        · obtain ⟨x, h1, h2⟩ := ih _ h; exact ⟨x, List.mem_cons_of_mem _ h1, h2⟩
        · split at h
          · obtain ⟨x, h1, h2⟩ := ih _ h; exact ⟨x, List.mem_cons_of_mem _ h1, h2⟩
          · rename_i hx
            rcases List.mem_cons.mp h with rfl | h
            · exact ⟨x, List.mem_cons_self, by simpa using hx⟩
            · obtain ⟨x, h1, h2⟩ := ih _ h; exact ⟨x, List.mem_cons_of_mem _ h1, h2⟩
  obtain ⟨x, h1, h2⟩ := this l [] h
  exact ⟨x, (ho.exact a x).1 h1, h2⟩

/-- the visited set after a part of the table -/
def visAfter (c : Cfg) : List (Term × Term) → List Term → List Term
  | [], v => v
  | (_, x) :: l, v => if x ∈ v then visAfter c l v else if mkNot c x ∈ v then visAfter c l v else visAfter c l (v ++ [x])

theorem atomsLoop_append (c : Cfg) : ∀ (l1 l2 : List (Term × Term)) (v : List Term),
    ∃ r, atomsLoop c (l1 ++ l2) v = r ++ atomsLoop c l2 (visAfter c l1 v) ∧ ∀ a ∈ r, a ∈ l1.map Prod.fst := by
  intro l1 l2
  induction l1 with
  | nil => intro v; exact ⟨[], rfl, by simp⟩
  | cons p l1 ih =>
    intro v
    obtain ⟨b, x⟩ := p
    simp only [List.cons_append, atomsLoop, visAfter]
    split
    · obtain ⟨r, h1, h2⟩ := ih v
      exact ⟨r, h1, fun a ha => List.mem_cons_of_mem _ (h2 a ha)⟩
    · split
      · obtain ⟨r, h1, h2⟩ := ih v
        exact ⟨r, h1, fun a ha => List.mem_cons_of_mem _ (h2 a ha)⟩
      · obtain ⟨r, h1, h2⟩ := ih (v ++ [x])
        split
        · exact ⟨r, h1, fun a ha => List.mem_cons_of_mem _ (h2 a ha)⟩
        · refine ⟨b :: r, by rw [h1]; rfl, fun a ha => ?_⟩
          rcases List.mem_cons.mp ha with rfl | ha
          · simp
          · exact List.mem_cons_of_mem _ (h2 a ha)

theorem visAfter_spec (c : Cfg) : ∀ (l : List (Term × Term)) (v : List Term),
    (∀ x ∈ v, x ∈ visAfter c l v) ∧ (∀ x ∈ visAfter c l v, x ∈ v ∨ x ∈ l.map Prod.snd) ∧
    (∀ x ∈ l.map Prod.snd, x ∈ visAfter c l v ∨ mkNot c x ∈ visAfter c l v) := by
  intro l
  induction l with
  | nil => intro v; exact ⟨fun x h => h, fun x h => .inl h, by simp⟩
  | cons p l ih =>
    intro v
    obtain ⟨b, x⟩ := p
    simp only [visAfter]
    split
    · rename_i hx
      obtain ⟨h1, h2, h3⟩ := ih v
      refine ⟨h1, fun y hy => (h2 y hy).imp id (List.mem_cons_of_mem _), fun y hy => ?_⟩
      rcases List.mem_cons.mp hy with rfl | hy
      · exact .inl (h1 _ hx)
      · exact h3 y hy
    · split
      · rename_i hx
        obtain ⟨h1, h2, h3⟩ := ih v
        refine ⟨h1, fun y hy => (h2 y hy).imp id (List.mem_cons_of_mem _), fun y hy => ?_⟩
        rcases List.mem_cons.mp hy with rfl | hy
        · exact .inr (h1 _ hx)
        · exact h3 y hy
      · obtain ⟨h1, h2, h3⟩ := ih (v ++ [x])
        refine ⟨fun y hy => h1 y (by simp [hy]), fun y hy => ?_, fun y hy => ?_⟩
        · rcases h2 y hy with h | h
          · rcases List.mem_append.mp h with h | h
            · exact .inl h
            · exact .inr (by simp [List.mem_singleton.mp h])
          · exact .inr (List.mem_cons_of_mem _ h)
        · rcases List.mem_cons.mp hy with rfl | hy
          · exact .inl (h1 _ (by simp))
          · exact h3 y hy

/-- **C61.**  After any sequence of conversions and in any iteration order of the table: an atom whose variable is the temporary `i`
is listed exactly if the entry of the negated temporary does not come before its own. -/
theorem getCNFAtoms_exact (c : Cfg) (n : Nat) (as : List Term) (l1 l2 : List (Term × Term)) (a : Term) (i : Nat)
    (ho : Order (recordAll c as ⟨n, [], []⟩).varOf (l1 ++ (a, tempVar i) :: l2)) :
    a ∈ atomsLoop c (l1 ++ (a, tempVar i) :: l2) [] ↔ ∀ b, (b, notTemp i) ∉ l1 := by
  have hnd : a ∉ l1.map Prod.fst ∧ a ∉ l2.map Prod.fst := by
    have := ho.nodup
    rw [List.map_append, List.map_cons, List.nodup_append] at this
    obtain ⟨h1, h2, h3⟩ := this
    exact ⟨fun h => h3 a h a List.mem_cons_self rfl, (List.nodup_cons.1 h2).1⟩
  have hinj : ∀ b, (b, tempVar i) ∉ l1 := by
    intro b hb
    have e1 := boolVar_atom_round c n as b _ ((ho.exact b (tempVar i)).1 (List.mem_append_left _ hb))
    have e2 := boolVar_atom_round c n as a _ ((ho.exact a (tempVar i)).1 (by simp))
    rw [e1] at e2
    cases e2
    exact hnd.1 (List.mem_map.2 ⟨_, hb, rfl⟩)
  obtain ⟨r, h1, h2⟩ := atomsLoop_append c l1 ((a, tempVar i) :: l2) []
  obtain ⟨_, v2, v3⟩ := visAfter_spec c l1 []
  rw [h1]
  have hr : a ∉ r := fun h => hnd.1 (h2 a h)
  have ht : tempVar i ∉ visAfter c l1 [] := by
    intro h
    rcases v2 _ h with h | h
    · simp at h
    · obtain ⟨p, hp, hp2⟩ := List.mem_map.1 h
      exact hinj p.1 (by rw [← hp2]; exact hp)
  have hkey : ∀ (l : List (Term × Term)) (v : List Term), a ∉ l.map Prod.fst → a ∉ atomsLoop c l v := by
    intro l v hl h
    obtain ⟨r', g1, g2⟩ := atomsLoop_append c l [] v
    rw [List.append_nil] at g1
    rw [g1] at h
    rcases List.mem_append.mp h with h | h
    · exact hl (g2 a h)
    · simp [atomsLoop] at h
  constructor
  · intro h b hb
    rcases List.mem_append.mp h with h | h
    · exact hr h
    · have hv : notTemp i ∈ visAfter c l1 [] := by
        rcases v3 (notTemp i) (List.mem_map.2 ⟨_, hb, rfl⟩) with h | h
        · exact h
        · rw [mkNot_notTemp] at h; exact absurd h ht
      simp only [atomsLoop] at h
      rw [if_neg ht, if_pos (by rw [mkNot_temp]; exact hv)] at h
      exact hkey l2 _ hnd.2 h
  · intro h
    refine List.mem_append_right _ ?_
    have hv : notTemp i ∉ visAfter c l1 [] := by
      intro hh
      rcases v2 _ hh with h' | h'
      · simp at h'
      · obtain ⟨p, hp, hp2⟩ := List.mem_map.1 h'
        exact h p.1 (by rw [← hp2]; exact hp)
    simp only [atomsLoop]
    rw [if_neg ht, if_neg (by rw [mkNot_temp]; exact hv), if_neg (by simp [tempVar, isNot])]
    simp

/-- the entries of an atom and of its negation, positive first -/
def goodPair (c : Cfg) (i : Nat) (a : Term) : List (Term × Term) := [(a, tempVar i), (mkNot c a, notTemp i)]
/-- the entries of an atom and of its negation, negative first -/
def badPair (c : Cfg) (i : Nat) (a : Term) : List (Term × Term) := [(mkNot c a, notTemp i), (a, tempVar i)]

theorem find_two {k1 k2 v1 v2 : Term} (hk : k1 ≠ k2) (k v : Term) :
    (k, v) ∈ [(k1, v1), (k2, v2)] ↔ VMap.find [(k1, v1), (k2, v2)] k = some v := by
  simp only [VMap.find, List.mem_cons, Prod.mk.injEq, List.not_mem_nil, or_false]
  by_cases h1 : k1 = k
  · subst h1; simp [hk, eq_comm]
  · by_cases h2 : k2 = k
    · subst h2; simp [h1, eq_comm]
    · simp [h1, h2]
      exact ⟨fun h => absurd h.symm h1, fun h => absurd h.symm h2⟩

/-- **C61 (violated).**  Whether the single atom of a problem is listed depends on the iteration order of the hash map: in one order
the list has the atom, in the other it is empty, for every atom that differs from its negation. -/
theorem getCNFAtoms_violated (c : Cfg) (n : Nat) (a : Term) (ha : mkNot c a ≠ a) :
    Order (recordAll c [a] ⟨n, [], []⟩).varOf (goodPair c n a) ∧ Order (recordAll c [a] ⟨n, [], []⟩).varOf (badPair c n a) ∧
    atomsLoop c (goodPair c n a) [] = [a] ∧ atomsLoop c (badPair c n a) [] = [] := by
  have e : (recordAll c [a] ⟨n, [], []⟩).varOf = badPair c n a := by
    simp [recordAll, record, badPair, mkNot_temp, notTemp]
  have f := find_two (v1 := notTemp n) (v2 := tempVar n) ha
  refine ⟨⟨?_, ?_⟩, ⟨?_, ?_⟩, ?_, ?_⟩
  · simp [goodPair]; exact ha.symm
  · intro k v
    rw [e, badPair, ← f k v, goodPair]
    simp only [List.mem_cons, List.not_mem_nil, or_false, Prod.mk.injEq]
    exact ⟨fun h => h.symm, fun h => h.symm⟩
  · simp [badPair]; exact ha
  · intro k v; rw [e]; exact f k v
  · simp [goodPair, atomsLoop, isNot, tempVar, notTemp, mkNot_notTemp]
  · have e2 := mkNot_temp c n
    simp only [badPair, atomsLoop, isNot, notTemp, List.not_mem_nil, if_false, e2]
    simp

/-- **C61 (violated).**  The same for the list of variables: it is empty in one iteration order of the table of one atom. -/
theorem getCNFBoolVars_violated (c : Cfg) (n : Nat) (a : Term) :
    Order (recordAll c [a] ⟨n, [], []⟩).atomOf [(tempVar n, a), (notTemp n, mkNot c a)] ∧
    Order (recordAll c [a] ⟨n, [], []⟩).atomOf [(notTemp n, mkNot c a), (tempVar n, a)] ∧
    varsLoop c [(tempVar n, a), (notTemp n, mkNot c a)] [] = [tempVar n] ∧
    varsLoop c [(notTemp n, mkNot c a), (tempVar n, a)] [] = [] := by
  have ha : notTemp n ≠ tempVar n := fun h => temp_ne_notTemp _ _ h.symm
  have e : (recordAll c [a] ⟨n, [], []⟩).atomOf = [(notTemp n, mkNot c a), (tempVar n, a)] := by
    simp [recordAll, record, mkNot_temp, notTemp]
  have f := find_two (v1 := mkNot c a) (v2 := a) ha
  have e2 := mkNot_temp c n
  refine ⟨⟨?_, ?_⟩, ⟨?_, ?_⟩, ?_, ?_⟩
  · simp; exact ha.symm
  · intro k v
    rw [e, ← f k v]
    simp only [List.mem_cons, List.not_mem_nil, or_false, Prod.mk.injEq]
    exact ⟨fun h => h.symm, fun h => h.symm⟩
  · simp; exact ha
  · intro k v; rw [e]; exact f k v
  · simp [varsLoop, isNot, tempVar, notTemp]
  · simp only [varsLoop, isNot, notTemp, List.not_mem_nil, if_false, e2]
    simp

/-- **C61 (violated).**  An atom that is recorded again, in a later conversion, or as the negation of another atom, gets a new
variable; the old one is still explained by the atom, but the atom no longer leads to it, for every atom. -/
theorem boolVar_again_violated (c : Cfg) (n : Nat) (a : Term) (ha : mkNot c a ≠ a) :
    getCNFAtom (recordAll c [a, a] ⟨n, [], []⟩) (tempVar n) = some a ∧
    getCNFBoolVar (recordAll c [a, a] ⟨n, [], []⟩) a = some (tempVar (n + 1)) ∧ tempVar n ≠ tempVar (n + 1) := by
  have n1 : tempVar n ≠ tempVar (n + 1) := fun h => by have := temp_inj h; omega
  refine ⟨?_, ?_, n1⟩
  · have := getCNFAtom_exact c n [a, a] (tempVar n)
    rw [this]
    simp [List.range_succ, List.find?_cons, n1]
  · simp [getCNFBoolVar, recordAll, record, VMap.find, ha]

/-- two uninterpreted predicates of an integer -/
def exAtom (i : Nat) : Term := .app (.uf i) .bool [iv "x"]

/-- The hypotheses are met: an atom that differs from its negation, and the tables of two atoms. -/
example : mkNot c0 (exAtom 0) ≠ exAtom 0 ∧
    getCNFBoolVar (recordAll c0 [exAtom 0, exAtom 1] ⟨3, [], []⟩) (exAtom 1) = some (tempVar 4) ∧
    isTAbstraction (recordAll c0 [exAtom 0, exAtom 1] ⟨3, [], []⟩) (notTemp 3) = true := by
  refine ⟨?_, ?_, ?_⟩
  · simp [exAtom, mkNot, Term.sort, mkOper, simp, simp1, Term.isTrue, Term.isFalse, isUnknown, isComm, iv]
  · simp [exAtom, getCNFBoolVar, recordAll, record, VMap.find, mkNot, Term.sort, mkOper, simp, simp1, Term.isTrue, Term.isFalse,
      isUnknown, isComm, iv]
  · exact (isTAbstraction_exact _ _ _ _).2 ⟨0, by simp, .inr rfl⟩

end SMT.AtomMaps
