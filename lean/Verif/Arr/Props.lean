import Verif.Arr.Model

/-!
# Array simplification (C26): specification and theorems
-/

namespace SMT.Arr

set_option linter.unusedSectionVars false
set_option linter.unusedSimpArgs false

variable {I V B : Type} [DecidableEq I] [DecidableEq V] [DecidableEq B]

/-! ## Specification -/

/-- An assignment: the values of the index nodes, element nodes and array nodes, over any domains. -/
structure Sem (I V B : Type) (D E : Type) where
  i : I → D
  v : V → E
  b : B → D → E

/-- value of an array node -/
def den {D E : Type} [DecidableEq D] (m : Sem I V B D E) : A I V B → D → E
  | .base b => m.b b
  | .const v => fun _ => m.v v
  | .store a i v => fun d => if d = m.i i then m.v v else den m a d

/-- value of the result of `select` -/
def denS {D E : Type} [DecidableEq D] (m : Sem I V B D E) : Sel I V B → E
  | .val v => m.v v
  | .sel a i => den m a (m.i i)

/-- the index nodes of a chain of stores -/
def indices : A I V B → List I
  | .store a i _ => i :: indices a
  | _ => []

/-- the element nodes of a chain of stores -/
def values : A I V B → List V
  | .store a _ v => v :: values a
  | .const v => [v]
  | .base _ => []

/-- different index nodes in the list have different values, as literals have under every assignment -/
def Apart {D E : Type} (m : Sem I V B D E) (l : List I) : Prop := ∀ x ∈ l, ∀ y ∈ l, x ≠ y → m.i x ≠ m.i y

/-! ## Select -/

section
variable {D E : Type} [DecidableEq D]

/-- **C26.**  A select over a chain of stores of any length keeps its value under every assignment that separates the index
from the different indices of the chain. -/
theorem select_sound_partial (m : Sem I V B D E) (a : A I V B) (j : I) (h : ∀ i ∈ indices a, i ≠ j → m.i i ≠ m.i j) :
    denS m (mkSelect a j) = den m a (m.i j) := by
  have key : ∀ a : A I V B, (∀ i ∈ indices a, i ≠ j → m.i i ≠ m.i j) → denS m (scan j a) = den m a (m.i j) := by
    intro a
    induction a with
    | base b => intro _; rfl
    | const v => intro _; rfl
    | store a i v ih =>
      intro h
      simp only [scan, den]
      by_cases e : j = i
      · subst e; simp [denS]
      · rw [if_neg e, if_neg (fun q => h i List.mem_cons_self (fun q => e q.symm) q.symm)]
        exact ih fun x hx => h x (List.mem_cons_of_mem _ hx)
  cases a with
  | base b => rfl
  | const v => rfl
  | store a i v => exact key _ h

/-- **C26.**  If the newest store has the index of the select, the value is kept under every assignment. -/
theorem select_newest_exact (m : Sem I V B D E) (a : A I V B) (i : I) (v : V) :
    denS m (mkSelect (.store a i v) i) = den m (.store a i v) (m.i i) := by
  simp [mkSelect, scan, denS, den]

/-- **C26, violated.**  A store to a different index node is skipped, so the value changes under every assignment that gives the
two nodes the same value, unless the array already held the stored value there. -/
theorem select_violated (m : Sem I V B D E) (b : B) (i j : I) (v : V) (hne : i ≠ j) (he : m.i i = m.i j)
    (hv : m.b b (m.i j) ≠ m.v v) :
    denS m (mkSelect (.store (.base b) i v) j) ≠ den m (.store (.base b) i v) (m.i j) := by
  simp only [mkSelect, scan, if_neg (fun q : j = i => hne q.symm), denS, den, he, if_true]
  exact hv

/-! ## Store -/

theorem den_at (m : Sem I V B D E) (a : A I V B) (ha : Apart m (indices a)) (i : I) (hi : i ∈ indices a) :
    ∃ v, (collect a).lookup i = some v ∧ den m a (m.i i) = m.v v := by
  induction a with
  | base b => cases hi
  | const v => cases hi
  | store a j v ih =>
    simp only [collect, den, List.lookup_cons]
    by_cases e : i = j
    · subst e; exact ⟨v, by simp, by simp⟩
    · have h1 : m.i i ≠ m.i j := ha i hi j List.mem_cons_self e
      have hb : (i == j) = false := by simp [e]
      rw [if_neg h1, hb]
      exact ih (fun x hx y hy => ha x (List.mem_cons_of_mem _ hx) y (List.mem_cons_of_mem _ hy))
        ((List.mem_cons.mp hi).resolve_left e)

/-- value of the root -/
def denR (m : Sem I V B D E) : Root V B → D → E
  | .base b => m.b b
  | .const v => fun _ => m.v v

theorem den_root (m : Sem I V B D E) (a : A I V B) (d : D) (h : ∀ i ∈ indices a, m.i i ≠ d) : den m a d = denR m (root a) d := by
  induction a with
  | base b => rfl
  | const v => rfl
  | store a j v ih =>
    simp only [den, root]
    rw [if_neg (fun q => h j List.mem_cons_self q.symm)]
    exact ih fun x hx => h x (List.mem_cons_of_mem _ hx)

theorem collect_keys (a : A I V B) : (collect a).map Prod.fst = indices a := by
  induction a with
  | base b => rfl
  | const v => rfl
  | store a j v ih => simp [collect, indices, ih]

theorem lookup_mem {l : List (I × V)} {i : I} : i ∈ l.map Prod.fst ↔ (l.lookup i).isSome = true := by
  induction l with
  | nil => simp
  | cons p l ih =>
    rw [List.lookup_cons]
    by_cases e : i = p.1
    · subst e; simp
    · have hb : (i == p.1) = false := by simp [e]
      rw [hb]
      simp only [List.map_cons, List.mem_cons, e, false_or]
      exact ih

theorem lookup_none {l : List (I × V)} {i : I} (h : i ∉ l.map Prod.fst) : l.lookup i = none := by
  rw [lookup_mem] at h
  cases hq : l.lookup i with
  | none => rfl
  | some v => rw [hq] at h; exact absurd rfl h

/-- two arrays with the same root and the same newest writes have the same value -/
theorem den_eq (m : Sem I V B D E) (a b : A I V B) (ha : Apart m (indices a)) (hr : root a = root b)
    (hl : ∀ i, (collect a).lookup i = (collect b).lookup i) : den m a = den m b := by
  have hmem : ∀ i, i ∈ indices a ↔ i ∈ indices b := by
    intro i
    rw [← collect_keys, ← collect_keys, lookup_mem, lookup_mem, hl]
  have hb : Apart m (indices b) := fun x hx y hy => ha x ((hmem x).mpr hx) y ((hmem y).mpr hy)
  funext d
  by_cases h : ∃ i ∈ indices a, m.i i = d
  · obtain ⟨i, hi, rfl⟩ := h
    obtain ⟨v, h1, h2⟩ := den_at m a ha i hi
    obtain ⟨w, h3, h4⟩ := den_at m b hb i ((hmem i).mp hi)
    rw [hl, h3] at h1
    cases h1
    rw [h2, h4]
  · have h1 : ∀ i ∈ indices a, m.i i ≠ d := fun i hi q => h ⟨i, hi, q⟩
    rw [den_root m a d h1, den_root m b d fun i hi => h1 i ((hmem i).mpr hi), hr]

theorem put_lookup (m : List (I × V)) (i : I) (v : V) (j : I) :
    (put m i v).lookup j = if j = i then some v else m.lookup j := by
  induction m with
  | nil =>
    simp only [put, List.lookup_cons]
    by_cases e : j = i
    · simp [e]
    · have hb : (j == i) = false := by simp [e]
      simp [hb, e]
  | cons p m ih =>
    unfold put
    by_cases e : p.1 = i
    · rw [if_pos e, List.lookup_cons, List.lookup_cons]
      by_cases q : j = i
      · subst q; simp
      · have h1 : (j == i) = false := by simp [q]
        have h2 : (j == p.1) = false := by rw [e]; exact h1
        simp only [h1, h2, if_neg q]
    · rw [if_neg e, List.lookup_cons, List.lookup_cons, ih]
      by_cases q : j = p.1
      · subst q; simp [e]
      · have h1 : (j == p.1) = false := by simp [q]
        simp only [h1]

theorem put_nodup (m : List (I × V)) (i : I) (v : V) (h : (m.map Prod.fst).Nodup) : ((put m i v).map Prod.fst).Nodup := by
  have hmem : ∀ (m : List (I × V)) x, x ∈ (put m i v).map Prod.fst → x = i ∨ x ∈ m.map Prod.fst := by
    intro m x hx
    rw [lookup_mem, put_lookup] at hx
    split at hx
    · rename_i e; exact .inl e
    · exact .inr (lookup_mem.mpr hx)
  induction m with
  | nil => simp [put]
  | cons p m ih =>
    simp only [List.map_cons, List.nodup_cons] at h
    unfold put
    by_cases e : p.1 = i
    · rw [if_pos e]
      simp only [List.map_cons, List.nodup_cons]
      exact ⟨e ▸ h.1, h.2⟩
    · rw [if_neg e]
      simp only [List.map_cons, List.nodup_cons]
      refine ⟨fun q => ?_, ih h.2⟩
      rcases hmem m p.1 q with q | q
      · exact e q
      · exact h.1 q

theorem foldl_put (l : List (I × V)) : ∀ (m : List (I × V)), (m.map Prod.fst).Nodup →
    ((l.foldl (fun m p => put m p.1 p.2) m).map Prod.fst).Nodup ∧
    ∀ j, (l.foldl (fun m p => put m p.1 p.2) m).lookup j = ((l.reverse).lookup j).or (m.lookup j) := by
  induction l with
  | nil => intro m h; simpa using h
  | cons p l ih =>
    intro m h
    obtain ⟨h1, h2⟩ := ih (put m p.1 p.2) (put_nodup m p.1 p.2 h)
    refine ⟨h1, fun j => ?_⟩
    rw [List.foldl_cons, h2, put_lookup, List.reverse_cons, List.lookup_append, List.lookup_cons]
    cases l.reverse.lookup j with
    | some v => rfl
    | none =>
      by_cases e : j = p.1
      · subst e; simp
      · have hb : (j == p.1) = false := by simp [e]
        simp [e, hb]

theorem build (ov : List (I × V)) (ks : List I) : ∀ (r : A I V B), ks.Nodup → (∀ k ∈ ks, (ov.lookup k).isSome = true) →
    (root (ks.foldl (writeBack ov) r) = root r) ∧
    ∀ j, (collect (ks.foldl (writeBack ov) r)).lookup j =
      if j ∈ ks then ov.lookup j else (collect r).lookup j := by
  induction ks with
  | nil => intro r _ _; simp
  | cons k ks ih =>
    intro r hn hs
    rw [List.nodup_cons] at hn
    have hk := hs k List.mem_cons_self
    cases hq : ov.lookup k with
    | none => rw [hq] at hk; cases hk
    | some v =>
      obtain ⟨h1, h2⟩ := ih (.store r k v) hn.2 fun x hx => hs x (List.mem_cons_of_mem _ hx)
      have hwb : writeBack ov r k = .store r k v := by simp [writeBack, hq]
      simp only [List.foldl_cons, hwb]
      refine ⟨by rw [h1]; rfl, fun j => ?_⟩
      rw [h2]
      by_cases e : j ∈ ks
      · simp [e]
      · rw [if_neg e]
        simp only [collect, List.lookup_cons]
        by_cases q : j = k
        · subst q; simp [hq]
        · have hb : (j == k) = false := by simp [q]
          simp [hb, q, e]

theorem normalize_spec (c : Cfg I V B) (a : A I V B) : root (normalize c a) = root a ∧
    ∀ j, (collect (normalize c a)).lookup j = (collect a).lookup j := by
  cases a with
  | base b => exact ⟨rfl, fun _ => rfl⟩
  | const v => exact ⟨rfl, fun _ => rfl⟩
  | store a i v =>
    obtain ⟨hn, hl⟩ := foldl_put (collect (A.store a i v)).reverse ([] : List (I × V)) List.nodup_nil
    simp only [normalize]
    generalize hov : List.foldl (fun m p => put m p.1 p.2) [] (collect (A.store a i v)).reverse = ov at hn hl ⊢
    have hl' : ∀ j, ov.lookup j = (collect (A.store a i v)).lookup j := by
      intro j; rw [hl, List.reverse_reverse]; simp
    have hp := c.permK (ov.map Prod.fst)
    obtain ⟨h1, h2⟩ := build ov (c.sortK (ov.map Prod.fst)) ((root (A.store a i v)).node : A I V B) (hp.nodup_iff.mpr hn)
      (fun k hk => lookup_mem.mp (hp.mem_iff.mp hk))
    have hr : ∀ r : Root V B, root (r.node : A I V B) = r := by intro r; cases r <;> rfl
    have hc : ∀ r : Root V B, collect (r.node : A I V B) = [] := by intro r; cases r <;> rfl
    refine ⟨by rw [h1, hr], fun j => ?_⟩
    rw [h2, hc, ← hl']
    split
    · rfl
    · rename_i hj
      rw [hp.mem_iff] at hj
      rw [lookup_none hj]; rfl

/-- **C26.**  Storing into a chain of any length keeps the value under every assignment that separates the different indices,
whatever the order of the addresses. -/
theorem store_sound_partial (c : Cfg I V B) (m : Sem I V B D E) (a : A I V B) (i : I) (v : V) (h : Apart m (i :: indices a)) :
    den m (mkStore c a i v) = den m (.store a i v) := by
  obtain ⟨h1, h2⟩ := normalize_spec c (.store a i v)
  exact (den_eq m (.store a i v) _ h h1.symm fun j => (h2 j).symm).symm

/-- **C26.**  In the normalised chain every index occurs once. -/
theorem store_nodup (c : Cfg I V B) (a : A I V B) (i : I) (v : V) : (indices (mkStore c a i v)).Nodup := by
  obtain ⟨hn, _⟩ := foldl_put (collect (A.store a i v)).reverse ([] : List (I × V)) List.nodup_nil
  unfold mkStore
  simp only [normalize]
  generalize List.foldl (fun m p => put m p.1 p.2) [] (collect (A.store a i v)).reverse = ov at hn ⊢
  have hp := c.permK (ov.map Prod.fst)
  have hk := hp.nodup_iff.mpr hn
  generalize c.sortK (ov.map Prod.fst) = ks at hk
  have key : ∀ (ks : List I) (r : A I V B), ks.Nodup → (∀ k ∈ ks, k ∉ indices r) → (indices r).Nodup →
      (indices (ks.foldl (writeBack ov) r)).Nodup := by
    intro ks
    induction ks with
    | nil => intro r _ _ h; exact h
    | cons k ks ih =>
      intro r h1 h2 h3
      rw [List.nodup_cons] at h1
      rw [List.foldl_cons]
      unfold writeBack
      cases ov.lookup k with
      | none => exact ih r h1.2 (fun x hx => h2 x (List.mem_cons_of_mem _ hx)) h3
      | some v =>
        refine ih _ h1.2 (fun x hx => ?_) ?_
        · simp only [indices, List.mem_cons, not_or]
          exact ⟨fun q => h1.1 (q ▸ hx), h2 x (List.mem_cons_of_mem _ hx)⟩
        · simp only [indices, List.nodup_cons]
          exact ⟨h2 k List.mem_cons_self, h3⟩
  have hi : ∀ r : Root V B, indices (r.node : A I V B) = [] := by intro r; cases r <;> rfl
  exact key ks _ hk (by intro k _; rw [hi]; simp) (by rw [hi]; exact List.nodup_nil)

theorem perm_pair {a b : I} {l : List I} (h : l.Perm [a, b]) : l = [a, b] ∨ l = [b, a] := by
  match l, h with
  | [], h => exact absurd h.length_eq (by simp)
  | [x], h => exact absurd h.length_eq (by simp)
  | [x, y], h =>
    have hx : x ∈ [a, b] := h.mem_iff.mp (by simp)
    rcases List.mem_cons.mp hx with rfl | hx
    · have := (List.perm_cons x).mp h
      rw [List.perm_singleton] at this
      left; rw [this]
    · have hx : x = b := by simpa using hx
      subst hx
      have := (List.perm_cons x).mp (h.trans (List.Perm.swap x a []))
      rw [List.perm_singleton] at this
      right; rw [this]
  | x :: y :: z :: l, h => exact absurd h.length_eq (by simp)

/-- **C26, violated.**  For any two different index nodes, whatever the order of their addresses is, there is a sequence of two
or three stores that changes the value of the array under every assignment giving the two nodes the same value. -/
theorem store_violated (c : Cfg I V B) (i j : I) (hne : i ≠ j) (b : B) (v w : V) :
    ∃ s : List (I × V), s.length ≤ 3 ∧ ∀ (m : Sem I V B D E), m.i i = m.i j → m.v v ≠ m.v w →
      den m (s.foldl (fun a p => mkStore c a p.1 p.2) (.base b)) ≠ den m (s.foldl (fun a p => .store a p.1 p.2) (.base b)) := by
  have hji : j ≠ i := fun q => hne q.symm
  have hone : ∀ (x : I) (u : V), mkStore c (.base b) x u = .store (.base b) x u := by
    intro x u
    have h := c.permK [x]
    rw [List.perm_singleton] at h
    simp [mkStore, normalize, writeBack, collect, put, root, Root.node, h]
  have htwo : ∀ (x y : I) (p q : V), x ≠ y → mkStore c (.store (.base b) x p) y q =
      if c.sortK [x, y] = [x, y] then .store (.store (.base b) x p) y q else .store (.store (.base b) y q) x p := by
    intro x y p q hxy
    have hyx : y ≠ x := fun h => hxy h.symm
    have hb : (y == x) = false := by simp [hyx]
    rcases perm_pair (c.permK [x, y]) with h | h
    · simp [mkStore, normalize, writeBack, collect, put, root, Root.node, h, hxy, hb, List.lookup_cons]
    · have hn : ¬ c.sortK [x, y] = [x, y] := by rw [h]; simp [hxy, hyx]
      rw [if_neg hn]
      simp [mkStore, normalize, writeBack, collect, put, root, Root.node, h, hxy, hb, List.lookup_cons]
  by_cases hk : c.sortK [i, j] = [i, j]
  · refine ⟨[(i, v), (j, v), (i, w)], by simp, fun m he hv hd => ?_⟩
    simp only [List.foldl_cons, List.foldl_nil, hone, htwo i j v v hne, if_pos hk] at hd
    have hb : (j == i) = false := by simp [hji]
    have : mkStore c (.store (.store (.base b) i v) j v) i w = .store (.store (.base b) i w) j v := by
      simp [mkStore, normalize, writeBack, collect, put, root, Root.node, hk, hne, hb, List.lookup_cons]
    rw [this] at hd
    have := congrFun hd (m.i i)
    simp only [den, he, if_true] at this
    exact hv this
  · refine ⟨[(i, v), (j, w)], by simp, fun m he hv hd => ?_⟩
    simp only [List.foldl_cons, List.foldl_nil, hone, htwo i j v w hne, if_neg hk] at hd
    have := congrFun hd (m.i i)
    simp only [den, he, if_true] at this
    exact hv this

/-! ## Equality -/

theorem lookup_filter_ne (l : List (I × V)) (k j : I) : (l.filter fun q => decide (q.1 ≠ k)).lookup j =
    if j = k then none else l.lookup j := by
  induction l with
  | nil => simp
  | cons p l ih =>
    obtain ⟨x, y⟩ := p
    rw [List.filter_cons]
    by_cases e : x = k
    · subst e
      simp only [ne_eq, not_true, decide_false, Bool.false_eq_true, if_false, List.lookup_cons]
      simp only [ne_eq] at ih
      rw [ih]
      by_cases q : j = x
      · simp [q]
      · have hb : (j == x) = false := by simp [q]
        simp [hb, q]
    · have hd : decide (x ≠ k) = true := by simp [e]
      simp only [hd, if_true, List.lookup_cons, ih]
      by_cases q : j = x
      · subst q; simp [e]
      · have hb : (j == x) = false := by simp [q]
        simp only [hb]

theorem lastWrites_lookup (l : List (I × V)) (j : I) : (lastWrites l).lookup j = l.lookup j := by
  induction l with
  | nil => rfl
  | cons p l ih =>
    rw [lastWrites, List.lookup_cons, List.lookup_cons, lookup_filter_ne, ih]
    by_cases q : j = p.1
    · simp [q]
    · have hb : (j == p.1) = false := by simp [q]
      simp [hb, q]

theorem lastWrites_nodup (l : List (I × V)) : ((lastWrites l).map Prod.fst).Nodup := by
  induction l with
  | nil => exact List.nodup_nil
  | cons p l ih =>
    rw [lastWrites, List.map_cons, List.nodup_cons]
    constructor
    · rw [lookup_mem, lookup_filter_ne]; simp
    · exact ih.sublist (List.filter_sublist.map _)

theorem lookup_of_mem {l : List (I × V)} (hn : (l.map Prod.fst).Nodup) {i : I} {v : V} : (i, v) ∈ l ↔ l.lookup i = some v := by
  induction l with
  | nil => simp
  | cons p l ih =>
    rw [List.map_cons, List.nodup_cons] at hn
    rw [List.lookup_cons]
    by_cases e : i = p.1
    · subst e
      simp only [List.mem_cons, BEq.rfl, Option.some.injEq]
      constructor
      · rintro (h | h)
        · rw [← h]
        · exact absurd (List.mem_map_of_mem (f := Prod.fst) h) hn.1
      · intro h; left; rw [← h]
    · have hb : (i == p.1) = false := by simp [e]
      simp only [hb, List.mem_cons]
      rw [← ih hn.2]
      constructor
      · rintro (h | h)
        · rw [← h] at e; exact absurd rfl e
        · exact h
      · exact .inr

theorem matchAll_subset {l : List (I × V)} : ∀ {l' : List (I × V)}, matchAll l l' = true → ∀ p ∈ l, p ∈ l' := by
  induction l with
  | nil => intro l' _ p hp; cases hp
  | cons q l ih =>
    intro l' h p hp
    unfold matchAll at h
    split at h
    · rename_i hq
      rcases List.mem_cons.mp hp with rfl | hp
      · exact hq
      · exact List.mem_of_mem_erase (ih h p hp)
    · cases h

theorem matchAll_perm {l : List (I × V)} : ∀ {l' : List (I × V)}, matchAll l l' = true → l.length = l'.length → l.Perm l' := by
  induction l with
  | nil => intro l' _ h; rw [List.eq_nil_of_length_eq_zero h.symm]
  | cons q l ih =>
    intro l' h hl
    unfold matchAll at h
    split at h
    · rename_i hq
      have := ih h (by rw [List.length_erase_of_mem hq]; simp only [List.length_cons] at hl; omega)
      exact (List.Perm.cons q this).trans (List.perm_cons_erase hq).symm
    · cases h

theorem matchAll_refl (l : List (I × V)) : matchAll l l = true := by
  induction l with
  | nil => rfl
  | cons p l ih =>
    unfold matchAll
    rw [if_pos List.mem_cons_self, List.erase_cons_head]
    exact ih

theorem writesEq_perm {l l' : List (I × V)} (h : writesEq l l' = true) : l.Perm l' := by
  unfold writesEq at h
  split at h
  · cases h
  · rename_i q
    exact matchAll_perm h (Decidable.not_not.mp q)

theorem lookup_perm {l l' : List (I × V)} (h : l.Perm l') (hn : (l.map Prod.fst).Nodup) (j : I) : l.lookup j = l'.lookup j := by
  have hn' : (l'.map Prod.fst).Nodup := (h.map Prod.fst).nodup_iff.mp hn
  cases hq : l.lookup j with
  | some v => exact ((lookup_of_mem hn').mp (h.mem_iff.mp ((lookup_of_mem hn).mpr hq))).symm
  | none =>
    cases hq' : l'.lookup j with
    | none => rfl
    | some v =>
      have := (lookup_of_mem hn).mp (h.mem_iff.mpr ((lookup_of_mem hn').mpr hq'))
      rw [hq] at this; cases this

theorem lookup_filter_val {l : List (I × V)} (hn : (l.map Prod.fst).Nodup) (v : V) (j : I) :
    (l.filter fun q => decide (q.2 ≠ v)).lookup j = (l.lookup j).filter fun w => decide (w ≠ v) := by
  have hn' : ((l.filter fun q => decide (q.2 ≠ v)).map Prod.fst).Nodup := hn.sublist (List.filter_sublist.map _)
  cases hq : l.lookup j with
  | none =>
    refine lookup_none fun h => ?_
    obtain ⟨p, hp, rfl⟩ := List.mem_map.mp h
    have := (lookup_of_mem (i := p.1) (v := p.2) hn).mp (List.mem_filter.mp hp).1
    rw [hq] at this; cases this
  | some w =>
    by_cases e : w = v
    · simp only [Option.filter, e, ne_eq, not_true, decide_false, Bool.false_eq_true, if_false]
      refine lookup_none fun h => ?_
      obtain ⟨p, hp, rfl⟩ := List.mem_map.mp h
      have h1 := List.mem_filter.mp hp
      have := (lookup_of_mem (i := p.1) (v := p.2) hn).mp h1.1
      rw [hq] at this
      have h2 := h1.2
      cases this
      simp [e] at h2
    · simp only [Option.filter, ne_eq, e, not_false_eq_true, decide_true, if_true]
      rw [← lookup_of_mem hn', List.mem_filter]
      exact ⟨(lookup_of_mem hn).mpr hq, by simp [e]⟩

/-- the canonical form determines the value -/
theorem canon_den (c : Cfg I V B) (m : Sem I V B D E) (a b : A I V B) (h : Apart m (indices a ++ indices b))
    (hr : (canon c a).1 = (canon c b).1) (hw : (canon c a).2.Perm (canon c b).2) : den m a = den m b := by
  have ha : Apart m (indices a) := fun x hx y hy => h x (List.mem_append_left _ hx) y (List.mem_append_left _ hy)
  have hb : Apart m (indices b) := fun x hx y hy => h x (List.mem_append_right _ hx) y (List.mem_append_right _ hy)
  have hroot : root a = root b := by
    unfold canon at hr
    cases ha : root a <;> cases hb : root b <;> rw [ha, hb] at hr <;> simpa using hr
  have hn := lastWrites_nodup (collect a)
  have hn' := lastWrites_nodup (collect b)
  cases hq : root a with
  | base x =>
    refine den_eq m a b ha hroot fun j => ?_
    unfold canon at hw
    rw [← hroot, hq] at hw
    have := (c.permW _).symm.trans (hw.trans (c.permW _))
    rw [← lastWrites_lookup, ← lastWrites_lookup (collect b)]
    exact lookup_perm this hn j
  | const v =>
    unfold canon at hw
    rw [← hroot, hq] at hw
    have hp := (c.permW _).symm.trans (hw.trans (c.permW _))
    have hlk : ∀ j, ((collect a).lookup j).filter (fun w => decide (w ≠ v)) = ((collect b).lookup j).filter fun w => decide (w ≠ v) := by
      intro j
      have := lookup_perm hp (hn.sublist (List.filter_sublist.map _)) j
      rw [lookup_filter_val hn, lookup_filter_val hn', lastWrites_lookup, lastWrites_lookup] at this
      exact this
    have hval : ∀ (a : A I V B), root a = .const v → Apart m (indices a) → ∀ (j : I) (d : D), (∀ i ∈ indices a, m.i i = d → i = j) → m.i j = d →
        den m a d = m.v ((((collect a).lookup j).filter fun w => decide (w ≠ v)).getD v) := by
      intro a hra haa j d hj hd
      by_cases hm : j ∈ indices a
      · obtain ⟨w, h1, h2⟩ := den_at m a haa j hm
        rw [← hd, h2, h1]
        by_cases e : w = v <;> simp [Option.filter, e]
      · rw [den_root m a d (fun i hi q => hm (hj i hi q ▸ hi)), hra]
        rw [lookup_none (by rw [collect_keys]; exact hm)]
        rfl
    funext d
    by_cases hex : ∃ i ∈ indices a ++ indices b, m.i i = d
    · obtain ⟨i, hi, hd⟩ := hex
      have huniq : ∀ x ∈ indices a ++ indices b, m.i x = d → x = i := by
        intro x hx hxd
        by_cases e : x = i
        · exact e
        · exact absurd (hxd.trans hd.symm) (h x hx i hi e)
      rw [hval a hq ha i d (fun x hx => huniq x (List.mem_append_left _ hx)) hd,
        hval b (hroot ▸ hq) hb i d (fun x hx => huniq x (List.mem_append_right _ hx)) hd, hlk]
    · rw [den_root m a d fun i hi q => hex ⟨i, List.mem_append_left _ hi, q⟩,
        den_root m b d fun i hi q => hex ⟨i, List.mem_append_right _ hi, q⟩, hroot]

theorem arraysEqual_true (c : Cfg I V B) (a b : A I V B) (h : arraysEqual c a b = .ok true) :
    a = b ∨ ((canon c a).1 = (canon c b).1 ∧ (canon c a).2.Perm (canon c b).2) := by
  unfold arraysEqual at h
  split at h
  · rename_i e; exact .inl e
  · simp only at h
    split at h
    · cases h
    · right
      generalize canon c a = p at h ⊢
      generalize canon c b = q at h ⊢
      obtain ⟨p1, p2⟩ := p
      obtain ⟨q1, q2⟩ := q
      cases p1 with
      | base x =>
        cases q1 with
        | base y =>
          simp only at h
          unfold baseEq at h
          split at h
          · rename_i e
            simp only [Res.bind, if_true, Res.ok.injEq] at h
            exact ⟨by rw [e], writesEq_perm h⟩
          · split at h <;> simp [Res.bind] at h
        | const w => cases h
      | const v =>
        cases q1 with
        | base y => cases h
        | const w =>
          simp only at h
          split at h
          · cases h
          · rename_i e
            simp only [Res.ok.injEq] at h
            exact ⟨by rw [Decidable.not_not.mp e], writesEq_perm h⟩

/-- **C26.**  Two arrays folded to equal have the same value under every assignment that separates their different indices. -/
theorem eq_true_sound_partial (c : Cfg I V B) (vs : Vars I V B) (m : Sem I V B D E) (a b : A I V B)
    (h : Apart m (indices a ++ indices b)) (he : simpEq c vs a b = .ok .tt) : den m a = den m b := by
  have : arraysEqual c a b = .ok true := by
    unfold simpEq at he
    cases hq : arraysEqual c a b with
    | ok e =>
      rw [hq] at he
      simp only [Res.bind] at he
      cases e with
      | true => rfl
      | false => simp only [Bool.false_eq_true, if_false] at he; split at he <;> cases he
    | throw => rw [hq] at he; cases he
    | abort => rw [hq] at he; cases he
    | ub => rw [hq] at he; cases he
    | diverge => rw [hq] at he; cases he
  rcases arraysEqual_true c a b this with rfl | ⟨h1, h2⟩
  · rfl
  · exact canon_den c m a b h h1 h2

/-- **C26, violated.**  Two chains writing the same two index nodes in different orders are folded to equal, although they differ
under every assignment that gives the two nodes the same value. -/
theorem eq_true_violated (c : Cfg I V B) (vs : Vars I V B) (b : B) (i j : I) (v w : V) (hne : i ≠ j) :
    simpEq c vs (.store (.store (.base b) i v) j w) (.store (.store (.base b) j w) i v) = .ok .tt ∧
    ∀ (m : Sem I V B D E), m.i i = m.i j → m.v v ≠ m.v w →
      den m (.store (.store (.base b) i v) j w) ≠ den m (.store (.store (.base b) j w) i v) := by
  have hji : j ≠ i := fun q => hne q.symm
  constructor
  · have h1 : canon c (.store (.store (.base b) i v) j w) = canon c (.store (.store (.base b) j w) i v) := by
      simp only [canon, collect, root, lastWrites, List.filter_nil, List.filter_cons, ne_eq, hne, hji, not_false_eq_true, decide_true,
        if_true]
      rw [c.canonW _ _ (List.Perm.swap _ _ _) (by simp [hji])]
    have h2 : ¬ (A.store (.store (.base b) i v) j w = A.store (.store (.base b) j w) i v) := by simp [hji]
    unfold simpEq arraysEqual
    rw [if_neg h2, ← h1]
    simp [canon, root, collect, baseEq, Res.bind, writesEq, matchAll_refl]
  · intro m he hvw hd
    have := congrFun hd (m.i i)
    simp only [den, he, if_true] at this
    exact hvw this.symm

theorem containsVar_false {vs : Vars I V B} {a : A I V B} (h : containsVar vs a = false) :
    (∀ i ∈ indices a, vs.i i = false) ∧ (∀ v ∈ values a, vs.v v = false) ∧ ∀ b, root a = .base b → vs.b b = false := by
  induction a with
  | base b => exact ⟨by simp [indices], by simp [values], fun x hx => by cases hx; exact h⟩
  | const v =>
    refine ⟨by simp [indices], ?_, fun x hx => by cases hx⟩
    intro w hw
    simp only [values, List.mem_singleton] at hw
    subst hw
    exact h
  | store a i v ih =>
    simp only [containsVar, Bool.or_eq_false_iff] at h
    obtain ⟨h1, h2, h3⟩ := ih h.2
    refine ⟨?_, ?_, h3⟩
    · intro j hj
      rcases List.mem_cons.mp hj with rfl | hj
      · exact h.1.1
      · exact h1 j hj
    · intro w hw
      rcases List.mem_cons.mp hw with rfl | hw
      · exact h.1.2
      · exact h2 w hw

/-- **C26.**  Two arrays folded to different have different values if all their index and element nodes are variables or
literals (different literals have different values), the arrays below the stores are variables or constant arrays, and the index
sort is infinite. -/
theorem eq_false_sound_partial (c : Cfg I V B) (vs : Vars I V B) (m : Sem I V B D E) (a b : A I V B)
    (hbase : ∀ x, root a = .base x ∨ root b = .base x → vs.b x = true)
    (hidx : ∀ x ∈ indices a ++ indices b, ∀ y ∈ indices a ++ indices b, vs.i x = false → vs.i y = false → x ≠ y → m.i x ≠ m.i y)
    (hlit : ∀ x ∈ values a ++ values b, ∀ y ∈ values a ++ values b, vs.v x = false → vs.v y = false → x ≠ y → m.v x ≠ m.v y)
    (hinf : ∀ l : List D, ∃ d, d ∉ l) (he : simpEq c vs a b = .ok .ff) : den m a ≠ den m b := by
  have hno : containsVar vs a = false ∧ containsVar vs b = false := by
    unfold simpEq at he
    cases hq : arraysEqual c a b with
    | ok e =>
      rw [hq] at he
      simp only [Res.bind] at he
      split at he
      · cases he
      · split at he
        · cases he
        · rename_i h; simpa [not_or] using h
    | _ => rw [hq] at he; cases he
  obtain ⟨ai, av, ab⟩ := containsVar_false hno.1
  obtain ⟨bi, bv, bb⟩ := containsVar_false hno.2
  have h : Apart m (indices a ++ indices b) := fun x hx y hy =>
    hidx x hx y hy ((List.mem_append.mp hx).elim (ai x) (bi x)) ((List.mem_append.mp hy).elim (ai y) (bi y))
  have hlit : ∀ x ∈ values a ++ values b, ∀ y ∈ values a ++ values b, x ≠ y → m.v x ≠ m.v y := fun x hx y hy =>
    hlit x hx y hy ((List.mem_append.mp hx).elim (av x) (bv x)) ((List.mem_append.mp hy).elim (av y) (bv y))
  obtain ⟨u, hra⟩ : ∃ u, root a = .const u := by
    cases hr : root a with
    | const u => exact ⟨u, rfl⟩
    | base x => have := ab x hr; rw [hbase x (.inl hr)] at this; cases this
  obtain ⟨u', hrb⟩ : ∃ u, root b = .const u := by
    cases hr : root b with
    | const u => exact ⟨u, rfl⟩
    | base x => have := bb x hr; rw [hbase x (.inr hr)] at this; cases this
  clear ai av ab bi bv bb hidx hbase
  intro hd
  have ha : Apart m (indices a) := fun x hx y hy => h x (List.mem_append_left _ hx) y (List.mem_append_left _ hy)
  have hb : Apart m (indices b) := fun x hx y hy => h x (List.mem_append_right _ hx) y (List.mem_append_right _ hy)
  have hroot_mem : ∀ (a : A I V B) u, root a = .const u → u ∈ values a := by
    intro a
    induction a with
    | base b => intro u h; cases h
    | const v => intro u h; simp only [root, Root.const.injEq] at h; simp [values, h]
    | store a i v ih => intro u h; exact List.mem_cons_of_mem _ (ih u h)
  have hval_mem : ∀ (a : A I V B) i w, (collect a).lookup i = some w → w ∈ values a := by
    intro a
    induction a with
    | base b => intro i w h; cases h
    | const v => intro i w h; cases h
    | store a j v ih =>
      intro i w h
      simp only [collect, List.lookup_cons] at h
      split at h
      · simp only [Option.some.injEq] at h; rw [← h]; exact List.mem_cons_self
      · exact List.mem_cons_of_mem _ (ih i w h)
  have hu : u = u' := by
    obtain ⟨d, hd'⟩ := hinf ((indices a ++ indices b).map m.i)
    have h1 := den_root m a d fun i hi q => hd' (List.mem_map.mpr ⟨i, List.mem_append_left _ hi, q⟩)
    have h2 := den_root m b d fun i hi q => hd' (List.mem_map.mpr ⟨i, List.mem_append_right _ hi, q⟩)
    rw [hra] at h1
    rw [hrb] at h2
    rw [hd, h2] at h1
    by_cases e : u = u'
    · exact e
    · exact absurd h1 (fun q => hlit u (List.mem_append_left _ (hroot_mem a u hra)) u' (List.mem_append_right _ (hroot_mem b u' hrb)) e q.symm)
  subst hu
  have hcv : ∀ (a : A I V B), root a = .const u → Apart m (indices a) → ∀ j, (∀ i ∈ indices a, m.i i = m.i j → i = j) →
      ∃ x, den m a (m.i j) = m.v x ∧ ((collect a).lookup j).filter (fun w => decide (w ≠ u)) = (if x = u then none else some x) ∧ x ∈ values a := by
    intro a hra haa j hj
    by_cases hm : j ∈ indices a
    · obtain ⟨w, h1, h2⟩ := den_at m a haa j hm
      refine ⟨w, h2, ?_, hval_mem a j w h1⟩
      rw [h1]
      by_cases e : w = u <;> simp [Option.filter, e]
    · refine ⟨u, ?_, ?_, hroot_mem a u hra⟩
      · rw [den_root m a _ (fun i hi q => hm (hj i hi q ▸ hi)), hra]; rfl
      · rw [lookup_none (by rw [collect_keys]; exact hm)]; simp
  have hfil : ∀ j ∈ indices a ++ indices b,
      ((collect a).lookup j).filter (fun w => decide (w ≠ u)) = ((collect b).lookup j).filter fun w => decide (w ≠ u) := by
    intro j hj
    have huniq : ∀ x ∈ indices a ++ indices b, m.i x = m.i j → x = j := by
      intro x hx hxd
      by_cases e : x = j
      · exact e
      · exact absurd hxd (h x hx j hj e)
    obtain ⟨x, h1, h2, h3⟩ := hcv a hra ha j fun i hi => huniq i (List.mem_append_left _ hi)
    obtain ⟨y, h4, h5, h6⟩ := hcv b hrb hb j fun i hi => huniq i (List.mem_append_right _ hi)
    have : x = y := by
      by_cases e : x = y
      · exact e
      · refine absurd ?_ (hlit x (List.mem_append_left _ h3) y (List.mem_append_right _ h6) e)
        rw [← h1, ← h4, hd]
    rw [h2, h5, this]
  have hn := lastWrites_nodup (collect a)
  have hn' := lastWrites_nodup (collect b)
  have hperm : ((lastWrites (collect a)).filter fun q => decide (q.2 ≠ u)).Perm ((lastWrites (collect b)).filter fun q => decide (q.2 ≠ u)) := by
    have hna := hn.sublist ((List.filter_sublist (p := fun q : I × V => decide (q.2 ≠ u))).map Prod.fst)
    have hnb := hn'.sublist ((List.filter_sublist (p := fun q : I × V => decide (q.2 ≠ u))).map Prod.fst)
    have hof : ∀ l : List (I × V), (l.map Prod.fst).Nodup → l.Nodup := by
      intro l hl
      rw [List.nodup_iff_pairwise_ne] at hl ⊢
      rw [List.pairwise_map] at hl
      exact hl.imp fun q e => q (by rw [e])
    rw [List.perm_ext_iff_of_nodup (hof _ hna) (hof _ hnb)]
    rintro ⟨i, w⟩
    rw [lookup_of_mem hna, lookup_of_mem hnb, lookup_filter_val hn, lookup_filter_val hn', lastWrites_lookup, lastWrites_lookup]
    by_cases hi : i ∈ indices a ++ indices b
    · rw [hfil i hi]
    · rw [List.mem_append, not_or] at hi
      rw [lookup_none (by rw [collect_keys]; exact hi.1), lookup_none (by rw [collect_keys]; exact hi.2)]
  have hcan : canon c a = canon c b := by
    unfold canon
    rw [hra, hrb]
    simp only
    rw [c.canonW _ _ hperm (hn.sublist (List.filter_sublist.map _))]
  have : arraysEqual c a b = .ok true := by
    unfold arraysEqual
    by_cases e : a = b
    · rw [if_pos e]
    · rw [if_neg e, hcan]
      simp only [ne_eq, not_true, if_false]
      have hb1 : (canon c b).1 = .const u := by unfold canon; rw [hrb]
      rw [hb1]
      simp [writesEq, matchAll_refl]
  unfold simpEq at he
  rw [this] at he
  cases he

/-- **C26, violated.**  Without a direct variable, different canonical forms are folded to different: (1) two index nodes that
are not variables but can have the same value; (2) two constant arrays over a one-element index sort with both written;
(3) two array nodes that are neither variables nor stores nor constants. -/
theorem eq_false_violated (c : Cfg I V B) (vs : Vars I V B) :
    (∀ (u v : V) (i j : I), i ≠ j → u ≠ v → vs.i i = false → vs.i j = false → vs.v u = false → vs.v v = false →
      simpEq c vs (.store (.const u) i v) (.store (.const u) j v) = .ok .ff ∧
      ∀ (m : Sem I V B D E), m.i i = m.i j → den m (.store (.const u) i v) = den m (.store (.const u) j v)) ∧
    (∀ (u v : V) (i : I), u ≠ v → vs.i i = false → vs.v u = false → vs.v v = false →
      simpEq c vs (.store (.const u) i v) (.const v) = .ok .ff ∧
      ∀ (m : Sem I V B D E), (∀ d, d = m.i i) → den m (.store (.const u) i v) = den m (.const v)) ∧
    (∀ x y : B, x ≠ y → c.hashC (.base x) [] ≠ c.hashC (.base y) [] → vs.b x = false → vs.b y = false →
      simpEq c vs (.base x) (.base y) = .ok .ff ∧
      ∀ (m : Sem I V B D E), m.b x = m.b y → den m (.base x : A I V B) = den m (.base y)) := by
  have hone : ∀ p : I × V, c.sortW [p] = [p] := fun p => List.perm_singleton.mp (c.permW [p])
  have hw : c.sortW [] = [] := List.perm_nil.mp (c.permW [])
  refine ⟨fun u v i j hij huv hi hj hu hv => ⟨?_, ?_⟩, fun u v i huv hi hu hv => ⟨?_, ?_⟩, fun x y hxy hh hx hy => ⟨?_, ?_⟩⟩
  · have hvu : v ≠ u := fun q => huv q.symm
    have : arraysEqual c (.store (.const u) i v) (.store (.const u) j v) = .ok false := by
      unfold arraysEqual
      rw [if_neg (by simp [hij])]
      simp only [canon, collect, root, lastWrites, List.filter_nil, List.filter_cons, ne_eq, hvu, not_false_eq_true, decide_true,
        if_true, hone]
      split
      · rfl
      · simp [writesEq, matchAll, hij]
    simp [simpEq, this, Res.bind, containsVar, hi, hj, hu, hv]
  · intro m he
    funext d; simp [den, he]
  · have hvu : v ≠ u := fun q => huv q.symm
    have : arraysEqual c (.store (.const u) i v) (.const v) = .ok false := by
      unfold arraysEqual
      rw [if_neg (by simp)]
      simp only [canon, collect, root]
      split
      · rfl
      · simp [huv]
    simp [simpEq, this, Res.bind, containsVar, hi, hu, hv]
  · intro m he
    funext d; simp only [den]; rw [if_pos (he d)]
  · have : arraysEqual c (.base x) (.base y : A I V B) = .ok false := by
      unfold arraysEqual
      simp [hxy, canon, root, collect, lastWrites, hw, hh]
    simp [simpEq, this, Res.bind, containsVar, hx, hy]
  · intro m he
    simp [den, he]

/-- **C26, violated.**  With three operands, `=` of different array variables is folded to false although they may be equal. -/
theorem eq3_violated (c : Cfg I V B) (x y z : B) (hxy : x ≠ y) (hh : c.hashC (.base x) [] ≠ c.hashC (.base y) []) :
    simpEq3 c (.base x) (.base y) (.base z) = .ok .ff ∧ simpEq3 c (.base x) (.base x) (.base y) = .ok .ff ∧
    ∀ (m : Sem I V B D E), m.b x = m.b y → m.b y = m.b z →
      den m (.base x : A I V B) = den m (.base y) ∧ den m (.base y : A I V B) = den m (.base z) := by
  have hw : c.sortW [] = [] := List.perm_nil.mp (c.permW [])
  refine ⟨?_, ?_, ?_⟩
  · unfold simpEq3 arraysEqual
    simp [hxy, canon, root, collect, lastWrites, hw, hh, Res.bind]
  · unfold simpEq3 arraysEqual
    simp [hxy, canon, root, collect, lastWrites, hw, hh, Res.bind]
  · intro m h1 h2; simp [den, h1, h2]

/-- **C26.**  With three operands, a true answer means both pairs were found equal. -/
theorem eq3_true_partial (c : Cfg I V B) (vs : Vars I V B) (m : Sem I V B D E) (x y z : A I V B)
    (hxy : Apart m (indices x ++ indices y)) (hyz : Apart m (indices y ++ indices z)) (h : simpEq3 c x y z = .ok .tt) :
    den m x = den m y ∧ den m y = den m z := by
  unfold simpEq3 at h
  cases h1 : arraysEqual c x y with
  | ok e =>
    rw [h1] at h
    simp only [Res.bind] at h
    cases e with
    | false => simp at h
    | true =>
      simp only [if_true] at h
      cases h2 : arraysEqual c y z with
      | ok e' =>
        rw [h2] at h
        cases e' with
        | false => simp at h
        | true =>
          exact ⟨eq_true_sound_partial c vs m x y hxy (by simp [simpEq, h1, Res.bind]),
            eq_true_sound_partial c vs m y z hyz (by simp [simpEq, h2, Res.bind])⟩
      | _ => rw [h2] at h; cases h
  | _ => rw [h1] at h; cases h

/-- **C26.**  Deciding equality ends unless two different array nodes below the stores have the same hash. -/
theorem arraysEqual_total_partial (c : Cfg I V B) (a b : A I V B)
    (hh : ∀ x y : B, root a = .base x → root b = .base y → x ≠ y → c.hashC (.base x) [] ≠ c.hashC (.base y) []) :
    ∃ r, arraysEqual c a b = .ok r := by
  unfold arraysEqual
  split
  · exact ⟨_, rfl⟩
  · simp only
    split
    · exact ⟨_, rfl⟩
    · cases ha : root a with
      | const u =>
        cases hb : root b with
        | const w => simp only [canon, ha, hb]; split <;> exact ⟨_, rfl⟩
        | base y => simp only [canon, ha, hb]; exact ⟨_, rfl⟩
      | base x =>
        cases hb : root b with
        | const w => simp only [canon, ha, hb]; exact ⟨_, rfl⟩
        | base y =>
          simp only [canon, ha, hb]
          unfold baseEq
          by_cases e : x = y
          · rw [if_pos e]; exact ⟨_, rfl⟩
          · rw [if_neg e, if_pos (hh x y ha hb e)]; exact ⟨_, rfl⟩

/-- **C26, violated.**  Two different array variables with the same hash send the equality test into an endless recursion. -/
theorem arraysEqual_collision_violated (c : Cfg I V B) (x y : B) (hxy : x ≠ y) (hh : c.hashC (.base x) [] = c.hashC (.base y) []) :
    arraysEqual c (.base x) (.base y) = .diverge := by
  have hw : c.sortW [] = [] := List.perm_nil.mp (c.permW [])
  unfold arraysEqual
  simp [hxy, canon, root, collect, lastWrites, hw, hh, baseEq, Res.bind]

end

/-! ## Cases that meet the hypotheses -/

/-- literals as index and element nodes, ordered as numbers -/
def c0 : Cfg Nat Nat Nat where
  sortK l := l
  permK _ := .refl _
  sortW l := l.mergeSort fun p q => decide (p.1 ≤ q.1)
  permW l := List.mergeSort_perm _ _
  canonW l l' h hn := by
    have h1 := List.pairwise_mergeSort (le := fun p q : Nat × Nat => decide (p.1 ≤ q.1)) (by intro a b c; simp; omega) (by intro a b; simp; omega) l
    have h2 := List.pairwise_mergeSort (le := fun p q : Nat × Nat => decide (p.1 ≤ q.1)) (by intro a b c; simp; omega) (by intro a b; simp; omega) l'
    have hp := (List.mergeSort_perm l fun p q => decide (p.1 ≤ q.1)).trans (h.trans (List.mergeSort_perm l' fun p q => decide (p.1 ≤ q.1)).symm)
    refine hp.eq_of_pairwise (le := fun p q : Nat × Nat => p.1 ≤ q.1) ?_ (by simpa using h1) (by simpa using h2)
    intro p q hp' hq' hpq hqp
    have hm1 := (List.mergeSort_perm l _).mem_iff.mp hp'
    have hm2 := h.mem_iff.mpr ((List.mergeSort_perm l' _).mem_iff.mp hq')
    have e1 := (lookup_of_mem (i := p.1) (v := p.2) hn).mp hm1
    have e2 := (lookup_of_mem (i := q.1) (v := q.2) hn).mp hm2
    have : p.1 = q.1 := by omega
    rw [this, e2] at e1
    simp only [Option.some.injEq] at e1
    exact Prod.ext this e1.symm
  hashC
    | .base b, l => 2 * b + l.length
    | .const v, l => 2 * v + 1 + l.length

/-- numbers as their own values -/
def m0 : Sem Nat Nat Nat Nat Nat := ⟨id, id, fun b _ => b⟩

example : Apart m0 [1, 2, 1, 3] := fun _ _ _ _ h => h
example : ∀ l : List Nat, ∃ d, d ∉ l := by
  intro l
  have : ∀ l : List Nat, ∃ b, ∀ x ∈ l, x < b := by
    intro l
    induction l with
    | nil => exact ⟨0, by simp⟩
    | cons a l ih =>
      obtain ⟨b, hb⟩ := ih
      refine ⟨max (a + 1) b, fun x hx => ?_⟩
      rcases List.mem_cons.mp hx with rfl | hx
      · omega
      · have := hb x hx; omega
  obtain ⟨b, hb⟩ := this l
  exact ⟨b, fun h => Nat.lt_irrefl _ (hb b h)⟩
example : mkSelect (.store (.store (.base 0) 1 10) 2 20 : A Nat Nat Nat) 1 = .val 10 := by decide
example : mkStore c0 (.store (.store (.base 0) 1 10) 2 20) 1 30 = .store (.store (.base 0) 1 30) 2 20 := by decide

end SMT.Arr
