import Verif.Parse.Lay

/-! # Reading sorts (C53) -/

namespace SMT.Parse
open SMT SMT.Text SMT.Lex SMT.Sorts

set_option linter.unusedSimpArgs false
set_option linter.unusedVariables false

theorem sortOf_denotes {s : Srt} {d : D} (h : Denotes s d) : sortOf s = some d := by
  induction h with
  | array _ _ ih1 ih2 => simp [arraySort, sortOf, ih1, ih2]
  | _ => rfl

theorem sortOf_over {decl : Decl} (hg : GoodDecl decl) {x : Sexp} {d : D} (h : SortOf decl x d) : Over decl d := by
  induction h with
  | array _ _ ih1 ih2 => exact ⟨ih1, ih2⟩
  | named h => exact hg.closed _ _ h
  | _ => trivial

theorem takeWhile_digits {w : List Char} (h : ∀ c ∈ w, c.isDigit = true) : w.takeWhile Char.isDigit = w := by
  induction w with
  | nil => rfl
  | cons c w ih => rw [List.takeWhile_cons, if_pos (h c (by simp)), ih fun x hx => h x (by simp [hx])]

theorem strtol_num {w : List Char} (h1 : w ≠ []) (h2 : ∀ c ∈ w, c.isDigit = true) : strtol w = some (undec w : Int) := by
  have hw := takeWhile_digits h2
  cases w with
  | nil => exact absurd rfl h1
  | cons c w =>
    have hc := h2 c (by simp)
    have n1 : c ≠ '-' := by rintro rfl; exact absurd hc (by decide)
    have n2 : c ≠ '+' := by rintro rfl; exact absurd hc (by decide)
    unfold strtol
    split
    rename_i neg r e
    split at e
    · rename_i e'; injection e' with e' _; exact absurd e' n1
    · rename_i e'; injection e' with e' _; exact absurd e' n2
    · injection e with e1 e2
      subst e1 e2
      rw [hw]
      rfl

theorem stoi_num {w : List Char} (h : Num31 w) : stoi w = .ok (undec w : Int) := by
  unfold stoi
  rw [strtol_num h.1 h.2.1]
  have := h.2.2
  simp only
  rw [if_pos (by omega)]

theorem stoul_num {w : List Char} (h : Num64 w) : stoul w = .ok (undec w) := by
  unfold stoul
  rw [strtol_num h.1 h.2.1]
  have := h.2.2
  simp only
  rw [if_pos (by omega)]
  congr 1
  omega

theorem toSize_num {w : List Char} (h : Num31 w) : toSize (undec w : Int) = undec w := by
  unfold toSize
  have := h.2.2
  omega

/-- texts without the character are cut at its first occurrence -/
theorem cut_char {d : Char} : ∀ {u v r r' : List Char}, d ∉ u → d ∉ v → u ++ d :: r = v ++ d :: r' → u = v ∧ r = r'
  | [], [], _, _, _, _, h => by simpa using h
  | a :: u, b :: v, r, r', hu, hv, h => by
    simp only [List.cons_append, List.cons.injEq] at h
    obtain ⟨e1, e2⟩ := cut_char (fun e => hu (by simp [e])) (fun e => hv (by simp [e])) h.2
    exact ⟨by rw [h.1, e1], e2⟩
  | [], b :: v, _, _, _, hv, h => by
    simp only [List.nil_append, List.cons_append, List.cons.injEq] at h
    exact absurd (by simp [h.1]) hv
  | a :: u, [], _, _, hu, _, h => by
    simp only [List.nil_append, List.cons_append, List.cons.injEq] at h
    exact absurd (by simp [← h.1]) hu

theorem num_no_bar {w : List Char} (h : Num31 w) : '_' ∉ w := fun hm => absurd (h.2.1 _ hm) (by decide)

theorem lookup_append_none {keys : List (List Char × Srt)} {key : List Char} {s : Srt} {k : List Char} (h : keys.lookup key = none) :
    (keys ++ [(key, s)]).lookup k = if k = key then some s else keys.lookup k := by
  induction keys with
  | nil =>
    simp only [List.nil_append, List.lookup_cons, List.lookup_nil]
    by_cases hk : k = key
    · simp [hk]
    · have : (k == key) = false := by simpa using hk
      rw [this, if_neg hk]
  | cons a keys ih =>
    obtain ⟨a1, a2⟩ := a
    simp only [List.lookup_cons] at h
    simp only [List.cons_append, List.lookup_cons]
    by_cases h1 : key = a1
    · simp [h1] at h
    · have h1' : (key == a1) = false := by simpa using h1
      rw [h1'] at h
      by_cases h2 : k = a1
      · have : k ≠ key := fun e => h1 (by rw [← e, h2])
        simp [h2, Ne.symm h1]
      · have h2' : (k == a1) = false := by simpa using h2
        rw [h2', ih h]

/-- entries of the sort table, apart from the declared sorts -/
def Entry (decl : Decl) (k : List Char) (s : Srt) : Prop :=
  (∃ w, k = cs!"BV_" ++ w ∧ Num31 w ∧ s = bvSort (undec w)) ∨
  (∃ e m, k = cs!"FP_" ++ e ++ cs!"_" ++ m ∧ Num31 e ∧ Num31 m ∧ s = fpSort cs!"FP" (undec e) (undec m)) ∨
  (∃ i e di de, k = cs!"ARRAY_" ++ print i ++ cs!"_" ++ print e ∧ Denotes i di ∧ Denotes e de ∧ Over decl di ∧ Over decl de ∧
    s = arraySort i e)

/-- an entry does not have the name of a declared sort -/
theorem Entry.notDecl {decl : Decl} (hg : GoodDecl decl) {k : List Char} {s : Srt} (h : Entry decl k s) : k ∉ declNames decl := by
  intro hk
  obtain ⟨h1, h2, h3⟩ := hg.notKey k hk
  rcases h with ⟨w, rfl, _⟩ | ⟨e, m, rfl, _⟩ | ⟨i, e, di, de, rfl, _⟩
  · exact h1 (List.prefix_append _ _)
  · exact h2 (by rw [List.append_assoc, List.append_assoc]; exact List.prefix_append _ _)
  · exact h3 (by rw [List.append_assoc, List.append_assoc]; exact List.prefix_append _ _)

/-- the sort table after looking up an entry -/
theorem keyed_entry {decl : Decl} (hg : GoodDecl decl) {p : P} {key : List Char} {s : Srt} {d : D} (hk : Keys decl p.keys)
    (he : Entry decl key s) (hd : ∀ s', Entry decl key s' → Denotes s' d) (l : Nat) (t : List Char) (rs : Res Srt) (hs : rs = .ok s) :
    ∃ s' ks, Denotes s' d ∧ Keys decl ks ∧ keyed (p.at l t) key rs = .ok (s', { p with keys := ks }.at l t) := by
  subst hs
  unfold keyed
  cases hl : p.keys.lookup key with
  | some s' =>
    refine ⟨s', p.keys, ?_, hk, by rw [at_keys, hl]⟩
    rcases hk.entries key s' hl with h | h
    · exact absurd h (he.notDecl hg)
    · exact hd s' h
  | none =>
    refine ⟨s, p.keys ++ [(key, s)], hd s he, ⟨?_, ?_⟩, by rw [at_keys, hl]; rfl⟩
    · intro n d hn
      rw [lookup_append_none hl, if_neg (fun e => he.notDecl hg (by rw [← e]; exact List.mem_map.2 ⟨_, hn, rfl⟩))]
      exact hk.known n d hn
    · intro k s' h
      rw [lookup_append_none hl] at h
      split at h
      · rename_i e
        injection h with h
        subst h e
        exact .inr he
      · exact hk.entries k s' h

theorem entry_bv {decl : Decl} {w : List Char} {s : Srt} (h : Entry decl (cs!"BV_" ++ w) s) : Denotes s (.bv (undec w)) := by
  rcases h with ⟨w', e, _, rfl⟩ | ⟨e, m, h, _⟩ | ⟨i, e, di, de, h, _⟩
  · have := List.append_cancel_left e
    subst this
    exact .bv _
  · simp at h
  · simp at h

theorem entry_fp {decl : Decl} {e m : List Char} {s : Srt} (h1 : Num31 e) (h2 : Num31 m)
    (h : Entry decl (cs!"FP_" ++ e ++ cs!"_" ++ m) s) : Denotes s (.fp (undec e) (undec m)) := by
  rcases h with ⟨w', h, _⟩ | ⟨e', m', h, h3, h4, rfl⟩ | ⟨i, e, di, de, h, _⟩
  · simp at h
  · simp only [List.append_assoc, List.append_cancel_left_eq] at h
    obtain ⟨rfl, rfl⟩ := cut_char (num_no_bar h1) (num_no_bar h3) (by simpa using h)
    exact .fp _ _ _
  · simp at h

theorem entry_array {decl : Decl} (hg : GoodDecl decl) {i e : Srt} {di de : D} {s : Srt} (hi : Denotes i di)
    (he : Denotes e de) (oi : Over decl di) (oe : Over decl de) (h : Entry decl (cs!"ARRAY_" ++ print i ++ cs!"_" ++ print e) s) :
    Denotes s (.array di de) := by
  rcases h with ⟨w', h, _⟩ | ⟨e', m', h, h3, h4, rfl⟩ | ⟨i', e', di', de', h, h1, h2, o1, o2, rfl⟩
  · simp at h
  · simp at h
  · simp only [List.append_assoc, List.append_cancel_left_eq] at h
    rw [print_text hi, print_text he, print_text h1, print_text h2] at h
    obtain ⟨rfl, rfl⟩ := hg.unamb _ _ _ _ oi oe o1 o2 (by simpa using h)
    exact .array h1 h2

/-- reading a sort from its layout: the sort object stands for the sort, and the cursor is behind it -/
def ReadsSort (cfg : Cfg) (decl : Decl) (x : Sexp) (d : D) : Prop :=
  ∀ (tx r : List Char) (l : Nat) (p : P), Lay cfg.file x tx → SepX cfg.file x r → Keys decl p.keys →
    ∃ s ks k, Denotes s d ∧ Keys decl ks ∧
      ∀ m, k ≤ m → parseSort cfg m (p.at l (tx ++ r)) = .ok (s, { p with keys := ks }.at (l + nls tx) r)

theorem sort_found {cfg : Cfg} {decl : Decl} {a : List Char} {d : D}
    (hf : ∀ (p : P), Keys decl p.keys → ∃ s, Denotes s d ∧ findSort p a = .ok s) : ReadsSort cfg decl (.atom a) d := by
  intro tx r l p hl hs hk
  obtain ⟨rfl, ht⟩ := hl.atom_inv
  obtain ⟨s, hd, hf⟩ := hf p hk
  refine ⟨s, p.keys, 1, hd, hk, fun m hm => ?_⟩
  obtain ⟨m, rfl⟩ : ∃ n, m = n + 1 := ⟨m - 1, by omega⟩
  obtain ⟨c, w, rfl, hc, n1, n2⟩ := ht.head
  have hcur : (p.at l (c :: w ++ r)).cur = some c := by rw [List.cons_append]; exact cur_at _ _ _ hc
  have hsym := sym_at cfg p l r ht hs
  unfold parseSort
  rw [hcur, if_neg (by simpa using n2), if_pos (by simpa using n1), hsym]
  simp only [Res.ok_bind]
  rw [show ∀ l t, findSort (p.at l t) (c :: w) = findSort p (c :: w) from fun _ _ => rfl, hf]
  rfl

theorem sort_word {cfg : Cfg} {decl : Decl} {a : List Char} {d : D} {s : Srt} (hd : Denotes s d)
    (hf : ∀ (p : P), Keys decl p.keys → findSort p a = .ok s) : ReadsSort cfg decl (.atom a) d :=
  sort_found fun p hk => ⟨s, hd, hf p hk⟩

theorem findSort_basic (p : P) {a : List Char} {s : Srt} (h : basicSorts.lookup a = some s) : findSort p a = .ok s := by
  unfold findSort; rw [h]

/-- the part of a sort that is a part of a list -/
theorem sort_part {cfg : Cfg} {decl : Decl} {x : Sexp} {d : D} {xs : List Sexp} {b : List Char} (h : ReadsSort cfg decl x d)
    (hl : LayL cfg.file (x :: xs) b) (p : P) (hk : Keys decl p.keys) (l : Nat) (r : List Char) :
    ∃ s ks k b' l', Denotes s d ∧ Keys decl ks ∧ LayL cfg.file xs b' ∧ l' + nls b' = l + nls b ∧
      ∀ m, k ≤ m → parseSort cfg m (p.at l (b ++ ')' :: r)) = .ok (s, { p with keys := ks }.at l' (b' ++ ')' :: r)) := by
  obtain ⟨tx, b', g, h1, h2, h3, h4, h5, h6, _, _, _⟩ := part_at hl p l r
  obtain ⟨s, ks, k, hd, hk', hp⟩ := h tx _ l p h1 h4 hk
  refine ⟨s, ks, k, b', l + nls tx + nls g, hd, hk', h2, by rw [h6]; omega, fun m hm => ?_⟩
  rw [h5, hp m hm, at_gap _ _ _ h3]

/-- a compound sort -/
theorem sort_list {cfg : Cfg} {decl : Decl} {a : List Char} {xs : List Sexp} {d : D}
    (h : ∀ (p : P) (b r : List Char) (l : Nat), LayL cfg.file xs b → Keys decl p.keys → ∃ s ks k b' l', Denotes s d ∧ Keys decl ks ∧
      LayL cfg.file [] b' ∧ l' + nls b' = l + nls b ∧
      ∀ m, k ≤ m → sortTail cfg m a (p.at l (b ++ ')' :: r)) = .ok (s, { p with keys := ks }.at l' (b' ++ ')' :: r))) :
    ReadsSort cfg decl (.list (.atom a :: xs)) d := by
  intro tx r l p hl _ hk
  obtain ⟨b, g, hb, hc, ho, hn⟩ := open_at hl p l r
  obtain ⟨b1, l1, hb1, hs, hn1, _, _⟩ := word_at hb p (l + nls g) r
  obtain ⟨s, ks, k, b2, l2, hd, hk', hb2, hn2, ht⟩ := h p b1 r l1 hb1 hk
  obtain ⟨hc2, _, _, hz⟩ := close_at hb2 { p with keys := ks } l2 r
  refine ⟨s, ks, k + 1, hd, hk', fun m hm => ?_⟩
  obtain ⟨m, rfl⟩ : ∃ n, m = n + 1 := ⟨m - 1, by omega⟩
  unfold parseSort
  rw [hc, if_neg (by decide), if_neg (by simp), ho]
  simp only [Res.ok_bind]
  rw [hs]
  simp only [Res.ok_bind]
  rw [ht m (by omega)]
  simp only [Res.ok_bind]
  rw [hc2]
  simp only [Res.ok_bind, Res.pure_eq]
  rw [show l2 = l + nls tx by omega]

theorem sort_reads (cfg : Cfg) {decl : Decl} (hg : GoodDecl decl) {x : Sexp} {d : D} (h : SortOf decl x d) :
    ReadsSort cfg decl x d := by
  induction h with
  | bool => exact sort_word .bool fun p _ => findSort_basic p (by rfl)
  | int => exact sort_word .int fun p _ => findSort_basic p (by rfl)
  | real => exact sort_word .real fun p _ => findSort_basic p (by rfl)
  | str => exact sort_word .str fun p _ => findSort_basic p (by rfl)
  | rm => exact sort_word .rm fun p _ => findSort_basic p (by rfl)
  | regLan => exact sort_word .reg fun p _ => findSort_basic p (by rfl)
  | reg => exact sort_word .reg fun p _ => findSort_basic p (by rfl)
  | regEx => exact sort_word .reg fun p _ => findSort_basic p (by rfl)
  | float16 => exact sort_word (.fp cs!"Float16" _ _) fun p _ => findSort_basic p (by rfl)
  | float32 => exact sort_word (.fp cs!"Float32" _ _) fun p _ => findSort_basic p (by rfl)
  | float64 => exact sort_word (.fp cs!"Float64" _ _) fun p _ => findSort_basic p (by rfl)
  | named h =>
    refine sort_found fun p hk => ?_
    obtain ⟨s, h1, h2⟩ := hk.known _ _ h
    refine ⟨s, h2, ?_⟩
    unfold findSort
    rw [hg.notBasic _ (List.mem_map.2 ⟨_, h, rfl⟩), h1]
  | regOf _ ih =>
    refine sort_list fun p b r l hb hk => ?_
    obtain ⟨s, ks, k, b1, l1, hd, hk1, hb1, hn, ht⟩ := sort_part ih hb p hk l r
    refine ⟨REG_SORT, ks, k + 1, b1, l1, .reg, hk1, hb1, hn, fun m hm => ?_⟩
    obtain ⟨m, rfl⟩ : ∃ n, m = n + 1 := ⟨m - 1, by omega⟩
    have hk2 : s.kind = .STR := by cases hd; rfl
    unfold sortTail
    rw [if_neg (by decide), if_neg (by decide), if_pos rfl, ht m (by omega)]
    simp [hk2]
  | bv hw =>
    rename_i w
    refine sort_list fun p b r l hb hk => ?_
    obtain ⟨b1, l1, hb1, hs1, hn1, _, _⟩ := word_at hb p l r
    obtain ⟨b2, l2, hb2, hs2, hn2, _, _⟩ := word_at hb1 p l1 r
    obtain ⟨s, ks, hd, hk2, he⟩ := keyed_entry hg hk (key := cs!"BV_" ++ w) (s := bvSort (undec w)) (d := .bv (undec w))
      (.inl ⟨w, rfl, hw, rfl⟩) (fun s' h => entry_bv h) l2 (b2 ++ ')' :: r) (do let i ← stoi w; return bvSort (toSize i))
      (by rw [stoi_num hw]; simp [toSize_num hw])
    refine ⟨s, ks, 1, b2, l2, hd, hk2, hb2, by omega, fun m hm => ?_⟩
    obtain ⟨m, rfl⟩ : ∃ n, m = n + 1 := ⟨m - 1, by omega⟩
    unfold sortTail
    rw [if_neg (by decide), if_neg (by decide), if_neg (by decide), if_neg (by decide), if_pos rfl, hs1]
    simp only [Res.ok_bind, if_true]
    rw [hs2]
    exact he
  | fp hw hv =>
    rename_i w v
    refine sort_list fun p b r l hb hk => ?_
    obtain ⟨b1, l1, hb1, hs1, hn1, _, _⟩ := word_at hb p l r
    obtain ⟨b2, l2, hb2, hs2, hn2, _, _⟩ := word_at hb1 p l1 r
    obtain ⟨b3, l3, hb3, hs3, hn3, _, _⟩ := word_at hb2 p l2 r
    obtain ⟨s, ks, hd, hk2, he⟩ := keyed_entry hg hk (key := cs!"FP_" ++ w ++ cs!"_" ++ v) (s := fpSort cs!"FP" (undec w) (undec v))
      (d := .fp (undec w) (undec v)) (.inr (.inl ⟨w, v, rfl, hw, hv, rfl⟩)) (fun s' h => entry_fp hw hv h) l3 (b3 ++ ')' :: r)
      (do let i ← stoi w; let j ← stoi v; return fpSort cs!"FP" (toSize i) (toSize j))
      (by rw [stoi_num hw, stoi_num hv]; simp [toSize_num hw, toSize_num hv])
    refine ⟨s, ks, 1, b3, l3, hd, hk2, hb3, by omega, fun m hm => ?_⟩
    obtain ⟨m, rfl⟩ : ∃ n, m = n + 1 := ⟨m - 1, by omega⟩
    unfold sortTail
    rw [if_neg (by decide), if_neg (by decide), if_neg (by decide), if_neg (by decide), if_pos rfl, hs1]
    simp only [Res.ok_bind]
    rw [if_neg (by decide), if_pos trivial, hs2]
    simp only [Res.ok_bind]
    rw [hs3]
    exact he
  | array h1 h2 ih1 ih2 =>
    refine sort_list fun p b r l hb hk => ?_
    obtain ⟨s1, ks1, k1, b1, l1, hd1, hk1, hb1, hn1, ht1⟩ := sort_part ih1 hb p hk l r
    obtain ⟨s2, ks2, k2, b2, l2, hd2, hk2, hb2, hn2, ht2⟩ := sort_part ih2 hb1 { p with keys := ks1 } hk1 l1 r
    obtain ⟨s, ks, hd, hk3, he⟩ := keyed_entry hg (p := { p with keys := ks2 }) hk2 (key := cs!"ARRAY_" ++ print s1 ++ cs!"_" ++ print s2)
      (.inr (.inr ⟨s1, s2, _, _, rfl, hd1, hd2, sortOf_over hg h1, sortOf_over hg h2, rfl⟩))
      (fun s' h => entry_array hg hd1 hd2 (sortOf_over hg h1) (sortOf_over hg h2) h) l2 (b2 ++ ')' :: r) (.ok (arraySort s1 s2)) rfl
    refine ⟨s, ks, k1 + k2 + 1, b2, l2, hd, hk3, hb2, by omega, fun m hm => ?_⟩
    obtain ⟨m, rfl⟩ : ∃ n, m = n + 1 := ⟨m - 1, by omega⟩
    unfold sortTail
    rw [if_pos rfl, ht1 m (by omega)]
    simp only [Res.ok_bind]
    rw [ht2 m (by omega)]
    exact he

end SMT.Parse
