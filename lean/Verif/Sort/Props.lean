import Verif.Sort.Model

/-! # Sort equality, printing and deduplication (C18) -/

namespace SMT.Sorts
open SMT.Text Srt

/-- SMT-LIB sorts (without parametric declared sorts). -/
inductive D where
  | bool | int | real | str | reg | rm
  | bv (w : Nat)
  | fp (e s : Nat)
  | array (i e : D)
  | named (n : List Char)
  deriving DecidableEq

/-- The sort object denotes an SMT-LIB sort: the objects the parser builds when it reads the sort. -/
inductive Denotes : Srt → D → Prop where
  | bool : Denotes BOOL_SORT .bool
  | int : Denotes INT_SORT .int
  | real : Denotes REAL_SORT .real
  | str : Denotes STR_SORT .str
  | reg : Denotes REG_SORT .reg
  | rm : Denotes ROUNDING_MODE_SORT .rm
  | bv (w) : Denotes (bvSort w) (.bv w)
  | fp (n e s) : Denotes (fpSort n e s) (.fp e s)
  | array {i e di de} : Denotes i di → Denotes e de → Denotes (arraySort i e) (.array di de)
  | named (n) : Denotes (decSort n 0) (.named n)

/-- The sort is neither a bit-vector nor an array sort. -/
def Plain : D → Prop
  | .bv _ => False
  | .array _ _ => False
  | _ => True

/-- **C18.**  Sort equality is reflexive and symmetric for all sort objects. -/
theorem eqS_refl (a : Srt) : eqS a a = true := by
  unfold eqS; cases h : a.kind <;> simp
theorem eqS_symm (a b : Srt) : eqS a b = eqS b a := by
  unfold eqS
  generalize a.kind = k; generalize b.kind = l
  have e1 : (a.name == b.name) = (b.name == a.name) := BEq.comm
  have e2 : (a.arity == b.arity) = (b.arity == a.arity) := BEq.comm
  have e3 : (childArity a 0 == childArity b 0) = (childArity b 0 == childArity a 0) := BEq.comm
  have e4 : (childArity a 1 == childArity b 1) = (childArity b 1 == childArity a 1) := BEq.comm
  rw [e1, e2, e3, e4]
  cases k <;> cases l <;> rfl

/-- **C18.**  For sorts other than bit-vectors and arrays, two sort objects compare equal exactly when they denote the
same SMT-LIB sort. -/
theorem eqS_exact_partial {a b : Srt} {d e : D} (ha : Denotes a d) (hb : Denotes b e) (hp : Plain d) :
    eqS a b = true ↔ d = e := by
  cases ha <;> cases hb <;>
    first
      | exact absurd hp id
      | simp [eqS, BOOL_SORT, INT_SORT, REAL_SORT, STR_SORT, REG_SORT, ROUNDING_MODE_SORT, bvSort, fpSort, arraySort,
          decSort, kind, name, arity, childArity, children, width]

/-- **C18, violated.**  All bit-vector sorts compare equal, whatever their widths, and so do all array sorts, whatever
their components; equality is not transitive (`Int`, `IntOrReal`, `Real`). -/
theorem eqS_violated :
    (∀ w w', eqS (bvSort w) (bvSort w') = true) ∧
    (∀ i e i' e', eqS (arraySort i e) (arraySort i' e') = true) ∧
    (eqS INT_SORT INTOREAL_SORT = true ∧ eqS INTOREAL_SORT REAL_SORT = true ∧ eqS INT_SORT REAL_SORT = false) := by
  refine ⟨fun _ _ => ?_, fun _ _ _ _ => ?_, ?_⟩
  · simp [eqS, bvSort, kind, name, arity]
  · simp [eqS, arraySort, kind, name, arity]
  · simp [eqS, INT_SORT, REAL_SORT, INTOREAL_SORT, kind, name, arity]

/-- On denoting sorts equality is transitive (the failure needs the internal `IntOrReal`). -/
theorem eqS_trans_partial {a b c : Srt} {d e f : D} (ha : Denotes a d) (hb : Denotes b e) (hc : Denotes c f)
    (h1 : eqS a b = true) (h2 : eqS b c = true) : eqS a c = true := by
  by_cases hp : Plain d
  · have := (eqS_exact_partial ha hb hp).mp h1
    subst this
    have := (eqS_exact_partial hb hc hp).mp h2
    subst this
    exact (eqS_exact_partial ha hc hp).mpr rfl
  · revert h1 h2
    cases ha <;> first | exact absurd trivial hp | skip
    all_goals
      cases hb <;> first
        | (intro h1; exfalso; revert h1
           simp [eqS, BOOL_SORT, INT_SORT, REAL_SORT, STR_SORT, REG_SORT, ROUNDING_MODE_SORT, bvSort, fpSort, arraySort,
            decSort, kind, name, arity]; done)
        | (intro _ h2; simpa [eqS, bvSort, arraySort, kind, name, arity] using h2)

/-! ## Printing determines the sort -/

/-- delimiters of printed sorts -/
def delim (c : Char) : Bool := c == ' ' || c == '(' || c == ')'

/-- names printed for built-in sorts -/
def builtin : List (List Char) := [cs!"Bool", cs!"Int", cs!"Real", cs!"String", cs!"RoundingMode"]

/-- A declared name that is a simple symbol and not the name of a built-in sort. -/
def GoodName (n : List Char) : Prop := n ≠ [] ∧ (∀ c ∈ n, delim c = false) ∧ n ∉ builtin

/-- every declared name in the sort is good -/
def Good : D → Prop
  | .named n => GoodName n
  | .array i e => Good i ∧ Good e
  | _ => True

/-- what follows a printed sort: nothing, or a delimiter -/
def Follow (r : List Char) : Prop := r = [] ∨ ∃ c r', r = c :: r' ∧ delim c = true

theorem dec_delim (n : Nat) : ∀ c ∈ dec n, delim c = false := by
  intro c hc
  have := dec_isDigit n c hc
  cases h : delim c with
  | false => rfl
  | true =>
    exfalso
    simp only [delim, Bool.or_eq_true, beq_iff_eq] at h
    rcases h with (rfl | rfl) | rfl <;> exact absurd this (by decide)

/-- words without delimiters are cut at the first delimiter -/
theorem word_cut : ∀ {u v r r' : List Char}, (∀ c ∈ u, delim c = false) → (∀ c ∈ v, delim c = false) →
    Follow r → Follow r' → u ++ r = v ++ r' → u = v ∧ r = r'
  | [], [], _, _, _, _, _, _, h => ⟨rfl, h⟩
  | a :: u, b :: v, r, r', hu, hv, hr, hr', h => by
    simp only [List.cons_append, List.cons.injEq] at h
    obtain ⟨e1, e2⟩ := word_cut (fun c hc => hu c (List.mem_cons_of_mem _ hc))
      (fun c hc => hv c (List.mem_cons_of_mem _ hc)) hr hr' h.2
    exact ⟨by rw [h.1, e1], e2⟩
  | [], b :: v, r, r', _, hv, hr, _, h => by
    rcases hr with rfl | ⟨c, s, rfl, hc⟩
    · simp at h
    · simp only [List.nil_append, List.cons_append, List.cons.injEq] at h
      rw [h.1, hv b List.mem_cons_self] at hc; cases hc
  | a :: u, [], r, r', hu, _, _, hr', h => by
    rcases hr' with rfl | ⟨c, s, rfl, hc⟩
    · simp at h
    · simp only [List.nil_append, List.cons_append, List.cons.injEq] at h
      rw [← h.1, hu a List.mem_cons_self] at hc; cases hc

/-- printed text of a denoting sort, by its SMT-LIB sort -/
def text : D → List Char
  | .bool => cs!"Bool"
  | .int => cs!"Int"
  | .real => cs!"Real"
  | .str => cs!"String"
  | .reg => cs!"(RegEx String)"
  | .rm => cs!"RoundingMode"
  | .bv w => cs!"(_ BitVec " ++ (dec w ++ cs!")")
  | .fp e s => cs!"(_ FloatingPoint " ++ (dec e ++ (cs!" " ++ (dec s ++ cs!")")))
  | .array i e => cs!"(Array " ++ (text i ++ (cs!" " ++ (text e ++ cs!")")))
  | .named n => n

theorem print_text {a : Srt} {d : D} (h : Denotes a d) : print a = text d := by
  induction h with
  | array _ _ ih1 ih2 => simp [print, printAt, arraySort, text, ih1, ih2]
  | _ => simp [print, text, BOOL_SORT, INT_SORT, REAL_SORT, STR_SORT, REG_SORT, ROUNDING_MODE_SORT, bvSort, fpSort, decSort,
      width, arity]

theorem word_good {n : List Char} (h : GoodName n) : ∀ c ∈ n, delim c = false := h.2.1

/-- a sort printed as a plain word -/
def word : D → Option (List Char)
  | .bool => some cs!"Bool"
  | .int => some cs!"Int"
  | .real => some cs!"Real"
  | .str => some cs!"String"
  | .rm => some cs!"RoundingMode"
  | .named n => some n
  | _ => none

theorem text_word {d : D} {n : List Char} (h : word d = some n) : text d = n := by
  cases d <;> simp_all [word, text]

theorem word_delim {d : D} {n : List Char} (h : word d = some n) (g : Good d) : n ≠ [] ∧ ∀ c ∈ n, delim c = false := by
  cases d <;> simp only [word, Option.some.injEq, reduceCtorEq] at h <;> subst h
  case named => exact ⟨g.1, g.2.1⟩
  all_goals exact ⟨by decide, by decide⟩

theorem word_inj {d e : D} {n : List Char} (hd : word d = some n) (he : word e = some n) (g : Good d) (g' : Good e) :
    d = e := by
  cases d <;> simp only [word, Option.some.injEq, reduceCtorEq] at hd <;> subst hd <;>
    cases e <;> simp only [word, Option.some.injEq, reduceCtorEq] at he <;>
    first
      | rfl
      | (subst he; rfl)
      | (exfalso; revert he; decide)
      | (exfalso; subst he; exact g'.2.2 (by decide))
      | (exfalso; subst he; exact g.2.2 (by decide))

theorem follow_close (r : List Char) : Follow (cs!")" ++ r) := .inr ⟨')', r, rfl, rfl⟩
theorem follow_space (r : List Char) : Follow (cs!" " ++ r) := .inr ⟨' ', r, rfl, rfl⟩

/-- a word is not a parenthesised sort -/
theorem word_paren {d : D} {n r s : List Char} (h : word d = some n) (g : Good d) : n ++ r ≠ '(' :: s := by
  intro e
  obtain ⟨h0, h1⟩ := word_delim h g
  cases n with
  | nil => exact h0 rfl
  | cons c n =>
    simp only [List.cons_append, List.cons.injEq] at e
    have := h1 c List.mem_cons_self
    rw [e.1] at this; exact absurd this (by decide)

theorem paren_of_noword {d : D} (h : word d = none) : ∃ s, text d = '(' :: s := by
  cases d <;> simp [word] at h <;> exact ⟨_, rfl⟩

theorem text_unique_word {d : D} {n : List Char} (hd : word d = some n) (e : D) (r r' : List Char) (gd : Good d)
    (ge : Good e) (hr : Follow r) (hr' : Follow r') (h : text d ++ r = text e ++ r') : d = e ∧ r = r' := by
  rw [text_word hd] at h
  cases hw : word e with
  | none =>
    obtain ⟨s, hs⟩ := paren_of_noword hw
    rw [hs] at h
    exact absurd h (word_paren hd gd)
  | some m =>
    rw [text_word hw] at h
    obtain ⟨e1, h⟩ := word_cut (word_delim hd gd).2 (word_delim hw ge).2 hr hr' h
    exact ⟨word_inj hd (by rw [hw, e1]) gd ge, h⟩

/-- unique readability of printed sorts -/
theorem text_unique : ∀ (d e : D) (r r' : List Char), Good d → Good e → Follow r → Follow r' →
    text d ++ r = text e ++ r' → d = e ∧ r = r' := by
  intro d
  induction d with
  | array i j ihi ihj =>
    intro e r r' gd ge hr hr' h
    cases hw : word e with
    | some n =>
      rw [text_word hw] at h
      exact absurd h.symm (by simpa [text] using word_paren (r := r') hw ge)
    | none =>
      cases e with
      | array i' j' =>
        simp only [text, List.append_assoc, List.append_cancel_left_eq] at h
        obtain ⟨e1, h⟩ := ihi i' _ _ gd.1 ge.1 (follow_space _) (follow_space _) h
        simp only [List.append_cancel_left_eq] at h
        obtain ⟨e2, h⟩ := ihj j' _ _ gd.2 ge.2 (follow_close _) (follow_close _) h
        simp only [List.append_cancel_left_eq] at h
        exact ⟨by rw [e1, e2], h⟩
      | _ => first | (simp [word] at hw; done) | (simp [text] at h; done)
  | bv w =>
    intro e r r' gd ge hr hr' h
    cases hw : word e with
    | some n =>
      rw [text_word hw] at h
      exact absurd h.symm (by simpa [text] using word_paren (r := r') hw ge)
    | none =>
      cases e with
      | bv w' =>
        simp only [text, List.append_assoc, List.append_cancel_left_eq] at h
        obtain ⟨e1, h⟩ := word_cut (dec_delim _) (dec_delim _) (follow_close _) (follow_close _) h
        simp only [List.append_cancel_left_eq] at h
        exact ⟨by rw [dec_inj e1], h⟩
      | _ => first | (simp [word] at hw; done) | (simp [text] at h; done)
  | fp x y =>
    intro e r r' gd ge hr hr' h
    cases hw : word e with
    | some n =>
      rw [text_word hw] at h
      exact absurd h.symm (by simpa [text] using word_paren (r := r') hw ge)
    | none =>
      cases e with
      | fp x' y' =>
        simp only [text, List.append_assoc, List.append_cancel_left_eq] at h
        obtain ⟨e1, h⟩ := word_cut (dec_delim _) (dec_delim _) (follow_space _) (follow_space _) h
        simp only [List.append_cancel_left_eq] at h
        obtain ⟨e2, h⟩ := word_cut (dec_delim _) (dec_delim _) (follow_close _) (follow_close _) h
        simp only [List.append_cancel_left_eq] at h
        exact ⟨by rw [dec_inj e1, dec_inj e2], h⟩
      | _ => first | (simp [word] at hw; done) | (simp [text] at h; done)
  | reg =>
    intro e r r' gd ge hr hr' h
    cases hw : word e with
    | some n =>
      rw [text_word hw] at h
      exact absurd h.symm (by simpa [text] using word_paren (r := r') hw ge)
    | none =>
      cases e with
      | reg =>
        simp only [text, List.append_cancel_left_eq] at h
        exact ⟨rfl, h⟩
      | _ => first | (simp [word] at hw; done) | (simp [text] at h; done)
  | _ =>
    intro e r r' gd ge hr hr' h
    exact text_unique_word rfl e r r' gd ge hr hr' h

/-- **C18.**  The printed form determines the SMT-LIB sort: two sort objects (with proper declared names) print the same
text exactly when they denote the same sort. -/
theorem print_exact {a b : Srt} {d e : D} (ha : Denotes a d) (hb : Denotes b e) (gd : Good d) (ge : Good e) :
    print a = print b ↔ d = e := by
  rw [print_text ha, print_text hb]
  constructor
  · intro h
    have := text_unique d e [] [] gd ge (.inl rfl) (.inl rfl) (by rw [h])
    exact this.1
  · rintro rfl; rfl

example : Denotes (arraySort INT_SORT (arraySort (bvSort 8) (decSort cs!"U" 0)))
      (.array .int (.array (.bv 8) (.named cs!"U"))) ∧
    Good (.array .int (.array (.bv 8) (.named cs!"U"))) := by
  refine ⟨.array .int (.array (.bv 8) (.named _)), trivial, trivial, by decide, by decide, by decide⟩

/-! ## The sort manager -/

/-- States of the manager: the static sorts, then any history of creation requests taken from `P`. -/
inductive Reach (h : Srt → Nat) (P : Srt → Prop) : List Srt → Prop where
  | init : Reach h P initSorts
  | step {st s} : Reach h P st → P s → Reach h P (insertSort h st s).2

theorem find_eq {h : Srt → Nat} {P : Srt → Prop} (hP : ∀ a b, P a → P b → h a = h b → a = b)
    {st : List Srt} {s : Srt} (hs : P s) (hst : ∀ p ∈ st, P p) :
    st.find? (fun p => h p == h s && eqS p s) = none ∧ s ∉ st ∨
    st.find? (fun p => h p == h s && eqS p s) = some s ∧ s ∈ st := by
  cases hf : st.find? (fun p => h p == h s && eqS p s) with
  | none =>
    left; refine ⟨rfl, fun hm => ?_⟩
    have := List.find?_eq_none.mp hf s hm
    simp [eqS_refl] at this
  | some p =>
    right
    have h1 := List.find?_some hf
    simp only [Bool.and_eq_true, beq_iff_eq] at h1
    have h2 := List.mem_of_find?_eq_some hf
    have := hP p s (hst p h2) hs h1.1
    subst this
    exact ⟨rfl, h2⟩

theorem initSorts_nodup : initSorts.Nodup := by
  simp only [initSorts, otherStatics, List.cons_append, List.nil_append, List.nodup_cons, List.mem_cons, BOOL_SORT, INT_SORT,
    REAL_SORT, INTOREAL_SORT, STR_SORT, REG_SORT, ROUNDING_MODE_SORT, fpSort, Srt.mk.injEq, reduceCtorEq, false_and,
    List.not_mem_nil, or_false, not_false_eq_true, List.nodup_nil, and_true, true_and]
  simp [width]

/-- **C18, deduplication.**  If the hash separates the sorts in play, then after any history of creation requests a
request returns a sort identical to the one requested, keeps every sort at its index, and never stores a sort
twice (so equal requests give the same object). -/
theorem manager_exact_partial (h : Srt → Nat) (P : Srt → Prop) (hP : ∀ a b, P a → P b → h a = h b → a = b)
    (hi : ∀ s ∈ initSorts, P s) {st : List Srt} (hr : Reach h P st) (s : Srt) (hs : P s) :
    (insertSort h st s).1 = s ∧ s ∈ (insertSort h st s).2 ∧ st <+: (insertSort h st s).2 ∧
    (insertSort h st s).2.Nodup := by
  have key : st.Nodup ∧ ∀ p ∈ st, P p := by
    induction hr with
    | init => exact ⟨initSorts_nodup, hi⟩
    | @step st t _ ht ih =>
      unfold insertSort
      rcases find_eq hP ht ih.2 with ⟨e, hn⟩ | ⟨e, hn⟩ <;> rw [e]
      · refine ⟨?_, ?_⟩
        · rw [List.nodup_append]
          exact ⟨ih.1, by simp, by rintro a ha b hb rfl; simp only [List.mem_singleton] at hb; exact hn (hb ▸ ha)⟩
        · intro p hp
          simp only [List.mem_append, List.mem_singleton] at hp
          rcases hp with hp | rfl
          · exact ih.2 p hp
          · exact ht
      · exact ih
  unfold insertSort
  rcases find_eq hP hs key.2 with ⟨e, hn⟩ | ⟨e, hn⟩ <;> rw [e]
  · refine ⟨rfl, by simp, List.prefix_append _ _, ?_⟩
    rw [List.nodup_append]
    exact ⟨key.1, by simp, by rintro a ha b hb rfl; simp only [List.mem_singleton] at hb; exact hn (hb ▸ ha)⟩
  · exact ⟨rfl, hn, List.prefix_refl _, key.1⟩

/-- **C18, deduplication violated.**  Because equality ignores widths, two bit-vector sorts whose hashes collide are
merged: the second request returns a sort of the first width. -/
theorem manager_violated (h : Srt → Nat) (w w' : Nat) (hc : h (bvSort w) = h (bvSort w')) :
    (insertSort h [bvSort w] (bvSort w')).1 = bvSort w := by
  simp [insertSort, hc, eqS_violated.1]

end SMT.Sorts
