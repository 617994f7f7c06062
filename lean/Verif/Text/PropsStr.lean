import Verif.Text.Str

/-!
# C11 and C12: folding and escaping of string literals

Specification: the functions of SMT-LIB's theory of strings, on lists of characters, stated by splitting lists.  `quote s` is the
literal with text `s`.  For a plain text (printable ASCII without backslash and quotation marks) the literal denotes the text
itself, both in SMT-LIB and for this library.
-/

namespace SMT.Str

/-! ## Specification -/

/-- a character that is written as itself -/
def Plain (c : Char) : Prop := 32 ≤ c.toNat ∧ c.toNat ≤ 126 ∧ c ≠ '\\' ∧ c ≠ '"' ∧ c ≠ '\''

/-- a character with a correct escape: printable ASCII or one of the named ones -/
def Good (c : Char) : Prop := (32 ≤ c.toNat ∧ c.toNat ≤ 126) ∨ c.toNat ∈ [0, 7, 8, 9, 10, 11, 12, 13]

/-- `t` occurs in `s` at position `j` -/
def At (s t : List Char) (j : Nat) : Prop := ∃ u v, s = u ++ t ++ v ∧ u.length = j

/-- `str.at` -/
def atSpec (s : List Char) (i : Int) : List Char :=
  if 0 ≤ i ∧ i < s.length then (s[i.toNat]?).toList else []

/-- `str.substr` -/
def substrSpec (s : List Char) (i n : Int) : List Char :=
  if 0 ≤ i ∧ i < s.length ∧ 0 < n then (s.drop i.toNat).take n.toNat else []

/-- `str.indexof s t i = r` -/
def IsIndexof (s t : List Char) (i r : Int) : Prop :=
  (∃ j : Nat, r = j ∧ i ≤ j ∧ 0 ≤ i ∧ At s t j ∧ ∀ k : Nat, i ≤ k → k < j → ¬ At s t k) ∨
  (r = -1 ∧ ∀ k : Nat, 0 ≤ i → i ≤ k → ¬ At s t k)

/-- `str.replace s t u = r` -/
def IsReplace (s t u r : List Char) : Prop :=
  (r = s ∧ ∀ k, ¬ At s t k) ∨
  (∃ a b, s = a ++ t ++ b ∧ r = a ++ u ++ b ∧ ∀ k, k < a.length → ¬ At s t k)

/-- `str.replace_all s t u = r` -/
inductive IsReplaceAll (t u : List Char) : List Char → List Char → Prop where
  | empty (s : List Char) : t = [] → IsReplaceAll t u s s
  | none (s : List Char) : (∀ k, ¬ At s t k) → IsReplaceAll t u s s
  | step (a b r : List Char) : t ≠ [] → (∀ k, k < a.length → ¬ At (a ++ t ++ b) t k) → IsReplaceAll t u b r →
      IsReplaceAll t u (a ++ t ++ b) (a ++ u ++ r)

/-- lexicographic order -/
inductive Lt : List Char → List Char → Prop where
  | nil (c : Char) (t : List Char) : Lt [] (c :: t)
  | head (a b : Char) (s t : List Char) : a.toNat < b.toNat → Lt (a :: s) (b :: t)
  | tail (a : Char) (s t : List Char) : Lt s t → Lt (a :: s) (a :: t)

/-! ## Basic facts -/

theorem strip_quote (s : List Char) : strip (quote s) = s := by
  have h : (quote s).getLast? = some '"' := by
    rw [quote, ← List.cons_append, List.getLast?_append]; simp
  unfold strip
  rw [if_pos ⟨rfl, h⟩]
  simp [quote]

theorem isPrefixOf_iff (t s : List Char) : t.isPrefixOf s = true ↔ ∃ v, s = t ++ v := by
  rw [List.isPrefixOf_iff_prefix]
  exact ⟨fun ⟨v, h⟩ => ⟨v, h.symm⟩, fun ⟨v, h⟩ => ⟨v, h.symm⟩⟩

theorem at_zero (s t : List Char) : At s t 0 ↔ t.isPrefixOf s = true := by
  rw [isPrefixOf_iff]
  constructor
  · rintro ⟨u, v, h, hl⟩
    have : u = [] := List.length_eq_zero_iff.mp hl
    subst this
    exact ⟨v, by simpa using h⟩
  · rintro ⟨v, h⟩; exact ⟨[], v, by simpa using h, rfl⟩

theorem at_succ (c : Char) (s t : List Char) (j : Nat) : At (c :: s) t (j + 1) ↔ At s t j := by
  constructor
  · rintro ⟨u, v, h, hl⟩
    cases u with
    | nil => simp at hl
    | cons d u =>
      simp only [List.cons_append, List.cons.injEq] at h
      exact ⟨u, v, h.2, by simpa using hl⟩
  · rintro ⟨u, v, h, hl⟩
    exact ⟨c :: u, v, by simp [h], by simp [hl]⟩

theorem at_nil_succ (t : List Char) (j : Nat) : ¬ At [] t (j + 1) := by
  rintro ⟨u, v, h, hl⟩
  have := congrArg List.length h
  simp only [List.length_nil, List.length_append] at this
  omega

theorem at_drop (s t : List Char) (p j : Nat) (hp : p ≤ s.length) : At (s.drop p) t j ↔ At s t (p + j) := by
  induction p generalizing s with
  | zero => simp
  | succ p ih =>
    cases s with
    | nil => simp at hp
    | cons c s =>
      simp only [List.length_cons] at hp
      rw [List.drop_succ_cons, ih s (by omega), show p + 1 + j = (p + j) + 1 by omega, at_succ]

theorem find_some (t : List Char) : ∀ (s : List Char) (j : Nat), find t s = some j → At s t j ∧ ∀ k, k < j → ¬ At s t k := by
  intro s
  induction s with
  | nil =>
    intro j h
    unfold find at h
    split at h
    · cases h; rename_i hp; exact ⟨(at_zero _ _).mpr hp, fun k hk => by omega⟩
    · cases h
  | cons c s ih =>
    intro j h
    unfold find at h
    split at h
    · cases h; rename_i hp; exact ⟨(at_zero _ _).mpr hp, fun k hk => by omega⟩
    · rename_i hp
      cases hf : find t s with
      | none => rw [hf] at h; cases h
      | some i =>
        rw [hf] at h; cases h
        obtain ⟨h1, h2⟩ := ih i hf
        refine ⟨(at_succ _ _ _ _).mpr h1, fun k hk => ?_⟩
        cases k with
        | zero => rw [at_zero]; exact hp
        | succ k => rw [at_succ]; exact h2 k (Nat.lt_of_succ_lt_succ hk)

theorem find_none (t : List Char) : ∀ (s : List Char), find t s = none → ∀ k, ¬ At s t k := by
  intro s
  induction s with
  | nil =>
    intro h k
    unfold find at h
    split at h
    · cases h
    · rename_i hp
      cases k with
      | zero => rw [at_zero]; exact hp
      | succ k => exact at_nil_succ t k
  | cons c s ih =>
    intro h k
    unfold find at h
    split at h
    · cases h
    · rename_i hp
      have hf : find t s = none := by
        cases hf : find t s with
        | none => rfl
        | some i => rw [hf] at h; cases h
      cases k with
      | zero => rw [at_zero]; exact hp
      | succ k => rw [at_succ]; exact ih hf k

theorem at_le {s t : List Char} {j : Nat} (h : At s t j) : j + t.length ≤ s.length := by
  obtain ⟨u, v, rfl, rfl⟩ := h
  simp only [List.length_append]; omega

/-! ## Escaping -/

theorem escChar_plain {c : Char} (h : Plain c) : escChar c = [c] := by
  obtain ⟨h1, h2, h3, h4, h5⟩ := h
  have n1 : c ≠ '\n' := by rintro rfl; revert h1; decide
  have n2 : c ≠ '\t' := by rintro rfl; revert h1; decide
  have n3 : c ≠ '\r' := by rintro rfl; revert h1; decide
  unfold escChar
  simp only [n1, n2, n3, h3, h4, h5, if_false]
  repeat rw [if_neg (by omega)]

theorem escape_plain {s : List Char} (h : ∀ c ∈ s, Plain c) : escape s = s := by
  induction s with
  | nil => rfl
  | cons c s ih =>
    unfold escape at *
    rw [List.flatMap_cons, escChar_plain (h c List.mem_cons_self), ih fun d hd => h d (List.mem_cons_of_mem _ hd)]
    rfl

theorem unescape_cons {a : Char} (h : a ≠ '\\') (s : List Char) : unescape (a :: s) = a :: unescape s := by
  unfold unescape
  rw [unescGo, if_neg h]

theorem unescGo_one (c : Char) (s : List Char) : unescGo 1 (c :: s) = unescGo 0 s := by
  rw [unescGo]

theorem unescape_plain {s : List Char} (h : ∀ c ∈ s, Plain c) : unescape s = s := by
  induction s with
  | nil => rfl
  | cons c s ih =>
    rw [unescape_cons (h c List.mem_cons_self).2.2.1, ih fun d hd => h d (List.mem_cons_of_mem _ hd)]

theorem unescape_named {c d : Char} (h : named c = some d) (s : List Char) : unescape ('\\' :: c :: s) = d :: unescape s := by
  unfold unescape
  rw [unescGo, if_pos rfl]
  simp only [List.head?_cons, h, unescGo_one]

/-- one escaped character is read back -/
theorem unescape_escChar {c : Char} (h : Good c) (s : List Char) : unescape (escChar c ++ s) = c :: unescape s := by
  have code : ∀ n, c.toNat = n → c = Char.ofNat n := by
    intro n e; rw [← e, Char.ofNat_toNat]
  have nb : ∀ x y : Char, named x = some y → escChar y = ['\\', x] → c = y → unescape (escChar c ++ s) = c :: unescape s := by
    intro x y h1 h2 h3; subst h3; rw [h2]; exact unescape_named h1 s
  by_cases n1 : c = '\n'
  · exact nb 'n' '\n' (by decide) (by decide) n1
  by_cases n2 : c = '\t'
  · exact nb 't' '\t' (by decide) (by decide) n2
  by_cases n3 : c = '\r'
  · exact nb 'r' '\r' (by decide) (by decide) n3
  by_cases n4 : c = '\\'
  · exact nb '\\' '\\' (by decide) (by decide) n4
  by_cases n5 : c = '"'
  · exact nb '"' '"' (by decide) (by decide) n5
  by_cases n6 : c = '\''
  · exact nb '\'' '\'' (by decide) (by decide) n6
  by_cases n7 : c = (Char.ofNat 0)
  · exact nb '0' (Char.ofNat 0) (by decide) (by decide) n7
  by_cases n8 : c = (Char.ofNat 7)
  · exact nb 'a' (Char.ofNat 7) (by decide) (by decide) n8
  by_cases n9 : c = (Char.ofNat 8)
  · exact nb 'b' (Char.ofNat 8) (by decide) (by decide) n9
  by_cases n10 : c = (Char.ofNat 12)
  · exact nb 'f' (Char.ofNat 12) (by decide) (by decide) n10
  by_cases n11 : c = (Char.ofNat 11)
  · exact nb 'v' (Char.ofNat 11) (by decide) (by decide) n11
  have hb : 32 ≤ c.toNat ∧ c.toNat ≤ 126 := by
    rcases h with h | h
    · exact h
    · exfalso
      simp only [List.mem_cons, List.not_mem_nil, or_false] at h
      rcases h with h | h | h | h | h | h | h | h
      · exact n7 (code _ h)
      · exact n8 (code _ h)
      · exact n9 (code _ h)
      · exact n2 (code _ h)
      · exact n1 (code _ h)
      · exact n11 (code _ h)
      · exact n10 (code _ h)
      · exact n3 (code _ h)
  rw [escChar_plain ⟨hb.1, hb.2, n4, n5, n6⟩]
  exact unescape_cons n4 s

/-- **C12.**  Escaping and unescaping gives the string back, for every string of printable ASCII characters and the named control
characters (null, bell, backspace, tab, newline, vertical tab, form feed, return). -/
theorem unescape_escape_partial (s : List Char) (h : ∀ c ∈ s, Good c) : unescape (escape s) = s := by
  induction s with
  | nil => rfl
  | cons c s ih =>
    have e : escape (c :: s) = escChar c ++ escape s := by unfold escape; rw [List.flatMap_cons]
    rw [e, unescape_escChar (h c List.mem_cons_self), ih fun d hd => h d (List.mem_cons_of_mem _ hd)]

/-- **C12, violated.**  Every other byte is replaced by the null character. -/
theorem unescape_escape_violated (c : Char) (h : ¬ Good c) : unescape (escape [c]) = [Char.ofNat 0] ∧ c ≠ Char.ofNat 0 := by
  have hb : c.toNat < 32 ∨ 126 < c.toNat := by
    by_cases h1 : 32 ≤ c.toNat ∧ c.toNat ≤ 126
    · exact absurd (.inl h1) h
    · omega
  have hm : c.toNat ∉ [0, 7, 8, 9, 10, 11, 12, 13] := fun q => h (.inr q)
  simp only [List.mem_cons, List.not_mem_nil, or_false, not_or] at hm
  have e : escChar c = ['\\', 'x', '0', c] := by
    unfold escChar
    have n1 : c ≠ '\n' := by rintro rfl; exact hm.2.2.2.2.1 rfl
    have n2 : c ≠ '\t' := by rintro rfl; exact hm.2.2.2.1 rfl
    have n3 : c ≠ '\r' := by rintro rfl; exact hm.2.2.2.2.2.2.2 rfl
    have n4 : c ≠ '\\' := by rintro rfl; revert hb; decide
    have n5 : c ≠ '"' := by rintro rfl; revert hb; decide
    have n6 : c ≠ '\'' := by rintro rfl; revert hb; decide
    simp only [n1, n2, n3, n4, n5, n6, hm.1, hm.2.1, hm.2.2.1, hm.2.2.2.2.2.1, hm.2.2.2.2.2.2.1, if_false, hb, if_true]
  have hx : hexVal c = none := by
    unfold hexVal
    rw [if_neg (by omega), if_neg (by omega), if_neg (by omega)]
  refine ⟨?_, fun q => hm.1 (by rw [q]; rfl)⟩
  unfold escape
  rw [List.flatMap_cons, e]
  simp only [List.flatMap_nil, List.append_nil]
  have hs : stoi16 '0' c = some 0 := by
    have h0 : isSpace '0' = false := by decide
    have h1 : hexVal '0' = some 0 := by decide
    unfold stoi16
    rw [if_neg (by simp [h0]), if_neg (by decide), if_neg (by decide), h1, hx]
  have hn : named 'x' = none := by decide
  unfold unescape
  rw [unescGo, if_pos rfl]
  simp only [List.head?_cons, hn, if_true, List.drop_succ_cons, List.drop_zero, hexPair, hs]
  simp only [unescGo]

theorem mkConstStr_quote (s : List Char) : mkConstStr (quote s) = quote (escape (unescape s)) := by
  have h : (quote s).getLast? = some '"' := by
    rw [quote, ← List.cons_append, List.getLast?_append]; simp
  unfold mkConstStr
  rw [if_pos ⟨by simp [quote], rfl, h⟩]
  simp [quote]

theorem mkConstStr_plain {s : List Char} (h : ∀ c ∈ s, Plain c) : mkConstStr (quote s) = quote s := by
  rw [mkConstStr_quote, unescape_plain h, escape_plain h]

/-- **C12.**  A literal of plain characters is stored as written. -/
theorem stored_plain_partial (s : List Char) (h : ∀ c ∈ s, Plain c) : mkConstStr (quote s) = quote s := mkConstStr_plain h

/-- **C12.**  For every literal whose characters (in the library's reading) have a correct escape, the stored literal stands for
the same characters, and storing the stored literal again changes nothing. -/
theorem stored_denotes_partial (s : List Char) (h : ∀ c ∈ unescape s, Good c) :
    ∃ s', mkConstStr (quote s) = quote s' ∧ unescape s' = unescape s ∧ mkConstStr (quote s') = quote s' := by
  refine ⟨escape (unescape s), mkConstStr_quote s, unescape_escape_partial _ h, ?_⟩
  rw [mkConstStr_quote, unescape_escape_partial _ h]

example : ∀ c ∈ unescape cs!"a\\n\\x41 it's \\q", Good c := by
  unfold Good; decide

/-- **C12, violated.**  In SMT-LIB, `it's` and `\q` are themselves (a backslash is an ordinary character unless followed by
`u`); the stored literals have another text. -/
theorem stored_violated : mkConstStr (quote cs!"it's") = quote cs!"it\\'s" ∧ mkConstStr (quote cs!"\\q") = quote cs!"\\\\q" ∧
    mkConstStr (quote cs!"\\x41") = quote cs!"A" := by decide

/-! ## C11: operators that are exact -/

/-- **C11.**  `str.prefixof`, `str.suffixof`, `str.contains` on any texts. -/
theorem tests_exact (s t : List Char) :
    (simp2 .prefixof (quote s) (quote t) = .ok (.bool true) ↔ ∃ v, t = s ++ v) ∧
    (simp2 .suffixof (quote s) (quote t) = .ok (.bool true) ↔ ∃ u, t = u ++ s) ∧
    (simp2 .contains (quote s) (quote t) = .ok (.bool true) ↔ ∃ u v, s = u ++ t ++ v) := by
  refine ⟨?_, ?_, ?_⟩
  · simp only [simp2, strPrefixof, strip_quote, Res.ok.injEq, Out.bool.injEq]
    split
    · rename_i h
      simp only [Bool.false_eq_true, false_iff, not_exists]
      rintro v rfl; simp at h; omega
    · simp only [beq_iff_eq]
      constructor
      · intro e; exact ⟨t.drop s.length, by conv => lhs; rw [← List.take_append_drop s.length t, e]⟩
      · rintro ⟨v, rfl⟩; simp
  · simp only [simp2, strSuffixof, strip_quote, Res.ok.injEq, Out.bool.injEq]
    split
    · rename_i h
      simp only [Bool.false_eq_true, false_iff, not_exists]
      rintro v rfl; simp at h; omega
    · rename_i h
      simp only [beq_iff_eq]
      have hl : (t.drop (t.length - s.length)).take s.length = t.drop (t.length - s.length) := by
        apply List.take_of_length_le; simp only [List.length_drop]; omega
      rw [hl]
      constructor
      · intro e; exact ⟨t.take (t.length - s.length), by conv => lhs; rw [← List.take_append_drop (t.length - s.length) t, e]⟩
      · rintro ⟨u, rfl⟩; simp
  · simp only [simp2, strContains, strip_quote, Res.ok.injEq, Out.bool.injEq]
    constructor
    · intro h
      obtain ⟨j, hj⟩ := Option.isSome_iff_exists.mp h
      obtain ⟨⟨u, v, e, _⟩, _⟩ := find_some t s j hj
      exact ⟨u, v, e⟩
    · rintro ⟨u, v, e⟩
      cases hf : find t s with
      | some _ => rfl
      | none => exact absurd ⟨u, v, e, rfl⟩ (find_none t s hf u.length)

/-- **C11.**  `str.replace` on plain texts. -/
theorem replace_exact_partial (s t u : List Char) (hs : ∀ c ∈ s, Plain c) (hu : ∀ c ∈ u, Plain c) :
    ∃ r, simpReplace (quote s) (quote t) (quote u) = .ok (.str (quote r)) ∧ IsReplace s t u r := by
  unfold simpReplace strReplace
  simp only [strip_quote]
  cases hf : find t s with
  | none => exact ⟨s, by simp only [mkConstStr_plain hs], .inl ⟨rfl, find_none t s hf⟩⟩
  | some j =>
    obtain ⟨⟨a, b, e, hl⟩, h2⟩ := find_some t s j hf
    have h1 : s.take j = a := by rw [e, ← hl, List.append_assoc]; simp
    have h3 : s.drop (j + t.length) = b := by
      rw [e, ← hl]
      have : a.length + t.length = (a ++ t).length := by simp
      rw [this, List.drop_left]
    refine ⟨a ++ u ++ b, ?_, .inr ⟨a, b, e, rfl, fun k hk => h2 k (hl ▸ hk)⟩⟩
    simp only [h1, h3]
    rw [mkConstStr_plain]
    intro c hc
    simp only [List.mem_append] at hc
    rcases hc with (hc | hc) | hc
    · exact hs c (by rw [e]; simp [hc])
    · exact hu c hc
    · exact hs c (by rw [e]; simp [hc])

theorem find_append_drop (d r t : List Char) : findFrom (d ++ r) t d.length = (find t r).map (· + d.length) := by
  unfold findFrom
  rw [if_neg (by simp), List.drop_left]

theorem replLoop_spec (t u : List Char) (ht : t ≠ []) : ∀ (n : Nat) (r d : List Char), r.length ≤ n →
    ∃ r', replLoop t u n (d ++ r) (findFrom (d ++ r) t d.length) = some (d ++ r') ∧ IsReplaceAll t u r r' := by
  intro n
  induction n with
  | zero =>
    intro r d h
    have : r = [] := List.length_eq_zero_iff.mp (by omega)
    subst this
    have hf : find t [] = none := by
      unfold find
      rw [if_neg]
      rw [isPrefixOf_iff]
      rintro ⟨v, e⟩
      have := congrArg List.length e
      simp only [List.length_nil, List.length_append] at this
      exact ht (List.length_eq_zero_iff.mp (by omega))
    rw [find_append_drop, hf]
    exact ⟨[], rfl, .none _ (find_none t [] hf)⟩
  | succ n ih =>
    intro r d h
    rw [find_append_drop]
    cases hf : find t r with
    | none => exact ⟨r, rfl, .none _ (find_none t r hf)⟩
    | some j =>
      obtain ⟨⟨a, b, e, hl⟩, h2⟩ := find_some t r j hf
      subst e
      have htl : 0 < t.length := by
        cases t with
        | nil => exact absurd rfl ht
        | cons _ _ => simp
      obtain ⟨r', h3, h4⟩ := ih b (d ++ a ++ u) (by simp only [List.length_append] at h; omega)
      refine ⟨a ++ u ++ r', ?_, .step a b r' ht (fun k hk => h2 k (hl ▸ hk)) h4⟩
      have e1 : (d ++ (a ++ t ++ b)).take (j + d.length) = d ++ a := by
        rw [← hl, show d ++ (a ++ t ++ b) = (d ++ a) ++ (t ++ b) by simp, List.take_left' (by simp; omega)]
      have e2 : (d ++ (a ++ t ++ b)).drop (j + d.length + t.length) = b := by
        rw [← hl, show d ++ (a ++ t ++ b) = (d ++ a ++ t) ++ b by simp, List.drop_left' (by simp; omega)]
      simp only [Option.map_some, replLoop, e1, e2]
      have e3 : j + d.length + u.length = (d ++ a ++ u).length := by simp; omega
      rw [e3, h3]
      simp

/-- a round of the loop with an empty pattern finds the pattern again -/
theorem replLoop_empty (u : List Char) : ∀ (n : Nat) (s : List Char) (p : Nat), p ≤ s.length →
    replLoop [] u n s (some p) = none := by
  intro n
  induction n with
  | zero => intro s p _; rfl
  | succ n ih =>
    intro s p hp
    simp only [replLoop, List.length_nil, Nat.add_zero]
    have hlen : p + u.length ≤ (s.take p ++ u ++ s.drop p).length := by
      simp only [List.length_append, List.length_take, List.length_drop]; omega
    have : findFrom (s.take p ++ u ++ s.drop p) [] (p + u.length) = some (p + u.length) := by
      unfold findFrom
      rw [if_neg (by omega)]
      have : ∀ l : List Char, find [] l = some 0 := by intro l; cases l <;> simp [find]
      rw [this]; simp
    rw [this]
    exact ih _ _ hlen

theorem replaceAll_plain {t u : List Char} (hu : ∀ c ∈ u, Plain c) {s r : List Char} (h : IsReplaceAll t u s r) :
    (∀ c ∈ s, Plain c) → ∀ c ∈ r, Plain c := by
  induction h with
  | empty s _ => exact id
  | none s _ => exact id
  | step a b r _ _ _ ih =>
    intro hs c hc
    simp only [List.mem_append] at hc
    rcases hc with (hc | hc) | hc
    · exact hs c (by simp [hc])
    · exact hu c hc
    · exact ih (fun d hd => hs d (by simp [hd])) c hc

/-- **C11.**  `str.replace_all` on plain texts with a nonempty pattern: the loop ends with the SMT-LIB value. -/
theorem replaceAll_exact_partial (s t u : List Char) (hs : ∀ c ∈ s, Plain c) (hu : ∀ c ∈ u, Plain c) (ht : t ≠ []) :
    ∃ r, SimpReplaceAll (quote s) (quote t) (quote u) (.str (quote r)) ∧ IsReplaceAll t u s r := by
  obtain ⟨r, h1, h2⟩ := replLoop_spec t u ht s.length s [] (Nat.le_refl _)
  refine ⟨r, ⟨quote r, ⟨s.length, r, ?_, rfl⟩, ?_⟩, h2⟩
  · simp only [strip_quote]
    have : findFrom ([] ++ s) t ([] : List Char).length = find t s := by rw [find_append_drop]; simp
    rw [this] at h1
    exact h1
  · rw [mkConstStr_plain (replaceAll_plain hu h2 hs)]

/-- **C11, violated.**  With an empty pattern `str.replace_all` never returns (SMT-LIB: the string itself). -/
theorem replaceAll_violated (s u : List Char) : (¬ ∃ o, SimpReplaceAll (quote s) (quote []) (quote u) o) ∧ IsReplaceAll [] u s s := by
  refine ⟨?_, .empty s rfl⟩
  rintro ⟨o, r, ⟨n, res, h, _⟩, _⟩
  simp only [strip_quote] at h
  have : ∀ l : List Char, find [] l = some 0 := by intro l; cases l <;> simp [find]
  rw [this, replLoop_empty u n s 0 (by omega)] at h
  cases h

/-- **C11.**  `str.indexof` for every start that fits in 64 bits and is not negative. -/
theorem indexof_exact_partial (s t : List Char) (i : Int) (h0 : 0 ≤ i) (h1 : i < ulongEnd) :
    ∃ r, simpIndexof (quote s) (quote t) i = .ok (.int r) ∧ IsIndexof s t i r := by
  have hu : toULong i = .ok i.toNat := by unfold toULong; rw [if_neg (by omega)]
  unfold simpIndexof strIndexof
  simp only [strip_quote, hu, Res.bind]
  by_cases hl : s.length < i.toNat
  · rw [if_pos hl]
    refine ⟨-1, rfl, .inr ⟨rfl, fun k _ hk ha => ?_⟩⟩
    have := at_le ha
    omega
  · rw [if_neg hl]
    unfold findFrom
    rw [if_neg hl]
    cases hf : find t (s.drop i.toNat) with
    | none =>
      refine ⟨-1, rfl, .inr ⟨rfl, fun k _ hk ha => ?_⟩⟩
      have := find_none t _ hf (k - i.toNat)
      rw [at_drop _ _ _ _ (by omega), show i.toNat + (k - i.toNat) = k by omega] at this
      exact this ha
    | some j =>
      obtain ⟨ha, hm⟩ := find_some t _ j hf
      rw [at_drop _ _ _ _ (by omega)] at ha
      refine ⟨((j + i.toNat : Nat) : Int), rfl, .inl ⟨j + i.toNat, rfl, by omega, h0, by rw [Nat.add_comm]; exact ha,
        fun k h2 h3 hk => ?_⟩⟩
      have := hm (k - i.toNat) (by omega)
      rw [at_drop _ _ _ _ (by omega), show i.toNat + (k - i.toNat) = k by omega] at this
      exact this hk

/-- **C11.**  `str.substr` on plain texts, for nonnegative 64-bit arguments. -/
theorem substr_exact_partial (s : List Char) (hs : ∀ c ∈ s, Plain c) (i n : Int) (h0 : 0 ≤ i) (h1 : i < ulongEnd) (h2 : 0 ≤ n)
    (h3 : n < ulongEnd) : simpSubstr (quote s) i n = .ok (.str (quote (substrSpec s i n))) := by
  have hi : toULong i = .ok i.toNat := by unfold toULong; rw [if_neg (by omega)]
  have hn : toULong n = .ok n.toNat := by unfold toULong; rw [if_neg (by omega)]
  unfold simpSubstr strSubstr substrSpec
  simp only [strip_quote, hi, hn, Res.bind]
  by_cases hl : s.length ≤ i.toNat
  · rw [if_pos hl, if_neg (by omega)]
    simp only
    rw [mkConstStr_plain (by simp)]
  · rw [if_neg hl]
    unfold substr
    rw [if_neg (by omega)]
    simp only
    have e : (s.drop i.toNat).take (if s.length < (i.toNat + n.toNat) % 18446744073709551616 then s.length - i.toNat else n.toNat)
        = if 0 ≤ i ∧ i < s.length ∧ 0 < n then (s.drop i.toNat).take n.toNat else [] := by
      split
      · rename_i hh
        have hle : s.length ≤ i.toNat + n.toNat := by
          have := Nat.mod_le (i.toNat + n.toNat) 18446744073709551616
          omega
        have hp : 0 < n := by omega
        rw [if_pos ⟨h0, by omega, hp⟩, List.take_of_length_le (by simp), List.take_of_length_le (by simp; omega)]
      · by_cases hp : 0 < n
        · rw [if_pos ⟨h0, by omega, hp⟩]
        · rw [if_neg (by omega)]
          have : n.toNat = 0 := by omega
          rw [this]; simp
    rw [e, mkConstStr_plain]
    intro c hc
    split at hc
    · exact hs c (List.mem_of_mem_drop (List.mem_of_mem_take hc))
    · cases hc

/-- **C11.**  `str.at` on plain texts, for positions up to the length. -/
theorem at_exact_partial (s : List Char) (hs : ∀ c ∈ s, Plain c) (i : Int) (h0 : 0 ≤ i) (h1 : i < ulongEnd) (hi : i ≤ s.length) :
    simpAt (quote s) i = .ok (.str (quote (atSpec s i))) := by
  have hu : toULong i = .ok i.toNat := by unfold toULong; rw [if_neg (by omega)]
  unfold simpAt strCharAt substr atSpec
  simp only [strip_quote, hu, Res.bind]
  rw [if_neg (by omega)]
  simp only
  have e : (s.drop i.toNat).take 1 = if 0 ≤ i ∧ i < s.length then (s[i.toNat]?).toList else [] := by
    split
    · rename_i h
      rw [List.drop_eq_getElem_cons (by omega), List.getElem?_eq_getElem (by omega)]
      rfl
    · rw [List.drop_eq_nil_of_le (by omega)]; rfl
  rw [e, mkConstStr_plain]
  intro c hc
  rw [← e] at hc
  exact hs c (List.mem_of_mem_drop (List.mem_of_mem_take hc))

/-- **C11, violated.**  Negative positions throw an exception (SMT-LIB: empty string, or -1), and so does `str.at` beyond the
end. -/
theorem positions_violated (s t : List Char) (i n : Int) :
    (i < 0 → simpAt (quote s) i = .throw ∧ simpSubstr (quote s) i n = .throw ∧ simpIndexof (quote s) (quote t) i = .throw ∧
      atSpec s i = [] ∧ substrSpec s i n = [] ∧ IsIndexof s t i (-1)) ∧
    (s.length < i → simpAt (quote s) i = .throw ∧ atSpec s i = []) ∧
    (0 ≤ i → n < 0 → simpSubstr (quote s) i n = .throw ∧ substrSpec s i n = []) := by
  refine ⟨fun h => ?_, fun h => ⟨?_, ?_⟩, fun h0 hn => ⟨?_, ?_⟩⟩
  · have hu : toULong i = .throw := by unfold toULong; rw [if_pos (by omega)]
    refine ⟨by simp [simpAt, strCharAt, hu, Res.bind], by simp [simpSubstr, strSubstr, hu, Res.bind],
      by simp [simpIndexof, strIndexof, hu, Res.bind], by unfold atSpec; rw [if_neg (by omega)],
      by unfold substrSpec; rw [if_neg (by omega)], .inr ⟨rfl, fun k h1 _ => by omega⟩⟩
  · unfold simpAt strCharAt toULong
    split
    · rfl
    · simp only [Res.bind, substr, strip_quote]
      rw [if_pos (by omega)]
  · unfold atSpec; rw [if_neg (by omega)]
  · have hu : toULong n = .throw := by unfold toULong; rw [if_pos (by omega)]
    simp only [simpSubstr, strSubstr, hu]
    unfold toULong
    split <;> rfl
  · unfold substrSpec; rw [if_neg (by omega)]

theorem ofNat_toNat' {n : Nat} (h : n < 256) : (Char.ofNat n).toNat = n := by
  have hv : n.isValidChar := by left; omega
  simp only [Char.ofNat, dif_pos hv]
  rfl

theorem lower_plain {c : Char} (h : Plain c) : Plain (lower c) := by
  unfold lower
  split
  · rename_i hc
    have hv : (Char.ofNat (c.toNat + 32)).toNat = c.toNat + 32 := ofNat_toNat' (by omega)
    refine ⟨by omega, by omega, ?_, ?_, ?_⟩ <;> intro e <;> rw [e] at hv
    · have : ('\\' : Char).toNat = 92 := rfl
      omega
    · have : ('"' : Char).toNat = 34 := rfl
      omega
    · have : ('\'' : Char).toNat = 39 := rfl
      omega
  · exact h

theorem upper_plain {c : Char} (h : Plain c) : Plain (upper c) := by
  unfold upper
  split
  · rename_i hc
    have hv : (Char.ofNat (c.toNat - 32)).toNat = c.toNat - 32 := ofNat_toNat' (by omega)
    refine ⟨by omega, by omega, ?_, ?_, ?_⟩ <;> intro e <;> rw [e] at hv
    · have : ('\\' : Char).toNat = 92 := rfl
      omega
    · have : ('"' : Char).toNat = 34 := rfl
      omega
    · have : ('\'' : Char).toNat = 39 := rfl
      omega
  · exact h

/-- **C11.**  Reversal, concatenation and case conversion of plain texts.  `d` is the case-converted text when each of its
characters is the converted character (`A`–`Z` to `a`–`z`, all others unchanged). -/
theorem rev_concat_case_exact_partial (s t : List Char) (hs : ∀ c ∈ s, Plain c) (ht : ∀ c ∈ t, Plain c) :
    simp1 .rev (quote s) = .ok (.str (quote s.reverse)) ∧
    simp2 .concat (quote s) (quote t) = .ok (.str (quote (s ++ t))) ∧
    (∃ d, simp1 .toLower (quote s) = .ok (.str (quote d)) ∧ d.length = s.length ∧
      ∀ (k : Nat) (c : Char), s[k]? = some c → ∃ e : Char, d[k]? = some e ∧
        ((65 ≤ c.toNat ∧ c.toNat ≤ 90 ∧ e.toNat = c.toNat + 32) ∨ (¬ (65 ≤ c.toNat ∧ c.toNat ≤ 90) ∧ e = c))) ∧
    (∃ d, simp1 .toUpper (quote s) = .ok (.str (quote d)) ∧ d.length = s.length ∧
      ∀ (k : Nat) (c : Char), s[k]? = some c → ∃ e : Char, d[k]? = some e ∧
        ((97 ≤ c.toNat ∧ c.toNat ≤ 122 ∧ e.toNat + 32 = c.toNat) ∨ (¬ (97 ≤ c.toNat ∧ c.toNat ≤ 122) ∧ e = c))) := by
  refine ⟨?_, ?_, ⟨s.map lower, ?_, by simp, fun k c hc => ⟨lower c, by simp [hc], ?_⟩⟩,
    ⟨s.map upper, ?_, by simp, fun k c hc => ⟨upper c, by simp [hc], ?_⟩⟩⟩
  · simp only [simp1, strRev, strip_quote]
    rw [mkConstStr_plain (by intro c hc; exact hs c (List.mem_reverse.mp hc))]
  · have h : (quote s).getLast? = some '"' := by
      rw [quote, ← List.cons_append, List.getLast?_append]; simp
    simp only [simp2]
    rw [if_pos ⟨h, rfl⟩]
    have e : (quote s).dropLast ++ (quote t).drop 1 = quote (s ++ t) := by
      have : (quote s).dropLast = '"' :: s := by
        rw [quote, ← List.cons_append, List.dropLast_concat]
      rw [this]; simp [quote]
    rw [e, mkConstStr_plain]
    intro c hc
    rcases List.mem_append.mp hc with hc | hc
    · exact hs c hc
    · exact ht c hc
  · simp only [simp1, strToLower, strip_quote]
    rw [mkConstStr_plain]
    intro c hc
    obtain ⟨d, hd, rfl⟩ := List.mem_map.mp hc
    exact lower_plain (hs d hd)
  · unfold lower
    split
    · rename_i h
      exact .inl ⟨h.1, h.2, ofNat_toNat' (by omega)⟩
    · rename_i h; exact .inr ⟨h, rfl⟩
  · simp only [simp1, strToUpper, strip_quote]
    rw [mkConstStr_plain]
    intro c hc
    obtain ⟨d, hd, rfl⟩ := List.mem_map.mp hc
    exact upper_plain (hs d hd)
  · unfold upper
    split
    · rename_i h
      refine .inl ⟨h.1, h.2, ?_⟩
      rw [ofNat_toNat' (by omega)]; omega
    · rename_i h; exact .inr ⟨h, rfl⟩

/-! ## Order -/

theorem char_ext {a b : Char} (h1 : ¬ a.toNat < b.toNat) (h2 : ¬ b.toNat < a.toNat) : a = b := by
  have : a.toNat = b.toNat := by omega
  rw [← Char.ofNat_toNat a, this, Char.ofNat_toNat]

/-- the closing quotation mark decides like the end of the text when all characters are greater than it -/
theorem ltStr_close (s t : List Char) (hs : ∀ c ∈ s, 34 < c.toNat) (ht : ∀ c ∈ t, 34 < c.toNat) :
    ltStr (s ++ ['"']) (t ++ ['"']) = true ↔ Lt s t := by
  induction s generalizing t with
  | nil =>
    cases t with
    | nil =>
      constructor
      · intro h; exact absurd h (by decide)
      · intro h; cases h
    | cons b t =>
      have := ht b List.mem_cons_self
      simp only [List.nil_append, List.cons_append, ltStr]
      rw [if_pos (by show 34 < _; exact this)]
      simp only [true_iff]
      exact .nil b t
  | cons a s ih =>
    have ha := hs a List.mem_cons_self
    cases t with
    | nil =>
      simp only [List.nil_append, List.cons_append, ltStr]
      rw [if_neg (by show ¬ _ < 34; omega), if_pos (by show 34 < _; exact ha)]
      simp only [Bool.false_eq_true, false_iff]
      intro h; cases h
    | cons b t =>
      simp only [List.cons_append, ltStr]
      split
      · rename_i h; simp only [true_iff]; exact .head a b s t h
      · rename_i h1
        split
        · rename_i h2
          simp only [Bool.false_eq_true, false_iff]
          intro h
          cases h with
          | head _ _ _ _ h => omega
          | tail _ _ _ h => omega
        · rename_i h2
          have := char_ext h1 h2
          subst this
          rw [ih t (fun c hc => hs c (List.mem_cons_of_mem _ hc)) (fun c hc => ht c (List.mem_cons_of_mem _ hc))]
          constructor
          · exact .tail a s t
          · intro h
            cases h with
            | head _ _ _ _ h => omega
            | tail _ _ _ h => exact h

theorem lt_total (s t : List Char) : ¬ Lt t s ↔ Lt s t ∨ s = t := by
  induction s generalizing t with
  | nil =>
    cases t with
    | nil => simp; intro h; cases h
    | cons b t =>
      constructor
      · intro _; exact .inl (.nil b t)
      · intro _ h; cases h
  | cons a s ih =>
    cases t with
    | nil => 
      constructor
      · intro h; exact absurd (Lt.nil a s) h
      · rintro (h | h) <;> cases h
    | cons b t =>
      constructor
      · intro h
        by_cases h1 : a.toNat < b.toNat
        · exact .inl (.head a b s t h1)
        · by_cases h2 : b.toNat < a.toNat
          · exact absurd (.head b a t s h2) h
          · have := char_ext h1 h2
            subst this
            rcases (ih t).mp (fun q => h (.tail a t s q)) with q | q
            · exact .inl (.tail a s t q)
            · exact .inr (by rw [q])
      · rintro (h | h) h'
        · cases h with
          | head _ _ _ _ h =>
            cases h' with
            | head _ _ _ _ h' => omega
            | tail _ _ _ h' => omega
          | tail _ _ _ h =>
            cases h' with
            | head _ _ _ _ h' => omega
            | tail _ _ _ h' => exact (ih t).mpr (.inl h) h'
        · cases h
          cases h' with
          | head _ _ _ _ h' => omega
          | tail _ _ _ h' => exact (ih s).mpr (.inr rfl) h'

/-- **C11.**  `str.<` and `str.<=` on texts whose characters all come after the quotation mark in ASCII. -/
theorem order_exact_partial (s t : List Char) (hs : ∀ c ∈ s, 34 < c.toNat) (ht : ∀ c ∈ t, 34 < c.toNat) :
    (simp2 .lt (quote s) (quote t) = .ok (.bool true) ↔ Lt s t) ∧
    (simp2 .le (quote s) (quote t) = .ok (.bool true) ↔ Lt s t ∨ s = t) := by
  have e : ∀ s t : List Char, ltStr (quote s) (quote t) = ltStr (s ++ ['"']) (t ++ ['"']) := by
    intro s t
    simp [quote, ltStr]
  constructor
  · simp only [simp2, Res.ok.injEq, Out.bool.injEq, e]
    exact ltStr_close s t hs ht
  · simp only [simp2, Res.ok.injEq, Out.bool.injEq, e, Bool.not_eq_true', ← lt_total, ← ltStr_close t s ht hs,
      Bool.not_eq_true]

/-- **C11, violated.**  The quotation marks take part in the comparison: `"a"` is not less than `"a b"`. -/
theorem order_violated : simp2 .lt (quote cs!"a") (quote cs!"a b") = .ok (.bool false) ∧ Lt cs!"a" cs!"a b" :=
  ⟨by decide, .tail _ _ _ (.nil _ _)⟩

/-- **C11, violated.**  `str.len` counts the quotation marks. -/
theorem len_violated (s : List Char) : simp1 .len (quote s) = .ok (.int (s.length + 2)) := by
  simp only [simp1, quote, List.length_cons, List.length_append, List.length_nil, Res.ok.injEq, Out.int.injEq]
  omega

/-- **C11, violated.**  `str.is_digit` of a literal is always false, `str.to_code` of a literal always ends the process, and
`str.from_code` produces a node whose name is not a literal. -/
theorem code_violated (s : List Char) : simp1 .isDigit (quote s) = .ok (.bool false) ∧ simp1 .toCode (quote s) = .abort ∧
    ∀ n o, fromCode n = .ok o → ∀ t, o ≠ .str (quote t) := by
  refine ⟨?_, ?_, ?_⟩
  · simp only [simp1, quote, isIntTok]
    have : ('"' == '-' || '"' == '+' || Char.isDigit '"') = false := by decide
    rw [this]; rfl
  · cases s <;> rfl
  · intro n o h t e
    unfold fromCode at h
    split at h
    · cases h
      have := Out.str.inj e
      have hl := congrArg List.length this
      simp [mkConstStr, quote] at hl
    · cases h

/-- **C11, violated.**  The functions work on the escaped text: reversing the stored form of `"a'b"` gives the characters
`b`, `'`, bell. -/
theorem escaped_violated : simp1 .rev (mkConstStr (quote cs!"a'b")) = .ok (.str (quote cs!"b\\'\\a")) ∧
    unescape cs!"b\\'\\a" = ['b', '\'', Char.ofNat 7] := by decide

/-! ## Cases that meet the hypotheses -/

example : (∀ c ∈ cs!"Hello World", Plain c) ∧ (∀ c ∈ cs!"Hello", 34 < c.toNat) := by
  simp [Plain]

example : simpSubstr (quote cs!"Hello World") 6 100 = .ok (.str (quote cs!"World")) := by decide

end SMT.Str
