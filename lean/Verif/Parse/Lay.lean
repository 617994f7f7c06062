import Verif.Parse.Spec

/-! # Reading words (lemmas for C41, C52, C53) -/

namespace SMT.Parse
open SMT SMT.Text SMT.Lex SMT.Sorts

set_option linter.unusedSimpArgs false
set_option linter.unusedVariables false

/-- the parser with its cursor moved to the first word of the text -/
def P.at (p : P) (l : Nat) (s : List Char) : P := { p with lex := scan l s }

theorem blank_not_nl {c : Char} (h : isNl c = true) : isBlank c = false := by
  simp only [isNl, isBlank, Bool.or_eq_true, beq_iff_eq, Bool.or_eq_false_iff, beq_eq_false_iff_ne] at h ⊢
  rcases h with ((rfl | rfl) | rfl) | rfl <;> decide

theorem scan_ws {c : Char} (l : Nat) (s : List Char) (h : isBlank c = true) : scan l (c :: s) = scan l s := by
  have h2 : isNl c = false := by
    cases h3 : isNl c with
    | false => rfl
    | true => rw [blank_not_nl h3] at h; cases h
  simp [scan, scanGo, h, h2]
theorem scan_nl {c : Char} (l : Nat) (s : List Char) (h : isNl c = true) : scan l (c :: s) = scan (l + 1) s := by
  simp [scan, scanGo, h]

theorem scan_comment_end {c : Char} {s : List Char} (hc : isNl c = true) : ∀ (b : List Char) (l : Nat), (∀ x ∈ b, isNl x = false) →
    scanGo .comment l (b ++ c :: s) = scanGo .common (l + 1) s
  | [], l, _ => by simp [scanGo, hc]
  | x :: b, l, h => by
    have := h x (by simp)
    simp [scanGo, this, scan_comment_end hc b l fun y hy => h y (by simp [hy])]

/-- gaps do not matter -/
theorem scan_skip {g : List Char} (h : Skip g) : ∀ (l : Nat) (s : List Char), scan l (g ++ s) = scan (l + nls g) s := by
  induction h with
  | nil => intro l s; simp
  | ws h _ ih =>
    intro l s
    rename_i c g _
    rcases h with h | h
    · have h2 : isNl c = false := by
        cases h3 : isNl c with
        | false => rfl
        | true => rw [blank_not_nl h3] at h; cases h
      simp [scan_ws _ _ h, ih, nls_cons, h2]
    · simp [scan_nl _ _ h, ih, nls_cons, h, Nat.add_assoc]
  | comment h1 h2 _ ih =>
    intro l s
    rename_i b c g _
    have : scan l (';' :: (b ++ c :: g) ++ s) = scan (l + 1) (g ++ s) := by
      have := scan_comment_end (s := g ++ s) h2 b l h1
      simp only [scan, List.cons_append, List.append_assoc]
      rw [scanGo]
      simpa [isNl, isBlank] using this
    rw [this, ih]
    simp only [nls_cons, nls_append, h2, nls_zero h1]
    simp [isNl, Nat.add_assoc]

/-- a word stays where it is -/
theorem scan_word {c : Char} (l : Nat) (s : List Char) (h1 : isBlank c = false) (h2 : isNl c = false) (h3 : c ≠ ';') :
    scan l (c :: s) = ⟨c :: s, modeOf c, l⟩ := by
  unfold scan
  rw [scanGo]
  simp only [h1, h2, h3, modeOf]
  by_cases h4 : c = '|'
  · simp [h4]
  · by_cases h5 : c = '"' <;> simp [h4, h5]

theorem scan_lp (l : Nat) (s : List Char) : scan l ('(' :: s) = ⟨'(' :: s, .symbol, l⟩ := scan_word l s (by decide) (by decide) (by decide)
theorem scan_rp (l : Nat) (s : List Char) : scan l (')' :: s) = ⟨')' :: s, .symbol, l⟩ := scan_word l s (by decide) (by decide) (by decide)

/-- the first character of a word or a list -/
def Start (c : Char) : Prop := isBlank c = false ∧ isNl c = false ∧ c ≠ ';'

theorem at_rest (p : P) (l : Nat) {c : Char} (s : List Char) (h : Start c) : (p.at l (c :: s)).lex = ⟨c :: s, modeOf c, l⟩ :=
  scan_word l s h.1 h.2.1 h.2.2
theorem cur_at (p : P) (l : Nat) {c : Char} (s : List Char) (h : Start c) : (p.at l (c :: s)).cur = some c := by
  simp [P.cur, at_rest p l s h]
theorem skip_at (p : P) (l : Nat) {c : Char} (s : List Char) (h : Start c) : skip (p.at l (c :: s)) = p.at l (c :: s) := by
  unfold skip
  rw [at_rest p l s h]
  rfl
theorem start_lp : Start '(' := ⟨by decide, by decide, by decide⟩
theorem start_rp : Start ')' := ⟨by decide, by decide, by decide⟩
theorem at_gap (p : P) (l : Nat) {g : List Char} (s : List Char) (h : Skip g) : p.at l (g ++ s) = p.at (l + nls g) s := by
  unfold P.at; rw [scan_skip h]
theorem lpar_at (p : P) (l : Nat) (s : List Char) : lpar (p.at l ('(' :: s)) = .ok (p.at l s) := by
  unfold lpar; rw [at_rest p l s start_lp]; rfl
theorem rpar_at (p : P) (l : Nat) (s : List Char) : rpar (p.at l (')' :: s)) = .ok (p.at l s) := by
  unfold rpar; rw [at_rest p l s start_rp]; rfl

/-- the first character of a word -/
theorem Tok.head {a : List Char} (h : Tok a) : ∃ c w, a = c :: w ∧ Start c ∧ c ≠ '(' ∧ c ≠ ')' := by
  cases h with
  | plain h1 h2 _ =>
    cases a with
    | nil => exact absurd rfl h1
    | cons c w =>
      have := h2 c (by simp)
      simp only [isDelim, Bool.or_eq_false_iff, beq_eq_false_iff_ne] at this
      obtain ⟨⟨⟨⟨⟨⟨c1, c2⟩, c3⟩, c4⟩, c5⟩, c6⟩, c7⟩ := this
      exact ⟨c, w, rfl, ⟨c1, c2, c3⟩, c6, c7⟩
  | quoted _ => exact ⟨_, _, rfl, ⟨by decide, by decide, by decide⟩, by decide, by decide⟩
  | str _ => exact ⟨_, _, rfl, ⟨by decide, by decide, by decide⟩, by decide, by decide⟩

theorem symGo_end (line : Nat) : ∀ (w acc : List Char), (∀ c ∈ w, isDelim c = false) → NoSci (acc ++ w) →
    symGo false acc line w = .ok (acc ++ w, scan line [])
  | [], acc, _, hn => by simp [symGo, eof]
  | c :: w, acc, hw, hn => by
    have h0 : startsSci acc = false := hn acc (by simp)
    have hc := hw c (by simp)
    simp only [isDelim, Bool.or_eq_false_iff, beq_eq_false_iff_ne] at hc
    obtain ⟨⟨⟨⟨⟨⟨c1, c2⟩, c3⟩, c4⟩, c5⟩, c6⟩, c7⟩ := hc
    have ih := symGo_end line w (acc ++ [c]) (fun x hx => hw x (by simp [hx])) (by simpa using hn)
    simp only [symGo, h0, c1, c2, c3, c4, c5, c6, c7]
    simpa using ih

/-- a word is read whole, and the cursor moves to the next word -/
theorem getSymbol_at (file : Bool) (l : Nat) {a : List Char} (r : List Char) (h : Tok a) (hs : Sep file a r) :
    getSymbol file (scan l (a ++ r)) = .ok (a, scan (l + nls a) r) := by
  cases h with
  | plain h1 h2 h3 =>
    cases a with
    | nil => exact absurd rfl h1
    | cons c w =>
      obtain ⟨c', w', e, hc, _, _⟩ := (Tok.plain h1 h2 h3).head
      injection e with e1 e2; subst e1 e2
      have hd := h2 c (by simp)
      simp only [isDelim, Bool.or_eq_false_iff, beq_eq_false_iff_ne] at hd
      obtain ⟨⟨⟨⟨⟨⟨c1, c2⟩, c3⟩, c4⟩, c5⟩, c6⟩, c7⟩ := hd
      have hn : nls (c :: w) = 0 := nls_zero fun x hx => by
        have := h2 x hx
        simp only [isDelim, Bool.or_eq_false_iff] at this
        exact this.1.1.1.1.1.2
      have hm : modeOf c = .symbol := by simp [modeOf, c4, c5]
      rw [List.cons_append, scan_word l _ hc.1 hc.2.1 hc.2.2, hm, hn, Nat.add_zero]
      have hs' : SepPlain file r := by
        simp only [Sep, List.head?_cons] at hs
        split at hs
        · rename_i he; injection he with he; exact absurd he c4
        · rename_i he; injection he with he; exact absurd he c5
        · exact hs
      cases r with
      | nil =>
        simp only [SepPlain] at hs'
        subst hs'
        simp only [List.append_nil, getSymbol]
        exact symGo_end l w [c] (fun x hx => h2 x (by simp [hx])) h3
      | cons d r =>
        simp only [SepPlain] at hs'
        have hdd : isDelim d = true := by
          rcases hs' with h | h | h | h <;> simp [isDelim, h]
        obtain ⟨st', e1, e2, e3, e4, _⟩ := getSymbol_symbol_partial file l c w d r (fun x hx => h2 x (by simp [hx])) hdd h3
        rw [e1]
        rcases hs' with h | h | h
        · rw [e2 h, scan_ws _ _ h]
        · rw [e3 h, scan_nl _ _ h]
        · rw [e4 h]
          rcases h with rfl | rfl
          · rw [scan_lp]
          · rw [scan_rp]
  | quoted h =>
    rename_i b
    have := (getSymbol_quoted file l b r h).1
    rw [List.cons_append, List.append_assoc, List.singleton_append, scan_word _ _ (by decide) (by decide) (by decide),
      show modeOf '|' = .compSym from rfl, this]
    simp [nls_cons, nls_append, isNl]
  | str h =>
    rename_i b
    have hr : r.head? ≠ some '"' := by simpa [Sep] using hs
    have := (getSymbol_string file l b r h hr).1
    rw [List.cons_append, List.append_assoc, List.singleton_append, scan_word _ _ (by decide) (by decide) (by decide),
      show modeOf '"' = .string from rfl, this]
    simp [nls_cons, nls_append, isNl]

theorem sym_at (cfg : Cfg) (p : P) (l : Nat) {a : List Char} (r : List Char) (h : Tok a) (hs : Sep cfg.file a r) :
    sym cfg (p.at l (a ++ r)) = .ok (a, p.at (l + nls a) r) := by
  unfold sym
  rw [show (p.at l (a ++ r)).lex = scan l (a ++ r) from rfl, getSymbol_at cfg.file l r h hs]
  rfl

/-- the first character of a laid out S-expression -/
theorem Lay.head {file : Bool} {x : Sexp} {tx : List Char} (h : Lay file x tx) :
    ∃ c w, tx = c :: w ∧ Start c ∧ c ≠ ')' ∧ (c = '(' ↔ ∃ xs, x = .list xs) := by
  cases h with
  | atom h =>
    obtain ⟨c, w, e, h1, h2, h3⟩ := h.head
    exact ⟨c, w, e, h1, h3, ⟨fun h => absurd h h2, fun ⟨xs, h⟩ => (by cases h)⟩⟩
  | list _ _ => exact ⟨_, _, rfl, start_lp, by decide, fun _ => ⟨_, rfl⟩, fun _ => rfl⟩

/-- a list laid out, taken apart: the text after the opening parenthesis is a gap, the parts and the closing parenthesis -/
theorem Lay.list_inv {file : Bool} {xs : List Sexp} {tx : List Char} (h : Lay file (.list xs) tx) :
    ∃ g b, tx = '(' :: (g ++ (b ++ [')'])) ∧ Skip g ∧ LayL file xs b := by
  cases h with
  | list h1 h2 => exact ⟨_, _, rfl, h1, h2⟩
theorem Lay.atom_inv {file : Bool} {a tx : List Char} (h : Lay file (.atom a) tx) : tx = a ∧ Tok a := by
  cases h with
  | atom h => exact ⟨rfl, h⟩
theorem LayL.nil_inv {file : Bool} {b : List Char} (h : LayL file [] b) : b = [] := by cases h; rfl
theorem LayL.cons_inv {file : Bool} {x : Sexp} {xs : List Sexp} {b : List Char} (h : LayL file (x :: xs) b) :
    ∃ tx g b', b = tx ++ (g ++ b') ∧ Lay file x tx ∧ Skip g ∧ LayL file xs b' ∧ SepX file x (g ++ (b' ++ [')'])) := by
  cases h with
  | cons h1 h2 h3 h4 => exact ⟨_, _, _, rfl, h1, h2, h3, h4⟩

theorem Sep.more {file : Bool} {a r : List Char} (h : Sep file a r) (hr : r ≠ []) (s : List Char) : Sep file a (r ++ s) := by
  cases r with
  | nil => exact absurd rfl hr
  | cons d r => simpa [Sep, SepPlain] using h
theorem SepX.more {file : Bool} {x : Sexp} {r : List Char} (h : SepX file x r) (hr : r ≠ []) (s : List Char) : SepX file x (r ++ s) := by
  cases x with
  | atom a => exact Sep.more h hr s
  | list xs => trivial

@[simp] theorem at_ph (p : P) (l : Nat) (s : List Char) : (p.at l s).ph = p.ph := rfl
@[simp] theorem at_keys (p : P) (l : Nat) (s : List Char) : (p.at l s).keys = p.keys := rfl
@[simp] theorem at_bound (p : P) (l : Nat) (s : List Char) : (p.at l s).bound = p.bound := rfl
@[simp] theorem at_depth (p : P) (l : Nat) (s : List Char) : (p.at l s).depth = p.depth := rfl

/-- an opening parenthesis is read -/
theorem open_at {cfg : Cfg} {xs : List Sexp} {tx : List Char} (h : Lay cfg.file (.list xs) tx) (p : P) (l : Nat) (r : List Char) :
    ∃ b g, LayL cfg.file xs b ∧ (p.at l (tx ++ r)).cur = some '(' ∧ lpar (p.at l (tx ++ r)) = .ok (p.at (l + nls g) (b ++ ')' :: r)) ∧
      nls tx = nls g + nls b := by
  obtain ⟨g, b, rfl, h1, h2⟩ := h.list_inv
  refine ⟨b, g, h2, cur_at _ _ _ start_lp, ?_, ?_⟩
  · simp only [List.cons_append, List.append_assoc, List.singleton_append]
    rw [lpar_at, at_gap _ _ _ h1]
    simp
  · simp [nls_cons, nls_append, isNl]

/-- a word of a list is read -/
theorem word_at {cfg : Cfg} {a : List Char} {xs : List Sexp} {b : List Char} (h : LayL cfg.file (.atom a :: xs) b) (p : P) (l : Nat)
    (r : List Char) : ∃ b' l', LayL cfg.file xs b' ∧ sym cfg (p.at l (b ++ ')' :: r)) = .ok (a, p.at l' (b' ++ ')' :: r)) ∧
      l' + nls b' = l + nls b ∧ Tok a ∧ (p.at l (b ++ ')' :: r)).cur = a.head? := by
  obtain ⟨tx, g, b', rfl, h1, h2, h3, h4⟩ := h.cons_inv
  obtain ⟨rfl, ht⟩ := h1.atom_inv
  refine ⟨b', l + nls tx + nls g, h3, ?_, ?_, ht, ?_⟩
  · have hs : Sep cfg.file tx (g ++ (b' ++ ')' :: r)) := by
      have := Sep.more (s := r) h4 (by simp)
      simpa using this
    have := sym_at cfg p l (g ++ (b' ++ ')' :: r)) ht hs
    simp only [List.append_assoc]
    rw [this, at_gap _ _ _ h2]
  · simp [nls_append, Nat.add_assoc]
  · obtain ⟨c, w, rfl, hc, _, _⟩ := ht.head
    simp only [List.cons_append, List.append_assoc]
    rw [cur_at _ _ _ hc]
    rfl

/-- the end of a list is read -/
theorem close_at {cfg : Cfg} {b : List Char} (h : LayL cfg.file [] b) (p : P) (l : Nat) (r : List Char) :
    rpar (p.at l (b ++ ')' :: r)) = .ok (p.at l r) ∧ (p.at l (b ++ ')' :: r)).cur = some ')' ∧
      skip (p.at l (b ++ ')' :: r)) = p.at l (b ++ ')' :: r) ∧ nls b = 0 := by
  cases h.nil_inv
  exact ⟨rpar_at _ _ _, cur_at _ _ _ start_rp, skip_at _ _ _ start_rp, rfl⟩

/-- the first part of a list is there to be read -/
theorem part_at {cfg : Cfg} {x : Sexp} {xs : List Sexp} {b : List Char} (h : LayL cfg.file (x :: xs) b) (p : P) (l : Nat) (r : List Char) :
    ∃ tx b' g, Lay cfg.file x tx ∧ LayL cfg.file xs b' ∧ Skip g ∧ SepX cfg.file x (g ++ (b' ++ ')' :: r)) ∧
      b ++ ')' :: r = tx ++ (g ++ (b' ++ ')' :: r)) ∧ nls b = nls tx + nls g + nls b' ∧
      (p.at l (b ++ ')' :: r)).cur ≠ some ')' ∧ ((p.at l (b ++ ')' :: r)).cur = some '(' ↔ ∃ ys, x = .list ys) ∧
      skip (p.at l (b ++ ')' :: r)) = p.at l (b ++ ')' :: r) := by
  obtain ⟨tx, g, b', rfl, h1, h2, h3, h4⟩ := h.cons_inv
  obtain ⟨c, w, rfl, hc, n1, n2⟩ := h1.head
  have hs : SepX cfg.file x (g ++ (b' ++ ')' :: r)) := by
    have := SepX.more (s := r) h4 (by simp)
    simpa using this
  refine ⟨_, b', g, h1, h3, h2, hs, by simp, by rw [nls_append, nls_append, Nat.add_assoc], ?_, ?_, ?_⟩
  · simp only [List.cons_append]
    rw [cur_at _ _ _ hc]
    simpa using n1
  · simp only [List.cons_append]
    rw [cur_at _ _ _ hc]
    simpa using n2
  · simp only [List.cons_append]
    rw [skip_at _ _ _ hc]

end SMT.Parse
