import Verif.Lex.Model

/-! # C40: the scanner -/

namespace SMT.Lex
open SMT

set_option linter.unusedSimpArgs false
set_option linter.unusedVariables false

/-! ## Specification -/

/-- line ends in a text -/
def nls (s : List Char) : Nat := (s.filter fun c => isNl c).length

/-- White space and comments, each comment with its line end. -/
inductive Skip : List Char → Prop where
  | nil : Skip []
  | ws {c s} : isBlank c = true ∨ isNl c = true → Skip s → Skip (c :: s)
  | comment {b c s} : (∀ x ∈ b, isNl x = false) → isNl c = true → Skip s → Skip (';' :: (b ++ c :: s))

/-- what may be skipped: white space and comments, the last comment perhaps ended by the end of the input -/
def Gap (pre rest : List Char) : Prop :=
  Skip pre ∨ (rest = [] ∧ ∃ p b, pre = p ++ ';' :: b ∧ Skip p ∧ ∀ x ∈ b, isNl x = false)

/-- the scanner mode for a token starting with this character -/
def modeOf (c : Char) : Mode := if c = '|' then .compSym else if c = '"' then .string else .symbol

/-- the cursor stands at the end or on the first character of a token, in the mode of that token -/
def Ready (st : St) : Prop :=
  st.rest = [] ∨ ∃ c s, st.rest = c :: s ∧ isBlank c = false ∧ isNl c = false ∧ c ≠ ';' ∧ st.mode = modeOf c

/-- Texts with balanced parentheses, where parentheses in comments, quoted symbols and strings do not count. -/
inductive Bal : List Char → Prop where
  | nil : Bal []
  | ch {c s} : c ≠ '(' → c ≠ ')' → c ≠ ';' → c ≠ '|' → c ≠ '"' → Bal s → Bal (c :: s)
  | par {a s} : Bal a → Bal s → Bal ('(' :: (a ++ ')' :: s))
  | quoted {b s} : '|' ∉ b → Bal s → Bal ('|' :: (b ++ '|' :: s))
  | str {b s} : '"' ∉ b → Bal s → Bal ('"' :: (b ++ '"' :: s))
  | comment {b c s} : (∀ x ∈ b, isNl x = false) → isNl c = true → Bal s → Bal (';' :: (b ++ c :: s))

/-! ## Lemmas -/

@[simp] theorem nls_nil : nls [] = 0 := rfl
theorem nls_cons (c : Char) (s : List Char) : nls (c :: s) = (if isNl c then 1 else 0) + nls s := by
  unfold nls; rw [List.filter_cons]; split <;> simp [Nat.add_comm]
theorem nls_append (a b : List Char) : nls (a ++ b) = nls a + nls b := by simp [nls]
theorem nls_zero {b : List Char} (h : ∀ x ∈ b, isNl x = false) : nls b = 0 := by
  unfold nls
  rw [List.filter_eq_nil_iff.mpr (fun x hx => by simp [h x hx])]
  rfl

theorem Skip.append {a b : List Char} (ha : Skip a) (hb : Skip b) : Skip (a ++ b) := by
  induction ha with
  | nil => exact hb
  | ws h _ ih => exact .ws h ih
  | comment h1 h2 _ ih =>
    rename_i b' c' s' _
    have := Skip.comment h1 h2 ih
    simpa [List.append_assoc] using this

theorem scan_comment (line : Nat) : ∀ s : List Char, (∃ b c t, s = b ++ c :: t ∧ (∀ x ∈ b, isNl x = false) ∧ isNl c = true ∧
      scanGo .comment line s = scanGo .common (line + 1) t) ∨
    ((∀ x ∈ s, isNl x = false) ∧ scanGo .comment line s = ⟨[], .comment, line⟩)
  | [] => .inr ⟨by simp, rfl⟩
  | c :: s => by
    by_cases h : isNl c = true
    · exact .inl ⟨[], c, s, rfl, by simp, h, by simp [scanGo, h]⟩
    · have h' : isNl c = false := by simpa using h
      have hstep : scanGo .comment line (c :: s) = scanGo .comment line s := by simp [scanGo, h']
      rcases scan_comment line s with ⟨b, d, t, rfl, h1, h2, h3⟩ | ⟨h1, h2⟩
      · refine .inl ⟨c :: b, d, t, rfl, ?_, h2, by rw [hstep, h3]⟩
        intro x hx
        rcases List.mem_cons.mp hx with rfl | hx
        · exact h'
        · exact h1 x hx
      · refine .inr ⟨?_, by rw [hstep, h2]⟩
        intro x hx
        rcases List.mem_cons.mp hx with rfl | hx
        · exact h'
        · exact h1 x hx

/-- **C40, skipping white space.**  From any position the scanner skips exactly the white space and the comments before the next
token, counts their line ends, never leaves the input and ends ready for the next token. -/
theorem scan_exact (line : Nat) (s : List Char) : ∃ pre, s = pre ++ (scan line s).rest ∧ Gap pre (scan line s).rest ∧
    (scan line s).line = line + nls pre ∧ Ready (scan line s) := by
  suffices H : ∀ (n : Nat) (s : List Char) (line : Nat), s.length ≤ n → ∃ pre, s = pre ++ (scan line s).rest ∧
      Gap pre (scan line s).rest ∧ (scan line s).line = line + nls pre ∧ Ready (scan line s) from H s.length s line (Nat.le_refl _)
  intro n
  induction n with
  | zero =>
    intro s line h
    obtain rfl : s = [] := List.length_eq_zero_iff.mp (by omega)
    exact ⟨[], rfl, .inl .nil, rfl, .inl rfl⟩
  | succ n ih =>
    intro s line h
    cases s with
    | nil => exact ⟨[], rfl, .inl .nil, rfl, .inl rfl⟩
    | cons c s =>
      have hlen : s.length ≤ n := by simpa using h
      by_cases h1 : isNl c = true
      · have hs : scan line (c :: s) = scan (line + 1) s := by simp [scan, scanGo, h1]
        obtain ⟨pre, e1, e2, e3, e4⟩ := ih s (line + 1) hlen
        rw [hs]
        refine ⟨c :: pre, by rw [List.cons_append, ← e1], ?_, by rw [e3, nls_cons, h1]; simp; omega, e4⟩
        rcases e2 with e2 | ⟨q1, p, b, q2, q3, q4⟩
        · exact .inl (.ws (.inr h1) e2)
        · exact .inr ⟨q1, c :: p, b, by rw [q2]; rfl, .ws (.inr h1) q3, q4⟩
      · have h1' : isNl c = false := by simpa using h1
        by_cases h2 : isBlank c = true
        · have hs : scan line (c :: s) = scan line s := by simp [scan, scanGo, h1', h2]
          obtain ⟨pre, e1, e2, e3, e4⟩ := ih s line hlen
          rw [hs]
          refine ⟨c :: pre, by rw [List.cons_append, ← e1], ?_, by rw [e3, nls_cons, h1']; simp, e4⟩
          rcases e2 with e2 | ⟨q1, p, b, q2, q3, q4⟩
          · exact .inl (.ws (.inl h2) e2)
          · exact .inr ⟨q1, c :: p, b, by rw [q2]; rfl, .ws (.inl h2) q3, q4⟩
        · have h2' : isBlank c = false := by simpa using h2
          by_cases h3 : c = ';'
          · subst h3
            have hs : scan line (';' :: s) = scanGo .comment line s := by simp [scan, scanGo, h1', h2']
            rw [hs]
            rcases scan_comment line s with ⟨b, d, t, rfl, q1, q2, q3⟩ | ⟨q1, q2⟩
            · obtain ⟨pre, e1, e2, e3, e4⟩ := ih t (line + 1) (by simp at hlen; omega)
              rw [q3]
              refine ⟨';' :: (b ++ d :: pre), ?_, ?_, ?_, e4⟩
              · simp only [List.cons_append, List.append_assoc]
                rw [← show t = pre ++ (scanGo .common (line + 1) t).rest from e1]
              · rcases e2 with e2 | ⟨r1, p, b', r2, r3, r4⟩
                · exact .inl (.comment q1 q2 e2)
                · exact .inr ⟨r1, ';' :: (b ++ d :: p), b', by rw [r2]; simp, .comment q1 q2 r3, r4⟩
              · rw [show (scanGo .common (line + 1) t).line = line + 1 + nls pre from e3, nls_cons, nls_append, nls_cons, nls_zero q1, q2, h1']
                simp; omega
            · rw [q2]
              refine ⟨';' :: s, by simp, .inr ⟨rfl, [], s, rfl, .nil, q1⟩, ?_, .inl rfl⟩
              rw [nls_cons, nls_zero q1, h1']
              rfl
          · have hs : scan line (c :: s) = ⟨c :: s, modeOf c, line⟩ := by
              simp only [scan, scanGo, h1', h2', h3, modeOf]
              by_cases h4 : c = '|'
              · simp [h4]
              · by_cases h5 : c = '"'
                · simp [h5]
                · simp [h4, h5]
            rw [hs]
            exact ⟨[], rfl, .inl .nil, rfl, .inr ⟨c, s, rfl, h2', h1', h3, rfl⟩⟩

theorem scan_ready (line : Nat) (s : List Char) : Ready (scan line s) := by
  obtain ⟨_, _, _, _, h⟩ := scan_exact line s; exact h

/-! ## Skipping a command -/

theorem skip_comment (lv line : Nat) {c : Char} {t : List Char} (hc : isNl c = true) : ∀ {b : List Char}, (∀ x ∈ b, isNl x = false) →
    skipGo .comment lv line (b ++ c :: t) = skipGo .common lv (line + 1) t
  | [], _ => by simp [skipGo, hc]
  | x :: b, h => by
    have hx := h x (by simp)
    simp only [List.cons_append, skipGo, hx]
    simpa using skip_comment lv line hc fun y hy => h y (by simp [hy])

theorem skip_quoted (lv : Nat) {t : List Char} : ∀ {b : List Char} (line : Nat), '|' ∉ b →
    skipGo .compSym lv line (b ++ '|' :: t) = skipGo .common lv (line + nls b) t
  | [], line, _ => by simp [skipGo, isNl]
  | x :: b, line, h => by
    have hx : x ≠ '|' := fun e => h (by simp [e])
    have hb : '|' ∉ b := fun e => h (by simp [e])
    simp only [List.cons_append, skipGo, nls_cons]
    by_cases h1 : isNl x = true
    · simp [h1, skip_quoted lv (line + 1) hb, Nat.add_assoc]
    · simp [h1, hx, skip_quoted lv line hb]

theorem skip_str (lv : Nat) {t : List Char} : ∀ {b : List Char} (line : Nat), '"' ∉ b →
    skipGo .string lv line (b ++ '"' :: t) = skipGo .common lv (line + nls b) t
  | [], line, _ => by simp [skipGo, isNl]
  | x :: b, line, h => by
    have hx : x ≠ '"' := fun e => h (by simp [e])
    have hb : '"' ∉ b := fun e => h (by simp [e])
    simp only [List.cons_append, skipGo, nls_cons]
    by_cases h1 : isNl x = true
    · simp [h1, skip_str lv (line + 1) hb, Nat.add_assoc]
    · simp [h1, hx, skip_str lv line hb]

theorem skip_bal {a : List Char} (h : Bal a) : ∀ (lv line : Nat) (t : List Char),
    skipGo .common lv line (a ++ t) = skipGo .common lv (line + nls a) t := by
  have n1 : isNl '(' = false := by decide
  have n2 : isNl ')' = false := by decide
  have n3 : isNl '|' = false := by decide
  have n4 : isNl '"' = false := by decide
  have n5 : isNl ';' = false := by decide
  induction h with
  | nil => intro lv line t; simp
  | ch h1 h2 h3 h4 h5 _ ih =>
    intro lv line t
    rename_i c s _
    simp only [List.cons_append, skipGo, nls_cons]
    by_cases hn : isNl c = true
    · simp [hn, ih, Nat.add_assoc]
    · simp [hn, h1, h2, h3, h4, h5, ih]
  | par _ _ iha ihs =>
    intro lv line t
    rename_i a s _ _
    simp only [List.cons_append, List.append_assoc, skipGo, n1, Bool.false_eq_true, if_false, if_true]
    rw [iha, skipGo]
    simp [n2, ihs, nls_cons, nls_append, n1, Nat.add_assoc]
  | quoted hb _ ih =>
    intro lv line t
    simp only [List.cons_append, List.append_assoc, skipGo, n3, Bool.false_eq_true, if_false, if_true]
    simp [skip_quoted lv line hb, ih, nls_cons, nls_append, n3, Nat.add_assoc]
  | str hb _ ih =>
    intro lv line t
    simp only [List.cons_append, List.append_assoc, skipGo, n4, Bool.false_eq_true, if_false, if_true]
    simp [skip_str lv line hb, ih, nls_cons, nls_append, n4, Nat.add_assoc]
  | comment h1 h2 _ ih =>
    intro lv line t
    simp only [List.cons_append, List.append_assoc, skipGo, n5, Bool.false_eq_true, if_false, if_true]
    simp [skip_comment lv line h2 h1, ih, nls_cons, nls_append, nls_zero h1, h2, n5, Nat.add_assoc]

/-- **C40, skipping a command.**  Whatever precedes the closing parenthesis, if parentheses outside comments, quoted symbols and
strings balance, skipping stops exactly at that parenthesis, with the right line number. -/
theorem skipToRpar_matching (st : St) (a r : List Char) (ha : Bal a) (h : st.rest = a ++ ')' :: r) :
    skipToRpar st = ⟨')' :: r, .common, st.line + nls a⟩ := by
  unfold skipToRpar
  rw [h, skip_bal ha]
  simp [skipGo, isNl]

theorem Bal.append {a b : List Char} (ha : Bal a) (hb : Bal b) : Bal (a ++ b) := by
  induction ha with
  | nil => exact hb
  | ch h1 h2 h3 h4 h5 _ ih => exact .ch h1 h2 h3 h4 h5 ih
  | par h1 _ _ ih => simpa [List.append_assoc] using Bal.par h1 ih
  | quoted h1 _ ih => simpa [List.append_assoc] using Bal.quoted h1 ih
  | str h1 _ ih => simpa [List.append_assoc] using Bal.str h1 ih
  | comment h1 h2 _ ih => simpa [List.append_assoc] using Bal.comment h1 h2 ih

/-- `n` unmatched closing parentheses -/
def BalN : Nat → List Char → Prop
  | 0, a => Bal a
  | n + 1, a => ∃ b c, Bal b ∧ BalN n c ∧ a = b ++ ')' :: c

theorem BalN.pre {n : Nat} {x a : List Char} (hx : Bal x) (h : BalN n a) : BalN n (x ++ a) := by
  cases n with
  | zero => exact hx.append h
  | succ n =>
    obtain ⟨b, c, h1, h2, rfl⟩ := h
    exact ⟨x ++ b, c, hx.append h1, h2, by simp⟩

/-- what the text before a found parenthesis looks like, by mode -/
def PreOf (mode : Mode) (n : Nat) (a : List Char) : Prop :=
  match mode with
  | .common => BalN n a
  | .comment => ∃ b c s, a = b ++ c :: s ∧ (∀ x ∈ b, isNl x = false) ∧ isNl c = true ∧ BalN n s
  | .compSym => ∃ b s, a = b ++ '|' :: s ∧ '|' ∉ b ∧ BalN n s
  | .string => ∃ b s, a = b ++ '"' :: s ∧ '"' ∉ b ∧ BalN n s
  | .symbol => True

theorem skip_found : ∀ (s : List Char) (mode : Mode) (lv line : Nat), mode ≠ .symbol →
    ((skipGo mode lv line s).rest = [] ∧ (skipGo mode lv line s).line = line + nls s) ∨
    ∃ a r, s = a ++ ')' :: r ∧ skipGo mode lv line s = ⟨')' :: r, .common, line + nls a⟩ ∧ PreOf mode lv a
  | [], mode, lv, line, _ => .inl ⟨rfl, rfl⟩
  | c :: s, mode, lv, line, hm => by
    have lift : ∀ (mode' : Mode) (lv' line' : Nat), mode' ≠ .symbol → skipGo mode lv line (c :: s) = skipGo mode' lv' line' s →
        line' = line + (if isNl c then 1 else 0) → (∀ a, PreOf mode' lv' a → PreOf mode lv (c :: a)) →
        ((skipGo mode lv line (c :: s)).rest = [] ∧ (skipGo mode lv line (c :: s)).line = line + nls (c :: s)) ∨
        ∃ a r, c :: s = a ++ ')' :: r ∧ skipGo mode lv line (c :: s) = ⟨')' :: r, .common, line + nls a⟩ ∧ PreOf mode lv a := by
      intro mode' lv' line' hm' hs hl hp
      rw [hs]
      rcases skip_found s mode' lv' line' hm' with ⟨h1, h2⟩ | ⟨a, r, h1, h2, h3⟩
      · exact .inl ⟨h1, by rw [h2, hl, nls_cons]; omega⟩
      · refine .inr ⟨c :: a, r, by rw [h1]; rfl, ?_, hp a h3⟩
        rw [h2, hl, nls_cons]
        simp [Nat.add_assoc]
    by_cases h1 : isNl c = true
    · have c1 : c ≠ '(' := fun e => by subst e; revert h1; decide
      have c2 : c ≠ ')' := fun e => by subst e; revert h1; decide
      have c3 : c ≠ ';' := fun e => by subst e; revert h1; decide
      have c4 : c ≠ '|' := fun e => by subst e; revert h1; decide
      have c5 : c ≠ '"' := fun e => by subst e; revert h1; decide
      cases mode with
      | symbol => exact absurd rfl hm
      | common =>
        refine lift .common lv (line + 1) (by simp) (by simp [skipGo, h1]) (by simp [h1]) ?_
        intro a ha
        exact BalN.pre (x := [c]) (.ch c1 c2 c3 c4 c5 .nil) ha
      | comment =>
        refine lift .common lv (line + 1) (by simp) (by simp [skipGo, h1]) (by simp [h1]) ?_
        intro a ha
        exact ⟨[], c, a, rfl, by simp, h1, ha⟩
      | compSym =>
        refine lift .compSym lv (line + 1) (by simp) (by simp [skipGo, h1]) (by simp [h1]) ?_
        rintro a ⟨b, t, rfl, hb, ht⟩
        exact ⟨c :: b, t, rfl, by simp [hb, Ne.symm c4], ht⟩
      | string =>
        refine lift .string lv (line + 1) (by simp) (by simp [skipGo, h1]) (by simp [h1]) ?_
        rintro a ⟨b, t, rfl, hb, ht⟩
        exact ⟨c :: b, t, rfl, by simp [hb, Ne.symm c5], ht⟩
    · have h1' : isNl c = false := by simpa using h1
      cases mode with
      | symbol => exact absurd rfl hm
      | comment =>
        refine lift .comment lv line (by simp) (by simp [skipGo, h1']) (by simp [h1']) ?_
        rintro a ⟨b, d, t, rfl, hb, hd, ht⟩
        refine ⟨c :: b, d, t, rfl, ?_, hd, ht⟩
        intro x hx
        rcases List.mem_cons.mp hx with rfl | hx
        · exact h1'
        · exact hb x hx
      | compSym =>
        by_cases hc : c = '|'
        · subst hc
          refine lift .common lv line (by simp) (by simp [skipGo, h1']) (by simp [h1']) ?_
          intro a ha
          exact ⟨[], a, rfl, by simp, ha⟩
        · refine lift .compSym lv line (by simp) (by simp [skipGo, h1', hc]) (by simp [h1']) ?_
          rintro a ⟨b, t, rfl, hb, ht⟩
          exact ⟨c :: b, t, rfl, by simp [hb, Ne.symm hc], ht⟩
      | string =>
        by_cases hc : c = '"'
        · subst hc
          refine lift .common lv line (by simp) (by simp [skipGo, h1']) (by simp [h1']) ?_
          intro a ha
          exact ⟨[], a, rfl, by simp, ha⟩
        · refine lift .string lv line (by simp) (by simp [skipGo, h1', hc]) (by simp [h1']) ?_
          rintro a ⟨b, t, rfl, hb, ht⟩
          exact ⟨c :: b, t, rfl, by simp [hb, Ne.symm hc], ht⟩
      | common =>
        by_cases c1 : c = '('
        · subst c1
          refine lift .common (lv + 1) line (by simp) (by simp [skipGo, h1']) (by simp [h1']) ?_
          rintro a ⟨b, t, hb, ht, rfl⟩
          have := BalN.pre (n := lv) (Bal.par hb .nil) ht
          simpa [PreOf] using this
        · by_cases c2 : c = ')'
          · subst c2
            cases lv with
            | zero => exact .inr ⟨[], s, rfl, by simp [skipGo, h1'], .nil⟩
            | succ lv =>
              refine lift .common lv line (by simp) (by simp [skipGo, h1']) (by simp [h1']) ?_
              intro a ha
              exact ⟨[], a, .nil, ha, rfl⟩
          · by_cases c3 : c = ';'
            · subst c3
              refine lift .comment lv line (by simp) (by simp [skipGo, h1']) (by simp [h1']) ?_
              rintro a ⟨b, d, t, rfl, hb, hd, ht⟩
              have := BalN.pre (n := lv) (Bal.comment hb hd .nil) ht
              simpa [PreOf] using this
            · by_cases c4 : c = '|'
              · subst c4
                refine lift .compSym lv line (by simp) (by simp [skipGo, h1']) (by simp [h1']) ?_
                rintro a ⟨b, t, rfl, hb, ht⟩
                have := BalN.pre (n := lv) (Bal.quoted hb .nil) ht
                simpa [PreOf] using this
              · by_cases c5 : c = '"'
                · subst c5
                  refine lift .string lv line (by simp) (by simp [skipGo, h1']) (by simp [h1']) ?_
                  rintro a ⟨b, t, rfl, hb, ht⟩
                  have := BalN.pre (n := lv) (Bal.str hb .nil) ht
                  simpa [PreOf] using this
                · refine lift .common lv line (by simp) (by simp [skipGo, h1', c1, c2, c3, c4, c5]) (by simp [h1']) ?_
                  intro a ha
                  exact BalN.pre (x := [c]) (.ch c1 c2 c3 c4 c5 .nil) ha

/-- **C40, skipping never overshoots.**  From any position, skipping ends at the end of the input or at a closing parenthesis with
balanced text before it; the line number is exact.  (Together with `skipToRpar_matching`: at the first such parenthesis.) -/
theorem skipToRpar_exact (st : St) :
    ((skipToRpar st).rest = [] ∧ (skipToRpar st).line = st.line + nls st.rest ∧ ∀ a r, st.rest = a ++ ')' :: r → ¬ Bal a) ∨
    ∃ a r, st.rest = a ++ ')' :: r ∧ Bal a ∧ skipToRpar st = ⟨')' :: r, .common, st.line + nls a⟩ := by
  rcases skip_found st.rest .common 0 st.line (by simp) with ⟨h1, h2⟩ | ⟨a, r, h1, h2, h3⟩
  · refine .inl ⟨h1, h2, ?_⟩
    intro a r h hb
    have := skipToRpar_matching st a r hb h
    have h4 : (skipToRpar st).rest = ')' :: r := by rw [this]
    rw [show (skipToRpar st).rest = [] from h1] at h4
    cases h4
  · exact .inr ⟨a, r, h1, h3, h2⟩

/-- **C40, a skipped command.**  Skipping to the matching parenthesis and reading it leaves the scanner behind it, ready for the next
command. -/
theorem skip_command (st : St) (a r : List Char) (ha : Bal a) (h : st.rest = a ++ ')' :: r) :
    parseRpar (skipToRpar st) = .ok (scan (st.line + nls a) r) ∧ Ready (scan (st.line + nls a) r) := by
  rw [skipToRpar_matching st a r ha h]
  exact ⟨rfl, scan_ready _ _⟩

/-! ## Reading a token -/

/-- characters that end a symbol -/
def isDelim (c : Char) : Bool := isBlank c || isNl c || c == ';' || c == '|' || c == '"' || c == '(' || c == ')'

/-- no prefix of the text is a decimal followed by its first `E` or `e` -/
def NoSci (w : List Char) : Prop := ∀ p, p <+: w → startsSci p = false

theorem symGo_plain (file : Bool) (line : Nat) : ∀ (w acc : List Char) (d : Char) (r : List Char), (∀ c ∈ w, isDelim c = false) →
    isDelim d = true → NoSci (acc ++ w) →
    symGo file acc line (w ++ d :: r) = if isBlank d then .ok (acc ++ w, scan line r)
      else if isNl d then .ok (acc ++ w, scan (line + 1) r) else .ok (acc ++ w, ⟨d :: r, .symbol, line⟩)
  | [], acc, d, r, _, hd, hn => by
    have h0 : startsSci acc = false := hn acc (by simp)
    simp only [List.nil_append, symGo, h0, List.append_nil]
    simp only [isDelim] at hd
    cases h1 : isBlank d <;> cases h2 : isNl d <;> simp_all
  | c :: w, acc, d, r, hw, hd, hn => by
    have h0 : startsSci acc = false := hn acc (by simp)
    have hc := hw c (by simp)
    simp only [isDelim, Bool.or_eq_false_iff, beq_eq_false_iff_ne] at hc
    obtain ⟨⟨⟨⟨⟨⟨c1, c2⟩, c3⟩, c4⟩, c5⟩, c6⟩, c7⟩ := hc
    have ih := symGo_plain file line w (acc ++ [c]) d r (fun x hx => hw x (by simp [hx])) hd (by simpa using hn)
    simp only [List.cons_append, symGo, h0, c1, c2, c3, c4, c5, c6, c7]
    simpa using ih

/-- **C40, symbols.**  A symbol (numeral, keyword, ...) that is not the start of scientific notation is read up to the next
delimiter, for every symbol and every text after it.  After white space the scanner is ready for the next token, and on a
parenthesis too. -/
theorem getSymbol_symbol_partial (file : Bool) (line : Nat) (c : Char) (w : List Char) (d : Char) (r : List Char)
    (hw : ∀ x ∈ w, isDelim x = false) (hd : isDelim d = true) (hn : NoSci (c :: w)) :
    ∃ st', getSymbol file ⟨c :: (w ++ d :: r), .symbol, line⟩ = .ok (c :: w, st') ∧
      (isBlank d = true → st' = scan line r) ∧ (isNl d = true → st' = scan (line + 1) r) ∧
      (d = '(' ∨ d = ')' → st' = ⟨d :: r, .symbol, line⟩) ∧
      (d ≠ ';' → d ≠ '|' → d ≠ '"' → Ready st') := by
  have h := symGo_plain file line w [c] d r hw hd hn
  simp only [getSymbol, h]
  have hbn : isNl d = true → isBlank d = false := by
    intro h1; simp only [isNl, isBlank, Bool.or_eq_true, beq_iff_eq, Bool.or_eq_false_iff, beq_eq_false_iff_ne] at h1 ⊢
    rcases h1 with ((rfl | rfl) | rfl) | rfl <;> decide
  by_cases h1 : isBlank d = true
  · refine ⟨_, (by rw [if_pos h1]; rfl), fun _ => rfl, fun h2 => (by rw [hbn h2] at h1; cases h1), ?_, fun _ _ _ => scan_ready _ _⟩
    rintro (rfl | rfl)
    · exact absurd h1 (by decide)
    · exact absurd h1 (by decide)
  · by_cases h2 : isNl d = true
    · refine ⟨_, (by rw [if_neg h1, if_pos h2]; rfl), fun h3 => absurd h3 h1, fun _ => rfl, ?_, fun _ _ _ => scan_ready _ _⟩
      rintro (rfl | rfl)
      · exact absurd h2 (by decide)
      · exact absurd h2 (by decide)
    · refine ⟨_, (by rw [if_neg h1, if_neg h2]; rfl), fun h3 => absurd h3 h1, fun h3 => absurd h3 h2, fun _ => rfl, ?_⟩
      intro n1 n2 n3
      refine .inr ⟨d, r, rfl, by simpa using h1, by simpa using h2, n1, ?_⟩
      simp [modeOf, n2, n3]

theorem compGo_text (file : Bool) : ∀ (b acc : List Char) (line : Nat) (r : List Char), '|' ∉ b →
    compGo file acc line (b ++ '|' :: r) = .ok (acc ++ b ++ ['|'], scan (line + nls b) r)
  | [], acc, line, r, _ => by simp [compGo, isNl]
  | c :: b, acc, line, r, h => by
    have hc : c ≠ '|' := fun e => h (by simp [e])
    have ih := fun l => compGo_text file b (acc ++ [c]) l r fun e => h (by simp [e])
    simp only [List.cons_append, compGo, nls_cons]
    by_cases h1 : isNl c = true
    · simp [h1, ih, Nat.add_assoc]
    · simp [h1, hc, ih]

/-- **C40, quoted symbols.**  A quoted symbol is read up to its closing bar, whatever stands between the bars, over line ends; the
scanner is then ready for the next token. -/
theorem getSymbol_quoted (file : Bool) (line : Nat) (b r : List Char) (hb : '|' ∉ b) :
    getSymbol file ⟨'|' :: (b ++ '|' :: r), .compSym, line⟩ = .ok ('|' :: (b ++ ['|']), scan (line + nls b) r) ∧
    Ready (scan (line + nls b) r) := by
  refine ⟨?_, scan_ready _ _⟩
  simp only [getSymbol]
  rw [compGo_text file b ['|'] line r hb]
  rfl

/-- a string literal's text: quotes doubled -/
inductive StrBody : List Char → Prop where
  | nil : StrBody []
  | ch {c s} : c ≠ '"' → StrBody s → StrBody (c :: s)
  | quote {s} : StrBody s → StrBody ('"' :: '"' :: s)

theorem strGo_text (file : Bool) {b : List Char} (hb : StrBody b) : ∀ (acc : List Char) (line : Nat) (r : List Char), r.head? ≠ some '"' →
    strGo file acc line (b ++ '"' :: r) = .ok (acc ++ b ++ ['"'], scan (line + nls b) r) := by
  induction hb with
  | nil =>
    intro acc line r hr
    cases r with
    | nil => simp [strGo, isNl]
    | cons x r =>
      have hx : x ≠ '"' := by simpa using hr
      simp only [List.nil_append]
      rw [strGo]
      · simp [isNl]
      · intro s _ hs; injection hs with h1 _; exact hx h1
  | ch hc _ ih =>
    intro acc line r hr
    rename_i c s _
    simp only [List.cons_append]
    rw [strGo]
    · by_cases h1 : isNl c = true
      · simp [h1, ih _ _ _ hr, nls_cons, Nat.add_assoc]
      · simp [h1, hc, ih _ _ _ hr, nls_cons]
    · intro s' hs; exact absurd hs hc
  | quote _ ih =>
    intro acc line r hr
    simp [strGo, ih _ _ _ hr, nls_cons, isNl]

/-- **C40, strings.**  A string literal, with its doubled quotes, is read up to its closing quote; parentheses, semicolons, bars and
line ends inside are part of it. -/
theorem getSymbol_string (file : Bool) (line : Nat) (b r : List Char) (hb : StrBody b) (hr : r.head? ≠ some '"') :
    getSymbol file ⟨'"' :: (b ++ '"' :: r), .string, line⟩ = .ok ('"' :: (b ++ ['"']), scan (line + nls b) r) ∧
    Ready (scan (line + nls b) r) := by
  refine ⟨?_, scan_ready _ _⟩
  simp only [getSymbol]
  rw [strGo_text file hb ['"'] line r hr]
  rfl

/-! ### Reading never leaves the input -/

/-- the outcome of reading a token from `acc ++ s`, line ends in `s` counted -/
def Inside (file : Bool) (acc s : List Char) (line : Nat) (r : Res (List Char × St)) : Prop :=
  (file = true ∧ r = .abort) ∨ ∃ tok st' pre gap, r = .ok (tok, st') ∧ tok = acc ++ pre ∧ s = pre ++ gap ++ st'.rest ∧
    Gap gap st'.rest ∧ st'.line = line + nls pre + nls gap

theorem inside_eof (file : Bool) (acc : List Char) (line : Nat) : Inside file acc [] line (eof file acc line) := by
  unfold eof
  split
  · rename_i h; exact .inl ⟨h, rfl⟩
  · exact .inr ⟨acc, scan line [], [], [], rfl, by simp, rfl, .inl .nil, rfl⟩

/-- the token ends, then white space is skipped -/
theorem inside_scan (file : Bool) (acc : List Char) (line : Nat) (tok s : List Char) (n : Nat) (h : n = line + nls tok) :
    Inside file acc (tok ++ s) line (.ok (acc ++ tok, scan n s)) := by
  obtain ⟨gap, e1, e2, e3, _⟩ := scan_exact n s
  exact .inr ⟨_, _, tok, gap, rfl, rfl, by rw [List.append_assoc, ← e1], e2, by rw [e3, h]⟩

/-- the token is followed by one character that is skipped, then white space -/
theorem inside_scan1 (file : Bool) (acc : List Char) (line : Nat) (c : Char) (s : List Char) (n : Nat)
    (hc : isBlank c = true ∨ isNl c = true) (h : n = line + nls [c]) : Inside file acc (c :: s) line (.ok (acc, scan n s)) := by
  obtain ⟨gap, e1, e2, e3, _⟩ := scan_exact n s
  refine .inr ⟨_, _, [], c :: gap, rfl, by simp, by simp; exact e1, ?_, ?_⟩
  · rcases e2 with e2 | ⟨q1, p, b, q2, q3, q4⟩
    · exact .inl (.ws hc e2)
    · exact .inr ⟨q1, c :: p, b, by rw [q2]; rfl, .ws hc q3, q4⟩
  · rw [e3, h, nls_cons, nls_cons]; simp; omega

theorem inside_stop (file : Bool) (acc : List Char) (line : Nat) (s : List Char) (m : Mode) :
    Inside file acc s line (.ok (acc, ⟨s, m, line⟩)) :=
  .inr ⟨acc, ⟨s, m, line⟩, [], [], rfl, by simp, rfl, .inl .nil, by simp⟩

theorem inside_step {file : Bool} {acc : List Char} {line n : Nat} {x s : List Char} {r : Res (List Char × St)}
    (hn : n = line + nls x) (h : Inside file (acc ++ x) s n r) : Inside file acc (x ++ s) line r := by
  rcases h with h | ⟨tok, st', pre, gap, rfl, rfl, h2, h3, h4⟩
  · exact .inl h
  · refine .inr ⟨_, st', x ++ pre, gap, rfl, by simp, by rw [h2]; simp, h3, ?_⟩
    rw [h4, hn, nls_append]; omega

theorem sciGo_inside (file : Bool) (line : Nat) : ∀ (s acc : List Char) (opn : Bool) (lv : Int),
    Inside file acc s line (sciGo file acc opn lv line s)
  | [], acc, opn, lv => inside_eof file acc line
  | c :: s, acc, opn, lv => by
    have one : ∀ o l, isNl c = false → Inside file acc (c :: s) line (sciGo file (acc ++ [c]) o l line s) := fun o l h =>
      inside_step (x := [c]) (by simp [nls_cons, h]) (sciGo_inside file line s (acc ++ [c]) o l)
    have hbl : isBlank c = true → isNl c = false := by
      intro h; simp only [isBlank, Bool.or_eq_true, beq_iff_eq] at h
      rcases h with rfl | rfl <;> decide
    simp only [sciGo]
    by_cases h1 : c = '('
    · rw [if_pos h1]; exact one _ _ (by subst h1; decide)
    · rw [if_neg h1]
      by_cases h2 : (decide (c = ')') && opn) = true
      · rw [if_pos h2]
        have hc : c = ')' := by simp at h2; exact h2.1
        split
        · exact inside_scan file acc line [c] s line (by subst hc; rfl)
        · exact one _ _ (by subst hc; decide)
      · rw [if_neg h2]
        by_cases h3 : isBlank c = true
        · rw [if_pos h3]; exact one _ _ (hbl h3)
        · rw [if_neg h3]
          split
          · exact inside_stop file acc line _ _
          · rename_i h4
            refine one _ _ ?_
            simp only [Bool.or_eq_true, not_or] at h4
            simpa using h4.1.1.1

theorem symGo_inside (file : Bool) (line : Nat) : ∀ (s acc : List Char), Inside file acc s line (symGo file acc line s)
  | [], acc => inside_eof file acc line
  | c :: s, acc => by
    simp only [symGo]
    split
    · exact sciGo_inside file line (c :: s) acc false 0
    · split
      · rename_i h
        have : isNl c = false := by
          simp only [isBlank, Bool.or_eq_true, beq_iff_eq] at h
          rcases h with rfl | rfl <;> decide
        exact inside_scan1 file acc line c s line (.inl h) (by simp [nls_cons, this])
      · split
        · rename_i h; exact inside_scan1 file acc line c s (line + 1) (.inr h) (by simp [nls_cons, h])
        · split
          · exact inside_stop file acc line _ _
          · rename_i h _
            exact inside_step (x := [c]) (by simp [nls_cons, h]) (symGo_inside file line s (acc ++ [c]))

theorem compGo_inside (file : Bool) : ∀ (s acc : List Char) (line : Nat), Inside file acc s line (compGo file acc line s)
  | [], acc, line => inside_eof file acc line
  | c :: s, acc, line => by
    simp only [compGo]
    split
    · rename_i h; exact inside_step (x := [c]) (by simp [nls_cons, h]) (compGo_inside file s (acc ++ [c]) (line + 1))
    · rename_i h
      split
      · exact inside_scan file acc line [c] s line (by simp [nls_cons, h])
      · exact inside_step (x := [c]) (by simp [nls_cons, h]) (compGo_inside file s (acc ++ [c]) line)

theorem strGo_inside (file : Bool) (acc : List Char) (line : Nat) (s : List Char) : Inside file acc s line (strGo file acc line s) := by
  fun_induction strGo file acc line s with
  | case1 => exact inside_eof _ _ _
  | case2 acc line s ih => exact inside_step (x := ['"', '"']) (by simp [nls_cons, isNl]) ih
  | case3 acc line c s _ h ih => exact inside_step (x := [c]) (by simp [nls_cons, h]) ih
  | case4 acc line s h1 h2 => exact inside_scan file acc line ['"'] s line (by simp [nls_cons, h2])
  | case5 acc line c s _ h _ ih => exact inside_step (x := [c]) (by simp [nls_cons, h]) ih

/-- **C40, bounds and lines.**  Reading a token from a position that is ready and not at the end never leaves the input: it reads at
least one character, the token is the text at the cursor, what follows it up to the new cursor is white space and comments, and the
line number goes up by the line ends in both.  An unfinished token ends the process when reading a file. -/
theorem getSymbol_inside (file : Bool) (st : St) (hr : Ready st) (hne : st.rest ≠ []) :
    (file = true ∧ getSymbol file st = .abort) ∨
    ∃ tok st' gap, getSymbol file st = .ok (tok, st') ∧ tok ≠ [] ∧ st.rest = tok ++ gap ++ st'.rest ∧ Gap gap st'.rest ∧
      st'.line = st.line + nls tok + nls gap := by
  rcases hr with hr | ⟨c, s, h1, h2, h3, h4, h5⟩
  · exact absurd hr hne
  · have key : Inside file [c] s st.line (getSymbol file st) := by
      unfold getSymbol
      rw [h1, h5]
      simp only [modeOf]
      by_cases p1 : c = '|'
      · rw [if_pos p1]; exact compGo_inside file s [c] st.line
      · rw [if_neg p1]
        by_cases p2 : c = '"'
        · rw [if_pos p2]; exact strGo_inside file [c] st.line s
        · rw [if_neg p2]; exact symGo_inside file st.line s [c]
    rcases key with key | ⟨tok, st', pre, gap, e1, e2, e3, e4, e5⟩
    · exact .inl key
    · refine .inr ⟨tok, st', gap, e1, by rw [e2]; simp, by rw [h1, e3, e2]; simp, e4, ?_⟩
      rw [e5, e2, List.singleton_append, nls_cons, h3]
      simp

/-- **C40, line numbers.**  In texts whose only line ends are line feeds, the line ends counted are the line feeds. -/
theorem nls_lf {s : List Char} (h : ∀ c ∈ s, c ≠ '\r' ∧ c ≠ '\x0b' ∧ c ≠ '\x0c') : nls s = s.count '\n' := by
  unfold nls
  rw [List.count_eq_length_filter]
  congr 1
  apply List.filter_congr
  intro c hc
  obtain ⟨h1, h2, h3⟩ := h c hc
  rw [isNl, beq_eq_false_iff_ne.mpr h1, beq_eq_false_iff_ne.mpr h2, beq_eq_false_iff_ne.mpr h3]; simp

/-! ## Cases that meet the hypotheses -/

example : getSymbol true ⟨cs!"check-sat ; done\n)", .symbol, 1⟩ = .ok (cs!"check-sat", ⟨cs!")", .symbol, 2⟩) := by decide +kernel
example : getSymbol true ⟨cs!"|a (b\n| x", .compSym, 1⟩ = .ok (cs!"|a (b\n|", ⟨cs!"x", .symbol, 2⟩) := by decide +kernel
example : getSymbol true ⟨'"' :: 'a' :: '"' :: '"' :: ')' :: '"' :: cs!" x)", .string, 1⟩ =
    .ok ('"' :: 'a' :: '"' :: '"' :: ')' :: ['"'], ⟨cs!"x)", .symbol, 1⟩) := by decide +kernel
example : NoSci cs!"check" ∧ NoSci cs!"1.5" ∧ NoSci cs!"#x1e5" := by
  have key : ∀ w : List Char, (List.range (w.length + 1)).all (fun n => !startsSci (w.take n)) = true → NoSci w := by
    intro w h p hp
    obtain ⟨t, rfl⟩ := hp
    have := List.all_eq_true.mp h p.length (by simp; omega)
    simpa using this
  exact ⟨key _ (by decide +kernel), key _ (by decide +kernel), key _ (by decide +kernel)⟩
example : skipToRpar ⟨cs!"a (b |)| ; )\n ) c) rest", .symbol, 7⟩ = ⟨cs!") rest", .common, 8⟩ := by decide +kernel

/-! ## What goes wrong -/

/-- Reading a symbol at the end of the input steps over the terminator: a file or string that ends after an opening parenthesis, or an
expression of blanks only, makes the program read outside its buffer. -/
theorem getSymbol_end_violated (file : Bool) (mode : Mode) (line : Nat) : getSymbol file ⟨[], mode, line⟩ = .ub ∧
    (parseLpar (scan 1 cs!"(")).bind (getSymbol file) = .ub ∧ getSymbol file (scan 1 cs!"  ") = .ub := by
  refine ⟨rfl, ?_, ?_⟩ <;> cases file <;> decide +kernel

/-- A number in scientific notation without parentheses swallows the closing parentheses after it, and with them whatever follows up to
the end of the line or of the next bracketed text. -/
theorem getSymbol_sci_violated :
    getSymbol true ⟨cs!"1e5)) (check-sat) (exit)\n", .symbol, 1⟩ = .ok (cs!"1e5)) (check-sat)", ⟨cs!"(exit)\n", .symbol, 1⟩) ∧
    getSymbol true ⟨cs!"1e5))\n(exit)", .symbol, 1⟩ = .ok (cs!"1e5))", ⟨cs!"\n(exit)", .symbol, 1⟩) := by decide +kernel

/-- A comment, a quoted symbol or a string directly after a symbol is read as part of the next symbol. -/
theorem getSymbol_adjacent_violated :
    (∃ st, getSymbol true ⟨cs!"a;b c\n)", .symbol, 1⟩ = .ok (cs!"a", st) ∧ ¬ Ready st ∧
      ∃ st', getSymbol true st = .ok (cs!";b", st')) ∧
    (∃ st, getSymbol true ⟨cs!"a|b c| )", .symbol, 1⟩ = .ok (cs!"a", st) ∧ ¬ Ready st ∧ ∃ st', getSymbol true st = .ok (cs!"|b", st')) := by
  refine ⟨⟨⟨cs!";b c\n)", .symbol, 1⟩, by decide +kernel, ?_, ⟨cs!"c\n)", .symbol, 1⟩, (by decide +kernel)⟩,
    ⟨⟨cs!"|b c| )", .symbol, 1⟩, by decide +kernel, ?_, ⟨cs!"c| )", .symbol, 1⟩, (by decide +kernel)⟩⟩
  · rintro (h | ⟨c, s, h, _, _, h4, _⟩)
    · cases h
    · simp only [List.cons.injEq] at h; exact h4 h.1.symm
  · rintro (h | ⟨c, s, h, _, _, _, h5⟩)
    · cases h
    · simp only [List.cons.injEq] at h
      rw [← h.1] at h5
      cases h5

/-- A carriage return and a line feed count as two lines. -/
theorem line_crlf_violated : (scan 1 cs!" \r\n x").line = 3 := by decide +kernel

end SMT.Lex
