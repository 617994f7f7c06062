import Verif.Text.Str

/-!
# Classification of numeric tokens (C13)

`src/util.cpp:37-130` (`TypeChecker`), `src/op_parser.cpp:617-624` (`mkConstInt`), `src/number.cpp:736-742` (GMP's reading of
decimal numerals: an optional minus sign, then digits; anything else throws).
-/

namespace SMT.Tok
open SMT.Str SMT.Text

/-- the loop of `isReal` after the optional sign (`src/util.cpp:55-62`) -/
def realGo (dot : Bool) : List Char → Bool
  | [] => true
  | c :: s => if c = '.' ∧ dot = false then realGo true s else if c.isDigit then realGo dot s else false

/-- `TypeChecker::isReal` (`src/util.cpp:51-64`) -/
def isReal : List Char → Bool
  | [] => false
  | c :: s => if c = '-' ∨ c = '+' then realGo false s else realGo false (c :: s)

/-- `find_first_of("Ee")` splits the token (`src/util.cpp:70-77`); `none` if there is no such character -/
def splitE : List Char → Option (List Char × List Char)
  | [] => none
  | c :: s => if c = 'E' ∨ c = 'e' then some ([], s) else (splitE s).map fun p => (c :: p.1, p.2)

/-- the parentheses around an exponent (`src/util.cpp:97-107`) -/
def unparen : List Char → List Char
  | '(' :: s => s.takeWhile (· ≠ ')')
  | s => s

/-- the exponent check (`src/util.cpp:110-127`) -/
def isExponent : List Char → Bool
  | [] => false
  | c :: s => if c = '+' ∨ c = '-' then !s.isEmpty && s.all Char.isDigit else (c :: s).all Char.isDigit

/-- `TypeChecker::isScientificNotation` (`src/util.cpp:66-130`) -/
def isSci (s : List Char) : Bool :=
  match splitE s with
  | none => false
  | some (m, e) =>
    if m.isEmpty then false
    else isReal m && isExponent (unparen (e.filter fun c => !isSpace c))

/-- GMP reading digits, most significant first -/
def digits : List Char → Option Nat
  | [] => none
  | c :: s => if (c :: s).all Char.isDigit then some (undec (c :: s)) else none

/-- `Integer(s)` (`src/number.cpp:736-742`) -/
def toInteger : List Char → Res Int
  | '-' :: s => match digits s with | some n => .ok (-n) | none => .throw
  | s => match digits s with | some n => .ok n | none => .throw

/-- `Integer::toString()`: GMP's decimal form -/
def showInt (z : Int) : List Char := if z < 0 then '-' :: dec z.natAbs else dec z.natAbs

/-- `mkConstInt(token)` (`src/op_parser.cpp:617-624`): the name of the node -/
def mkConstInt (s : List Char) : Res (List Char) := (toInteger s).bind fun z => .ok (showInt z)

/-! ## Specification -/

/-- an optional sign -/
def Sign (s : List Char) : Prop := s = [] ∨ s = ['-'] ∨ s = ['+']

/-- one or more digits -/
def Digits (s : List Char) : Prop := s ≠ [] ∧ ∀ c ∈ s, c.isDigit = true

/-- optional sign, at least one digit -/
def IntTok (s : List Char) : Prop := ∃ a b, s = a ++ b ∧ Sign a ∧ Digits b

/-- optional sign, digits, optional point and digits, at least one digit in all -/
def RealTok (s : List Char) : Prop :=
  ∃ a b d, Sign a ∧ (∀ c ∈ b, c.isDigit = true) ∧ (∀ c ∈ d, c.isDigit = true) ∧ b ++ d ≠ [] ∧ (s = a ++ b ++ '.' :: d ∨ (s = a ++ b ∧ d = []))

/-! ## Theorems -/

/-- **C13.**  The tokens classified as integers are the integers and the two bare signs. -/
theorem isInt_exact_partial (s : List Char) (h : s ≠ ['+'] ∧ s ≠ ['-']) : isIntTok s = true ↔ IntTok s := by
  cases s with
  | nil =>
    constructor
    · intro h; cases h
    · rintro ⟨a, b, e, _, hb, _⟩
      exact absurd (List.append_eq_nil_iff.mp e.symm).2 hb
  | cons c s =>
    simp only [isIntTok, Bool.and_eq_true, Bool.or_eq_true, beq_iff_eq, List.all_eq_true]
    constructor
    · rintro ⟨hc, hs⟩
      rcases hc with (rfl | rfl) | hc
      · exact ⟨['-'], s, rfl, .inr (.inl rfl), fun e => h.2 (by rw [e]), hs⟩
      · exact ⟨['+'], s, rfl, .inr (.inr rfl), fun e => h.1 (by rw [e]), hs⟩
      · refine ⟨[], c :: s, rfl, .inl rfl, by simp, fun d hd => ?_⟩
        rcases List.mem_cons.mp hd with rfl | hd
        · exact hc
        · exact hs d hd
    · rintro ⟨a, b, e, ha, hb, hd⟩
      rcases ha with rfl | rfl | rfl
      · simp only [List.nil_append] at e
        subst e
        exact ⟨.inr (hd c List.mem_cons_self), fun d hd' => hd d (List.mem_cons_of_mem _ hd')⟩
      · simp only [List.cons_append, List.nil_append, List.cons.injEq] at e
        obtain ⟨rfl, rfl⟩ := e
        exact ⟨.inl (.inl rfl), hd⟩
      · simp only [List.cons_append, List.nil_append, List.cons.injEq] at e
        obtain ⟨rfl, rfl⟩ := e
        exact ⟨.inl (.inr rfl), hd⟩

/-- **C13, violated.**  The bare signs are classified as integers and make `mkConstInt` throw; so does every numeral with a
plus sign. -/
theorem isInt_violated : isIntTok ['+'] = true ∧ isIntTok ['-'] = true ∧ ¬ IntTok ['+'] ∧ ¬ IntTok ['-'] ∧
    mkConstInt ['+'] = .throw ∧ mkConstInt ['-'] = .throw ∧ ∀ s, mkConstInt ('+' :: s) = .throw := by
  have key : ∀ c, c = '+' ∨ c = '-' → ¬ IntTok [c] := by
    rintro c hc ⟨a, b, e, ha, hb, hd⟩
    rcases ha with rfl | rfl | rfl
    · simp only [List.nil_append] at e
      subst e
      have := hd c List.mem_cons_self
      rcases hc with rfl | rfl <;> revert this <;> decide
    · simp only [List.cons_append, List.nil_append, List.cons.injEq] at e
      exact hb e.2.symm
    · simp only [List.cons_append, List.nil_append, List.cons.injEq] at e
      exact hb e.2.symm
  refine ⟨by decide, by decide, key _ (.inl rfl), key _ (.inr rfl), by decide, by decide, fun s => ?_⟩
  have : digits ('+' :: s) = none := by
    rw [digits, if_neg (by simp)]
  simp [mkConstInt, toInteger, this, Res.bind]

theorem realGo_iff (s : List Char) : ∀ dot, realGo dot s = true ↔
    ((∀ c ∈ s, c.isDigit = true) ∨ (dot = false ∧ ∃ b d, s = b ++ '.' :: d ∧ (∀ c ∈ b, c.isDigit = true) ∧ ∀ c ∈ d, c.isDigit = true)) := by
  have hdot : Char.isDigit '.' = false := by decide
  induction s with
  | nil => intro dot; simp [realGo]
  | cons c s ih =>
    intro dot
    unfold realGo
    split
    · rename_i h
      obtain ⟨rfl, rfl⟩ := h
      rw [ih]
      constructor
      · rintro (h | ⟨h, _⟩)
        · exact .inr ⟨rfl, [], s, rfl, by simp, h⟩
        · cases h
      · rintro (h | ⟨_, b, d, e, hb, hd⟩)
        · exact absurd (h '.' List.mem_cons_self) (by decide)
        · cases b with
          | nil => simp only [List.nil_append, List.cons.injEq, true_and] at e; subst e; exact .inl hd
          | cons x b =>
            simp only [List.cons_append, List.cons.injEq] at e
            have := hb x List.mem_cons_self
            rw [← e.1] at this
            exact absurd this (by decide)
    · rename_i hc
      split
      · rename_i hcd
        rw [ih]
        constructor
        · rintro (h | ⟨h, b, d, e, hb, hd⟩)
          · refine .inl fun x hx => ?_
            rcases List.mem_cons.mp hx with rfl | hx
            · exact hcd
            · exact h x hx
          · refine .inr ⟨h, c :: b, d, by simp [e], fun x hx => ?_, hd⟩
            rcases List.mem_cons.mp hx with rfl | hx
            · exact hcd
            · exact hb x hx
        · rintro (h | ⟨h, b, d, e, hb, hd⟩)
          · exact .inl fun x hx => h x (List.mem_cons_of_mem _ hx)
          · cases b with
            | nil =>
              simp only [List.nil_append, List.cons.injEq] at e
              exact absurd ⟨e.1, h⟩ hc
            | cons x b =>
              simp only [List.cons_append, List.cons.injEq] at e
              exact .inr ⟨h, b, d, e.2, fun y hy => hb y (List.mem_cons_of_mem _ hy), hd⟩
      · rename_i hcd
        simp only [Bool.false_eq_true, false_iff, not_or, not_and, not_exists]
        refine ⟨fun h => hcd (h c List.mem_cons_self), fun h b d e hb hd => ?_⟩
        cases b with
        | nil =>
          simp only [List.nil_append, List.cons.injEq] at e
          exact hc ⟨e.1, h⟩
        | cons x b =>
          simp only [List.cons_append, List.cons.injEq] at e
          exact hcd (e.1 ▸ hb x List.mem_cons_self)

/-- tokens without any digit that are classified as reals -/
def bare : List (List Char) := [['+'], ['-'], ['.'], ['+', '.'], ['-', '.']]

theorem bare_ne : ∀ m ∈ bare, m.isEmpty = false := by decide

theorem isReal_split (s : List Char) : isReal s = true ↔ ∃ a r, s = a ++ r ∧ Sign a ∧ s ≠ [] ∧ realGo false r = true ∧
    (a = [] → r.head? ≠ some '-' ∧ r.head? ≠ some '+') := by
  cases s with
  | nil => simp [isReal]
  | cons c s =>
    rw [isReal]
    split
    · rename_i h
      constructor
      · intro hr; refine ⟨[c], s, rfl, ?_, by simp, hr, by simp⟩
        rcases h with rfl | rfl
        · exact .inr (.inl rfl)
        · exact .inr (.inr rfl)
      · rintro ⟨a, r, e, ha, _, hr, hh⟩
        rcases ha with rfl | rfl | rfl
        · simp only [List.nil_append] at e
          subst e
          have := hh rfl
          simp only [List.head?_cons, ne_eq, Option.some.injEq] at this
          rcases h with h | h
          · exact absurd h this.1
          · exact absurd h this.2
        · simp only [List.cons_append, List.nil_append, List.cons.injEq] at e
          rw [e.2]; exact hr
        · simp only [List.cons_append, List.nil_append, List.cons.injEq] at e
          rw [e.2]; exact hr
    · rename_i h
      constructor
      · intro hr
        refine ⟨[], c :: s, rfl, .inl rfl, by simp, hr, fun _ => ?_⟩
        simp only [List.head?_cons, ne_eq, Option.some.injEq]
        exact ⟨fun q => h (.inl q), fun q => h (.inr q)⟩
      · rintro ⟨a, r, e, ha, _, hr, hh⟩
        rcases ha with rfl | rfl | rfl
        · simp only [List.nil_append] at e; rw [e]; exact hr
        · simp only [List.cons_append, List.nil_append, List.cons.injEq] at e
          exact absurd (.inl e.1) h
        · simp only [List.cons_append, List.nil_append, List.cons.injEq] at e
          exact absurd (.inr e.1) h

/-- **C13.**  The tokens classified as reals are the decimals and five tokens without a digit. -/
theorem isReal_exact_partial (s : List Char) (h : s ∉ bare) : isReal s = true ↔ RealTok s := by
  rw [isReal_split]
  constructor
  · rintro ⟨a, r, rfl, ha, hne, hr, _⟩
    rw [realGo_iff] at hr
    rcases hr with hr | ⟨_, b, d, rfl, hb, hd⟩
    · refine ⟨a, r, [], ha, hr, by simp, ?_, .inr ⟨rfl, rfl⟩⟩
      intro e
      simp only [List.append_nil] at e
      subst e
      apply h
      rcases ha with rfl | rfl | rfl
      · exact absurd rfl hne
      · decide
      · decide
    · refine ⟨a, b, d, ha, hb, hd, ?_, .inl (by simp)⟩
      intro e
      obtain ⟨rfl, rfl⟩ := List.append_eq_nil_iff.mp e
      apply h
      rcases ha with rfl | rfl | rfl <;> decide
  · rintro ⟨a, b, d, ha, hb, hd, hne, hs⟩
    have hh : ∀ x : List Char, (∀ c ∈ b, c.isDigit = true) → (b ++ '.' :: x).head? ≠ some '-' ∧ (b ++ '.' :: x).head? ≠ some '+' := by
      intro x hb
      cases b with
      | nil => simp
      | cons y b =>
        have := hb y List.mem_cons_self
        simp only [List.cons_append, List.head?_cons, ne_eq, Option.some.injEq]
        constructor <;> rintro rfl <;> exact absurd this (by decide)
    rcases hs with rfl | ⟨rfl, rfl⟩
    · refine ⟨a, b ++ '.' :: d, by simp, ha, by simp, ?_, fun _ => hh d hb⟩
      rw [realGo_iff]; exact .inr ⟨rfl, b, d, rfl, hb, hd⟩
    · simp only [List.append_nil] at hne
      refine ⟨a, b, rfl, ha, by simp [hne], ?_, fun _ => ?_⟩
      · rw [realGo_iff]; exact .inl hb
      · cases b with
        | nil => exact absurd rfl hne
        | cons y b =>
          have := hb y List.mem_cons_self
          simp only [List.head?_cons, ne_eq, Option.some.injEq]
          constructor <;> rintro rfl <;> exact absurd this (by decide)

/-- **C13, violated.**  Five tokens without a digit are classified as reals. -/
theorem isReal_violated : ∀ s ∈ bare, isReal s = true ∧ ∀ c ∈ s, c.isDigit = false := by decide

theorem digits_some {s : List Char} (h : Digits s) : digits s = some (undec s) := by
  cases s with
  | nil => exact absurd rfl h.1
  | cons c s => rw [digits, if_pos (List.all_eq_true.mpr h.2)]

theorem dec_digits (n : Nat) : Digits (dec n) := ⟨dec_ne_nil n, dec_isDigit n⟩

/-- **C13.**  The printed form of every integer is classified as an integer and read back as that integer. -/
theorem printed_exact (z : Int) : isIntTok (showInt z) = true ∧ toInteger (showInt z) = .ok z ∧
    mkConstInt (showInt z) = .ok (showInt z) := by
  have hI : isIntTok (showInt z) = true := by
    have hd := dec_digits z.natAbs
    unfold showInt
    split
    · simp only [isIntTok, List.all_eq_true.mpr hd.2]; decide
    · cases hz : dec z.natAbs with
      | nil => exact absurd hz hd.1
      | cons c s =>
        rw [hz] at hd
        simp only [isIntTok, hd.2 c List.mem_cons_self, Bool.or_true, Bool.true_and]
        exact List.all_eq_true.mpr fun x hx => hd.2 x (List.mem_cons_of_mem _ hx)
  have hR : toInteger (showInt z) = .ok z := by
    unfold showInt
    split
    · rename_i h
      simp only [toInteger, digits_some (dec_digits _), undec_dec]
      congr 1; omega
    · rename_i h
      have hd := dec_digits z.natAbs
      have hs := digits_some hd
      have : toInteger (dec z.natAbs) = match digits (dec z.natAbs) with | some n => .ok (n : Int) | none => .throw := by
        cases hz : dec z.natAbs with
        | nil => exact absurd hz hd.1
        | cons c s =>
          rw [hz] at hd
          have hc := hd.2 c List.mem_cons_self
          have : c ≠ '-' := by rintro rfl; exact absurd hc (by decide)
          unfold toInteger
          split
          · rename_i e; simp only [List.cons.injEq] at e; exact absurd e.1 this
          · rfl
      rw [this, hs, undec_dec]
      simp only
      congr 1; omega
  exact ⟨hI, hR, by simp [mkConstInt, hR, Res.bind]⟩

/-- **C13.**  An unsigned or negative numeral, with any number of leading zeros, makes the node of its decimal value. -/
theorem value_exact_partial (b : List Char) (h : Digits b) :
    mkConstInt b = .ok (showInt (undec b)) ∧ mkConstInt ('-' :: b) = .ok (showInt (-(undec b))) := by
  have hs := digits_some h
  constructor
  · have : toInteger b = .ok (undec b : Int) := by
      cases b with
      | nil => exact absurd rfl h.1
      | cons c s =>
        have hc := h.2 c List.mem_cons_self
        have : c ≠ '-' := by rintro rfl; exact absurd hc (by decide)
        unfold toInteger
        split
        · rename_i e; simp only [List.cons.injEq] at e; exact absurd e.1 this
        · rw [hs]
    simp [mkConstInt, this, Res.bind]
  · simp [mkConstInt, toInteger, hs, Res.bind]

theorem splitE_spec (s : List Char) : ∀ m e, splitE s = some (m, e) ↔
    ∃ c, s = m ++ c :: e ∧ (c = 'E' ∨ c = 'e') ∧ 'E' ∉ m ∧ 'e' ∉ m := by
  induction s with
  | nil => intro m e; simp [splitE]
  | cons x s ih =>
    intro m e
    unfold splitE
    split
    · rename_i h
      simp only [Option.some.injEq, Prod.mk.injEq]
      constructor
      · rintro ⟨rfl, rfl⟩; exact ⟨x, rfl, h, by simp, by simp⟩
      · rintro ⟨c, e1, hc, h1, h2⟩
        cases m with
        | nil => simp only [List.nil_append, List.cons.injEq] at e1; exact ⟨rfl, e1.2⟩
        | cons y m =>
          simp only [List.cons_append, List.cons.injEq] at e1
          rw [← e1.1] at h1 h2
          rcases h with rfl | rfl
          · exact absurd List.mem_cons_self h1
          · exact absurd List.mem_cons_self h2
    · rename_i h
      cases hs : splitE s with
      | none =>
        simp only [Option.map_none, reduceCtorEq, false_iff, not_exists, not_and]
        intro c e1 hc h1 h2
        cases m with
        | nil =>
          simp only [List.nil_append, List.cons.injEq] at e1
          exact h (e1.1 ▸ hc)
        | cons y m =>
          simp only [List.cons_append, List.cons.injEq] at e1
          have := (ih m e).mpr ⟨c, e1.2, hc, fun q => h1 (List.mem_cons_of_mem _ q), fun q => h2 (List.mem_cons_of_mem _ q)⟩
          rw [hs] at this; cases this
      | some p =>
        obtain ⟨m', e'⟩ := p
        obtain ⟨c', e2, hc', h1', h2'⟩ := (ih m' e').mp hs
        simp only [Option.map_some, Option.some.injEq, Prod.mk.injEq]
        constructor
        · rintro ⟨rfl, rfl⟩
          refine ⟨c', by simp [e2], hc', ?_, ?_⟩
          · simp only [List.mem_cons, not_or]; exact ⟨fun q => h (.inl q.symm), h1'⟩
          · simp only [List.mem_cons, not_or]; exact ⟨fun q => h (.inr q.symm), h2'⟩
        · rintro ⟨c, e1, hc, h1, h2⟩
          cases m with
          | nil =>
            simp only [List.nil_append, List.cons.injEq] at e1
            exact absurd (e1.1 ▸ hc) h
          | cons y m =>
            simp only [List.cons_append, List.cons.injEq] at e1
            have := (ih m e).mpr ⟨c, e1.2, hc, fun q => h1 (List.mem_cons_of_mem _ q), fun q => h2 (List.mem_cons_of_mem _ q)⟩
            rw [hs] at this
            simp only [Option.some.injEq, Prod.mk.injEq] at this
            exact ⟨by rw [this.1, e1.1], this.2⟩

theorem isExponent_iff (s : List Char) : isExponent s = true ↔ IntTok s := by
  cases s with
  | nil =>
    constructor
    · intro h; cases h
    · rintro ⟨a, b, e, _, hb, _⟩
      exact absurd (List.append_eq_nil_iff.mp e.symm).2 hb
  | cons c s =>
    rw [isExponent]
    split
    · rename_i h
      simp only [Bool.and_eq_true, Bool.not_eq_true', List.isEmpty_eq_false_iff, List.all_eq_true]
      constructor
      · rintro ⟨h1, h2⟩
        refine ⟨[c], s, rfl, ?_, h1, h2⟩
        rcases h with rfl | rfl
        · exact .inr (.inr rfl)
        · exact .inr (.inl rfl)
      · rintro ⟨a, b, e, ha, hb, hd⟩
        rcases ha with rfl | rfl | rfl
        · simp only [List.nil_append] at e
          subst e
          have := hd c List.mem_cons_self
          rcases h with rfl | rfl <;> exact absurd this (by decide)
        · simp only [List.cons_append, List.nil_append, List.cons.injEq] at e
          rw [e.2]; exact ⟨hb, hd⟩
        · simp only [List.cons_append, List.nil_append, List.cons.injEq] at e
          rw [e.2]; exact ⟨hb, hd⟩
    · rename_i h
      rw [List.all_eq_true]
      constructor
      · intro hd; exact ⟨[], c :: s, rfl, .inl rfl, by simp, hd⟩
      · rintro ⟨a, b, e, ha, hb, hd⟩
        rcases ha with rfl | rfl | rfl
        · simp only [List.nil_append] at e; rw [e]; exact hd
        · simp only [List.cons_append, List.nil_append, List.cons.injEq] at e
          exact absurd (.inr e.1) h
        · simp only [List.cons_append, List.nil_append, List.cons.injEq] at e
          exact absurd (.inl e.1) h

/-- **C13.**  Scientific notation, for tokens without white space and parentheses (a token has none, see `getSymbol`): a decimal,
`e` or `E`, an integer. -/
theorem isSci_exact_partial (s : List Char) (hs : ∀ c ∈ s, isSpace c = false ∧ c ≠ '(') : isSci s = true ↔
    ∃ m c e, s = m ++ c :: e ∧ (c = 'E' ∨ c = 'e') ∧ (m ∈ bare ∨ RealTok m) ∧ IntTok e := by
  have hreal : ∀ m, isReal m = true ↔ m ∈ bare ∨ RealTok m := by
    intro m
    by_cases hm : m ∈ bare
    · exact ⟨fun _ => .inl hm, fun _ => (isReal_violated m hm).1⟩
    · rw [isReal_exact_partial m hm]; exact ⟨.inr, fun h => h.resolve_left hm⟩
  have hno : ∀ m, isReal m = true → 'E' ∉ m ∧ 'e' ∉ m := by
    intro m h
    rw [isReal_split] at h
    obtain ⟨a, r, rfl, ha, _, hr, _⟩ := h
    rw [realGo_iff] at hr
    have hall : ∀ c ∈ a ++ r, c.isDigit = true ∨ c = '.' ∨ c = '-' ∨ c = '+' := by
      intro c hc
      rcases List.mem_append.mp hc with hc | hc
      · rcases ha with rfl | rfl | rfl
        · cases hc
        · exact .inr (.inr (.inl (by simpa using hc)))
        · exact .inr (.inr (.inr (by simpa using hc)))
      · rcases hr with hr | ⟨_, b, d, rfl, hb, hd⟩
        · exact .inl (hr c hc)
        · simp only [List.mem_append, List.mem_cons] at hc
          rcases hc with hc | rfl | hc
          · exact .inl (hb c hc)
          · exact .inr (.inl rfl)
          · exact .inl (hd c hc)
    constructor <;> intro q <;> rcases hall _ q with h | h | h | h <;> revert h <;> decide
  have hflt : ∀ m c e, s = m ++ c :: e → unparen (e.filter fun c => !isSpace c) = e := by
    intro m c e he
    have h1 : e.filter (fun c => !isSpace c) = e := by
      rw [List.filter_eq_self]
      intro x hx
      rw [(hs x (by rw [he]; simp [hx])).1]; rfl
    rw [h1]
    unfold unparen
    split
    · rename_i t
      exact absurd rfl (hs '(' (by rw [he]; simp)).2
    · rfl
  unfold isSci
  cases h : splitE s with
  | none =>
    simp only [Bool.false_eq_true, false_iff, not_exists, not_and]
    intro m c e he hc hm hx
    have := (splitE_spec s m e).mpr ⟨c, he, hc, (hno m ((hreal m).mpr hm)).1, (hno m ((hreal m).mpr hm)).2⟩
    rw [h] at this; cases this
  | some p =>
    obtain ⟨m, e⟩ := p
    obtain ⟨c, he, hc, h1, h2⟩ := (splitE_spec s m e).mp h
    simp only
    rw [hflt m c e he]
    constructor
    · intro hh
      split at hh
      · cases hh
      · rw [Bool.and_eq_true, isExponent_iff, hreal] at hh
        exact ⟨m, c, e, he, hc, hh.1, hh.2⟩
    · rintro ⟨m', c', e', he', hc', hm', hx'⟩
      have hn := hno m' ((hreal m').mpr hm')
      have := (splitE_spec s m' e').mpr ⟨c', he', hc', hn.1, hn.2⟩
      rw [h] at this
      simp only [Option.some.injEq, Prod.mk.injEq] at this
      obtain ⟨rfl, rfl⟩ := this
      rw [if_neg, Bool.and_eq_true, hreal, isExponent_iff]
      · exact ⟨hm', hx'⟩
      · rcases hm' with hm' | ⟨a, b, d, _, _, _, hne, hd⟩
        · exact fun q => absurd q (by rw [bare_ne m hm']; decide)
        · rcases hd with rfl | ⟨rfl, rfl⟩
          · simp
          · simp only [List.append_nil] at hne
            simp [hne]

example : IntTok cs!"-0042" ∧ RealTok cs!"3.25" ∧ isSci cs!"3.25e-7" = true := by
  refine ⟨⟨['-'], cs!"0042", rfl, .inr (.inl rfl), by decide, by decide⟩,
    ⟨[], ['3'], ['2', '5'], .inl rfl, by decide, by decide, by decide, .inl rfl⟩, by decide⟩

end SMT.Tok
