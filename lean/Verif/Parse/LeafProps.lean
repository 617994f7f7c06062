import Verif.Parse.Leaf

/-! # Symbols and constants: what they are read as (C54) -/

namespace SMT.Leaf
open SMT SMT.Text

set_option linter.unusedSimpArgs false
set_option linter.unusedVariables false

/-- the words tested before numbers -/
def words : List (List Char) :=
  [cs!"pi", cs!"e", cs!"inf", cs!"+inf", cs!"-inf", cs!"epsion", cs!"+epsilon", cs!"-epsilon", cs!"NaN", cs!"+NaN", cs!"-NaN"]

theorem constOf_rest {s : List Char} (h : s ∉ words) (h1 : Str.isIntTok s = false) (h2 : Tok.isReal s = false) (h3 : Tok.isSci s = false) :
    constOf s = if isBV s then some (.bv s (bvWidth s))
      else if isFP s then some (.fp s)
      else if isString s then some (.str s)
      else if s = cs!"re.none" then some .regNone
      else if s = cs!"re.all" then some .regAll
      else if s = cs!"re.allchar" then some .regAllchar
      else if s = cs!"RNE" ∨ s = cs!"roundNearestTiesToEven" then some (.rm cs!"RNE")
      else if s = cs!"RNA" ∨ s = cs!"roundNearestTiesToAway" then some (.rm cs!"RNA")
      else if s = cs!"RTP" ∨ s = cs!"roundTowardPositive" then some (.rm cs!"RTP")
      else if s = cs!"RTN" ∨ s = cs!"roundTowardNegative" then some (.rm cs!"RTN")
      else if s = cs!"RTZ" ∨ s = cs!"roundTowardZero" then some (.rm cs!"RTZ")
      else none := by
  simp only [words, List.mem_cons, List.not_mem_nil, or_false, not_or] at h
  obtain ⟨a1, a2, a3, a4, a5, a6, a7, a8, a9, a10, a11⟩ := h
  conv => lhs; unfold constOf
  rw [if_neg a1, if_neg a2, if_neg a3, if_neg a4, if_neg a5, if_neg a6, if_neg a7, if_neg a8, if_neg (by simp only [not_or]; exact ⟨a9, a10, a11⟩),
    if_neg (by rw [h1]; simp), if_neg (by rw [h2]; simp), if_neg (by rw [h3]; simp)]

theorem not_word {s : List Char} (P : List Char → Bool) (hs : P s = true) (hw : ∀ w ∈ words, P w = false) : s ∉ words :=
  fun h => by rw [hw s h] at hs; cases hs

theorem constOf_int {s : List Char} (h : Str.isIntTok s = true) : constOf s = some (.int s) := by
  have hw := not_word Str.isIntTok h (by decide)
  simp only [words, List.mem_cons, List.not_mem_nil, or_false, not_or] at hw
  obtain ⟨a1, a2, a3, a4, a5, a6, a7, a8, a9, a10, a11⟩ := hw
  unfold constOf
  rw [if_neg a1, if_neg a2, if_neg a3, if_neg a4, if_neg a5, if_neg a6, if_neg a7, if_neg a8, if_neg (by simp only [not_or]; exact ⟨a9, a10, a11⟩),
    if_pos h]

theorem constOf_real {s : List Char} (h : Tok.isReal s = true) (h1 : Str.isIntTok s = false) : constOf s = some (.real s) := by
  have hw := not_word Tok.isReal h (by decide)
  simp only [words, List.mem_cons, List.not_mem_nil, or_false, not_or] at hw
  obtain ⟨a1, a2, a3, a4, a5, a6, a7, a8, a9, a10, a11⟩ := hw
  unfold constOf
  rw [if_neg a1, if_neg a2, if_neg a3, if_neg a4, if_neg a5, if_neg a6, if_neg a7, if_neg a8, if_neg (by simp only [not_or]; exact ⟨a9, a10, a11⟩),
    if_neg (by rw [h1]; simp), if_pos h]

theorem constOf_sci {s : List Char} (h : Tok.isSci s = true) (h1 : Str.isIntTok s = false) (h2 : Tok.isReal s = false) :
    constOf s = some (.sci s) := by
  have hw := not_word Tok.isSci h (by decide)
  simp only [words, List.mem_cons, List.not_mem_nil, or_false, not_or] at hw
  obtain ⟨a1, a2, a3, a4, a5, a6, a7, a8, a9, a10, a11⟩ := hw
  unfold constOf
  rw [if_neg a1, if_neg a2, if_neg a3, if_neg a4, if_neg a5, if_neg a6, if_neg a7, if_neg a8, if_neg (by simp only [not_or]; exact ⟨a9, a10, a11⟩),
    if_neg (by rw [h1]; simp), if_neg (by rw [h2]; simp), if_pos h]

/-- a token that starts with this character is no number -/
theorem not_number {c : Char} {s : List Char} (h1 : c.isDigit = false) (h2 : c ≠ '-') (h3 : c ≠ '+') (h4 : c ≠ '.') (h5 : c ≠ 'e') (h6 : c ≠ 'E') :
    Str.isIntTok (c :: s) = false ∧ Tok.isReal (c :: s) = false ∧ Tok.isSci (c :: s) = false := by
  have hr : ∀ s, Tok.isReal (c :: s) = false := by
    intro s
    simp [Tok.isReal, Tok.realGo, h1, h2, h3, h4]
  refine ⟨by simp [Str.isIntTok, h1, h2, h3], hr s, ?_⟩
  unfold Tok.isSci
  cases hs : Tok.splitE (c :: s) with
  | none => rfl
  | some p =>
    obtain ⟨m, e⟩ := p
    simp only [Tok.splitE] at hs
    rw [if_neg (by simp only [not_or]; exact ⟨h6, h5⟩)] at hs
    cases hq : Tok.splitE s with
    | none => rw [hq] at hs; cases hs
    | some q =>
      rw [hq] at hs
      simp only [Option.map_some, Option.some.injEq, Prod.mk.injEq] at hs
      obtain ⟨rfl, rfl⟩ := hs
      simp only [List.isEmpty_cons, Bool.false_eq_true, if_false, hr, Bool.false_and]

theorem constOf_hash {s : List Char} (h : isBV ('#' :: s) = true) : constOf ('#' :: s) = some (.bv ('#' :: s) (bvWidth ('#' :: s))) := by
  obtain ⟨h1, h2, h3⟩ := not_number (c := '#') (s := s) (by decide) (by decide) (by decide) (by decide) (by decide) (by decide)
  rw [constOf_rest (by simp [words]) h1 h2 h3, if_pos h]

theorem digit_hex {c : Char} (h : c.isDigit = true ∨ c ∈ ['a', 'b', 'c', 'd', 'e', 'f', 'A', 'B', 'C', 'D', 'E', 'F']) : isHex c = true := by
  rcases h with h | h
  · have hn : 48 ≤ c.toNat ∧ c.toNat ≤ 57 := by
      simp only [Char.isDigit, Bool.and_eq_true, decide_eq_true_eq] at h
      exact ⟨h.1, h.2⟩
    have hc : c = Char.ofNat c.toNat := (Char.ofNat_toNat c).symm
    have : ∀ n, 48 ≤ n → n ≤ 57 → isHex (Char.ofNat n) = true := by
      intro n h1 h2
      have : n = 48 ∨ n = 49 ∨ n = 50 ∨ n = 51 ∨ n = 52 ∨ n = 53 ∨ n = 54 ∨ n = 55 ∨ n = 56 ∨ n = 57 := by omega
      rcases this with rfl | rfl | rfl | rfl | rfl | rfl | rfl | rfl | rfl | rfl <;> decide
    rw [hc]
    exact this _ hn.1 hn.2
  · simp only [List.mem_cons, List.not_mem_nil, or_false] at h
    rcases h with rfl | rfl | rfl | rfl | rfl | rfl | rfl | rfl | rfl | rfl | rfl | rfl <;> decide

theorem last_append {a b : List Char} (h : b ≠ []) : (a ++ b).getLast? = b.getLast? := by
  rw [List.getLast?_append]
  cases hb : b.getLast? with
  | none => exact absurd (List.getLast?_eq_none_iff.mp hb) h
  | some c => rfl

theorem dot_notInt {a b : List Char} : Str.isIntTok (a ++ '.' :: b) = false ∨ a ++ '.' :: b = [] := by
  left
  cases a with
  | nil => rfl
  | cons c a =>
    simp only [List.cons_append, Str.isIntTok, List.all_append, List.all_cons, show ('.' : Char).isDigit = false from rfl, Bool.false_and,
      Bool.and_false]

theorem realGo_e {a b : List Char} {ch : Char} (h1 : ch.isDigit = false) (h2 : ch ≠ '.') : ∀ dot, Tok.realGo dot (a ++ ch :: b) = false := by
  induction a with
  | nil => intro dot; simp [Tok.realGo, h1, h2]
  | cons c a ih =>
    intro dot
    simp only [List.cons_append, Tok.realGo]
    split
    · exact ih true
    · split
      · exact ih dot
      · rfl

/-- every constant is told by its token -/
theorem writes_constOf {s : List Char} {l : Lit} (h : Writes s l) (ht : l ≠ .tru) (hf : l ≠ .fls) : constOf s = some l := by
  cases h with
  | tru => exact absurd rfl ht
  | fls => exact absurd rfl hf
  | @int a ds ha hd =>
    refine constOf_int ?_
    rw [Tok.isInt_exact_partial]
    · exact ⟨a, ds, rfl, ha, hd⟩
    · obtain ⟨h1, h2⟩ := hd
      constructor
      · intro e
        have : ds.getLast? = some '+' := by
          have := congrArg List.getLast? e
          rw [last_append h1] at this
          exact this
        have := h2 _ (List.mem_of_getLast? this)
        revert this; decide
      · intro e
        have : ds.getLast? = some '-' := by
          have := congrArg List.getLast? e
          rw [last_append h1] at this
          exact this
        have := h2 _ (List.mem_of_getLast? this)
        revert this; decide
  | @real a ds es ha hd he =>
    refine constOf_real ?_ (dot_notInt.resolve_right (by simp))
    rw [Tok.isReal_exact_partial]
    · exact ⟨a, ds, es, ha, hd.2, he.2, by simp [hd.1], .inl (by simp)⟩
    · intro hb
      obtain ⟨h1, h2⟩ := he
      have hl : (a ++ ds ++ '.' :: es).getLast? = es.getLast? := by
        rw [last_append (by simp), show '.' :: es = ['.'] ++ es from rfl, last_append h1]
      have hbare : ∀ s ∈ Tok.bare, ∀ c, s.getLast? = some c → c.isDigit = false := by decide
      obtain ⟨c, hc⟩ : ∃ c, es.getLast? = some c := by
        cases hg : es.getLast? with
        | none => exact absurd (List.getLast?_eq_none_iff.mp hg) h1
        | some c => exact ⟨c, rfl⟩
      have := hbare _ hb c (by rw [hl, hc])
      rw [h2 c (List.mem_of_getLast? hc)] at this
      cases this
  | @sci m ch x hch hm hx =>
    have hce : ch.isDigit = false := by rcases hch with rfl | rfl <;> rfl
    have hcd : ch ≠ '.' := by rcases hch with rfl | rfl <;> decide
    have hne : m ≠ [] := by
      rintro rfl
      obtain ⟨a, b, d, _, _, _, h4, h5⟩ := hm
      rcases h5 with h5 | ⟨h5, rfl⟩
      · simp at h5
      · exact h4 (by rw [(List.append_eq_nil_iff.mp h5.symm).2]; rfl)
    have hr : Tok.isReal (m ++ ch :: x) = false := by
      cases m with
      | nil => exact absurd rfl hne
      | cons c m =>
        simp only [List.cons_append, Tok.isReal]
        split
        · exact realGo_e hce hcd false
        · exact realGo_e (a := c :: m) hce hcd false
    have hi : Str.isIntTok (m ++ ch :: x) = false := by
      cases m with
      | nil => exact absurd rfl hne
      | cons c m =>
        simp only [List.cons_append, Str.isIntTok, List.all_append, List.all_cons, hce, Bool.false_and,
          Bool.and_false]
    refine constOf_sci ?_ hi hr
    have hmc : ∀ c ∈ m, c.isDigit = true ∨ c = '-' ∨ c = '+' ∨ c = '.' := by
      obtain ⟨a, b, d, h1, h2, h3, _, h5⟩ := hm
      intro c hc
      have hs : c ∈ a → c = '-' ∨ c = '+' := by
        intro h
        rcases h1 with rfl | rfl | rfl <;> simp at h <;> simp [h]
      rcases h5 with rfl | ⟨rfl, rfl⟩
      · simp only [List.mem_append, List.mem_cons] at hc
        rcases hc with (hc | hc) | hc | hc
        · rcases hs hc with h | h <;> simp [h]
        · exact .inl (h2 c hc)
        · simp [hc]
        · exact .inl (h3 c hc)
      · simp only [List.mem_append] at hc
        rcases hc with hc | hc
        · rcases hs hc with h | h <;> simp [h]
        · exact .inl (h2 c hc)
    have hxc : ∀ c ∈ x, c.isDigit = true ∨ c = '-' ∨ c = '+' := by
      obtain ⟨a, b, rfl, h1, h2⟩ := hx
      intro c hc
      simp only [List.mem_append] at hc
      rcases hc with hc | hc
      · rcases h1 with rfl | rfl | rfl <;> simp at hc <;> simp [hc]
      · exact .inl (h2.2 c hc)
    have hdig : ∀ c : Char, c.isDigit = true → Str.isSpace c = false ∧ c ≠ '(' ∧ c ≠ 'e' ∧ c ≠ 'E' := by
      intro c hc
      have : ∀ d : Char, d.isDigit = false → c ≠ d := by rintro d hd rfl; rw [hc] at hd; cases hd
      refine ⟨?_, this _ (by decide), this _ (by decide), this _ (by decide)⟩
      have hn : 48 ≤ c.toNat ∧ c.toNat ≤ 57 := by
        simp only [Char.isDigit, Bool.and_eq_true, decide_eq_true_eq] at hc
        exact ⟨hc.1, hc.2⟩
      simp [Str.isSpace, this]
      omega
    rw [Tok.isSci_exact_partial]
    · exact ⟨m, ch, x, rfl, hch.symm, .inr hm, hx⟩
    · intro c hc
      simp only [List.mem_append, List.mem_cons] at hc
      rcases hc with hc | hc | hc
      · rcases hmc c hc with h | rfl | rfl | rfl
        · exact ⟨(hdig c h).1, (hdig c h).2.1⟩
        all_goals decide
      · subst hc; rcases hch with rfl | rfl <;> decide
      · rcases hxc c hc with h | rfl | rfl
        · exact ⟨(hdig c h).1, (hdig c h).2.1⟩
        all_goals decide
  | @bin ds hne hd =>
    have : isBV ('#' :: 'b' :: ds) = true := by
      cases ds with
      | nil => exact absurd rfl hne
      | cons c s =>
        simp only [isBV, true_or, if_true, List.all_eq_true]
        intro d hd'
        rcases hd d hd' with rfl | rfl <;> rfl
    rw [constOf_hash this]
    simp [bvWidth]
  | @hex ds hne hd =>
    have : isBV ('#' :: 'x' :: ds) = true := by
      cases ds with
      | nil => exact absurd rfl hne
      | cons c s =>
        simp only [isBV]
        rw [if_neg (by decide), if_pos (by decide)]
        simp only [List.all_eq_true]
        exact fun d hd' => digit_hex (hd d hd')
    rw [constOf_hash this]
    simp [bvWidth, Nat.mul_comm]
  | @str b =>
    obtain ⟨h1, h2, h3⟩ := not_number (c := '"') (s := b ++ ['"']) (by decide) (by decide) (by decide) (by decide) (by decide) (by decide)
    have hb : isBV ('"' :: (b ++ ['"'])) = false := by
      cases b with
      | nil => rfl
      | cons _ b => cases b <;> rfl
    rw [constOf_rest (by simp [words]) h1 h2 h3, if_neg (by rw [hb]; simp), if_neg, if_pos]
    · simp only [isString, List.head?_cons, beq_self_eq_true, Bool.true_and, beq_iff_eq]
      exact last_append (a := '"' :: b) (b := ['"']) (by simp)
    · simp [isFP]
  | _ => decide

theorem named_unused {α : Type} {t : Tables α} {s : List Char} (h : Unused t s) (ph : Bool) : named t ph s = none := by
  obtain ⟨h1, h2, h3, h4, h5, h6, h7, h8⟩ := h
  unfold named globalVar
  cases ph <;> simp only [h1, h2, h3, h4, h5, h6, h7, h8, ite_self, if_true, Bool.false_eq_true, if_false]

/-- **C54 (constants).** Whatever the tables hold and whether or not placeholders are allowed, a token that writes a constant of the language, and
that no table has as a name, is read as that constant: the constant's own constructor is called, with the token's text and, for a bit-vector, with
its number of bits. -/
theorem literal_reads_partial {α : Type} (t : Tables α) (lit : Lit → Res α) (holder : List Char → Res α) (ph : Bool) {s : List Char} {l : Lit}
    (hw : Writes s l) (hu : Unused t s) : parseConstFunc t lit holder ph s = lit l := by
  unfold parseConstFunc
  by_cases ht : l = .tru
  · subst ht
    have : s = cs!"true" := by cases hw <;> rfl
    rw [if_pos this]
  · by_cases hf : l = .fls
    · subst hf
      have : s = cs!"false" := by cases hw <;> rfl
      rw [if_neg (by rw [this]; decide), if_pos this]
    · have hc := writes_constOf hw ht hf
      have h1 : s ≠ cs!"true" := by rintro rfl; exact absurd hc (by rw [show constOf cs!"true" = none by decide]; simp)
      have h2 : s ≠ cs!"false" := by rintro rfl; exact absurd hc (by rw [show constOf cs!"false" = none by decide]; simp)
      rw [if_neg h1, if_neg h2, named_unused hu, hc]

/-- no binder or function has the name -/
def NotBound {α : Type} (t : Tables α) (s : List Char) : Prop :=
  t.holders.lookup s = none ∧ t.lets.lookup s = none ∧ t.funs.lookup s = none ∧ t.funVars.lookup s = none ∧ t.quants.lookup s = none

theorem named_global {α : Type} {t : Tables α} {s : List Char} (h : NotBound t s) (ph : Bool) : named t ph s = globalVar t s := by
  obtain ⟨h1, h2, h3, h4, h5⟩ := h
  unfold named
  cases ph <;> simp only [h1, h2, h3, h4, h5, ite_self, if_true, Bool.false_eq_true, if_false]

theorem unbar (x : List Char) : ('|' :: x ++ ['|']).tail.dropLast = x := by simp

theorem inBars_bar {x : List Char} (h : x ≠ []) : inBars ('|' :: x ++ ['|']) = true := by
  cases x with
  | nil => exact absurd rfl h
  | cons c x =>
    have : ('|' :: c :: x ++ ['|']).getLast? = some '|' := last_append (a := '|' :: c :: x) (b := ['|']) (by simp)
    have h2 : (c :: (x ++ ['|'])).getLast? = some '|' := last_append (a := c :: x) (b := ['|']) (by simp)
    simp [inBars, h2]

theorem bar_notNumber (x : List Char) : isNumber ('|' :: x) = false := by
  obtain ⟨h1, h2, _⟩ := not_number (c := '|') (s := x) (by decide) (by decide) (by decide) (by decide) (by decide) (by decide)
  simp [isNumber, h1, h2]

/-- **C54 (bars).** A declared name means the same with bars and without.  When exactly one of `x` and `|x|` is declared as a global variable, and
no binder or function takes either, both tokens are read as that variable. -/
theorem quoted_same_partial {α : Type} (t : Tables α) (lit : Lit → Res α) (holder : List Char → Res α) (ph : Bool) {x : List Char} {v : α}
    (hx : x ≠ []) (hnum : isNumber x = false) (ht : x ≠ cs!"true") (hf : x ≠ cs!"false") (hbar : inBars x = false)
    (hn : NotBound t x) (hq : NotBound t ('|' :: x ++ ['|']))
    (h : (t.vars.lookup x = some v ∧ t.vars.lookup ('|' :: x ++ ['|']) = none) ∨
      (t.vars.lookup x = none ∧ t.vars.lookup ('|' :: x ++ ['|']) = some v)) :
    parseConstFunc t lit holder ph x = .ok v ∧ parseConstFunc t lit holder ph ('|' :: x ++ ['|']) = .ok v := by
  have g1 : globalVar t x = some v := by
    unfold globalVar
    rcases h with ⟨h1, h2⟩ | ⟨h1, h2⟩
    · rw [h1]
    · rw [h1]; simp only [hbar, Bool.false_eq_true, if_false, hnum, Bool.not_false, if_true]; exact h2
  have g2 : globalVar t ('|' :: x ++ ['|']) = some v := by
    unfold globalVar
    rcases h with ⟨h1, h2⟩ | ⟨h1, h2⟩
    · rw [h2]; simp only [inBars_bar hx, if_true, unbar, h1]
    · rw [h2]
  constructor
  · unfold parseConstFunc
    rw [if_neg ht, if_neg hf, named_global hn, g1]
  · unfold parseConstFunc
    rw [if_neg (by simp), if_neg (by simp), named_global hq, g2]

/-- **C54 (names).** A declared global name that no binder or function hides is read as its own variable, however else the tables look; in
particular a declaration of a constant's name hides the constant. -/
theorem declared_reads {α : Type} (t : Tables α) (lit : Lit → Res α) (holder : List Char → Res α) (ph : Bool) {x : List Char} {v : α}
    (ht : x ≠ cs!"true") (hf : x ≠ cs!"false") (hn : NotBound t x) (h : t.vars.lookup x = some v) : parseConstFunc t lit holder ph x = .ok v := by
  unfold parseConstFunc
  rw [if_neg ht, if_neg hf, named_global hn]
  unfold globalVar
  rw [h]

theorem unknown_aborts {α : Type} (t : Tables α) (lit : Lit → Res α) (holder : List Char → Res α) {s : List Char}
    (hu : Unused t s) (ht : s ≠ cs!"true") (hf : s ≠ cs!"false") (hc : constOf s = none) : parseConstFunc t lit holder false s = .abort := by
  unfold parseConstFunc
  rw [if_neg ht, if_neg hf, named_unused hu, hc]
  rfl

/-- tokens that are read as a constant although the language does not write it so -/
inductive Odd : List Char → Prop where
  | eps : Odd cs!"epsion"
  | posNan : Odd cs!"+NaN"
  | negNan : Odd cs!"-NaN"
  /-- no digit at all -/
  | bare {s} : s ∈ Tok.bare → Odd s
  /-- nothing after the point -/
  | noFrac {a ds} : Tok.Sign a → Tok.Digits ds → Odd (a ++ ds ++ ['.'])
  /-- nothing before the point -/
  | noWhole {a es} : Tok.Sign a → Tok.Digits es → Odd (a ++ '.' :: es)
  /-- no digit before the exponent -/
  | noMantissa {m c x} : c = 'e' ∨ c = 'E' → m ∈ Tok.bare → Tok.IntTok x → Odd (m ++ c :: x)
  /-- capital or decimal bit-vectors -/
  | hash {k s} : k ∈ ['B', 'X', 'd', 'D'] → Odd ('#' :: k :: s)
  | quote : Odd ['"']

theorem hex_digit {c : Char} (h : isHex c = true) : c.isDigit = true ∨ c ∈ ['a', 'b', 'c', 'd', 'e', 'f', 'A', 'B', 'C', 'D', 'E', 'F'] := by
  simp only [isHex, Bool.or_eq_true, beq_iff_eq] at h
  rcases h with ((((((((((((((((((((( h | h) | h) | h) | h) | h) | h) | h) | h) | h) | h) | h) | h) | h) | h) | h) | h) | h) | h) | h) | h) | h) <;>
    subst h <;> first | exact .inl (by decide) | exact .inr (by decide)

/-- **C54 (only constants).** A token that is read as a constant writes that constant, except for the listed odd ones.  (A token is a string, or
has no white space and no parenthesis.) -/
theorem constant_only_partial {s : List Char} {l : Lit} (hs : s.head? = some '"' ∨ ∀ c ∈ s, Str.isSpace c = false ∧ c ≠ '(')
    (h : constOf s = some l) : Writes s l ∨ Odd s := by
  by_cases hi : Str.isIntTok s = true
  · rw [constOf_int hi] at h
    cases h
    by_cases hb : s = ['+'] ∨ s = ['-']
    · exact .inr (.bare (by rcases hb with rfl | rfl <;> decide))
    · simp only [not_or] at hb
      obtain ⟨a, b, rfl, h1, h2⟩ := (Tok.isInt_exact_partial s hb).mp hi
      exact .inl (.int h1 h2)
  have hi := eq_false_of_ne_true hi
  by_cases hr : Tok.isReal s = true
  · rw [constOf_real hr hi] at h
    cases h
    by_cases hb : s ∈ Tok.bare
    · exact .inr (.bare hb)
    · obtain ⟨a, b, d, h1, h2, h3, h4, h5⟩ := (Tok.isReal_exact_partial s hb).mp hr
      have hint : ∀ {a b : List Char}, Tok.Sign a → (∀ c ∈ b, c.isDigit = true) → b ≠ [] → Str.isIntTok (a ++ b) = true := by
        intro a b h1 h2 h3
        rcases h1 with rfl | rfl | rfl
        · cases b with
          | nil => exact absurd rfl h3
          | cons c b =>
            simp only [List.nil_append, Str.isIntTok, h2 c List.mem_cons_self, Bool.or_true, Bool.true_and, List.all_eq_true]
            exact fun d hd => h2 d (List.mem_cons_of_mem _ hd)
        · simpa [Str.isIntTok] using h2
        · simpa [Str.isIntTok] using h2
      rcases h5 with rfl | ⟨rfl, rfl⟩
      · by_cases hbn : b = []
        · subst hbn
          rw [List.append_nil]
          exact .inr (.noWhole h1 ⟨by simpa using h4, h3⟩)
        · by_cases hdn : d = []
          · subst hdn
            exact .inr (.noFrac h1 ⟨hbn, h2⟩)
          · exact .inl (.real h1 ⟨hbn, h2⟩ ⟨hdn, h3⟩)
      · rw [hint h1 h2 (by simpa using h4)] at hi
        cases hi
  have hr := eq_false_of_ne_true hr
  by_cases hc : Tok.isSci s = true
  · rw [constOf_sci hc hi hr] at h
    cases h
    have hs' : ∀ c ∈ s, Str.isSpace c = false ∧ c ≠ '(' := by
      rcases hs with hs | hs
      · cases s with
        | nil => cases hs
        | cons c s =>
          cases hs
          rw [(not_number (c := '"') (s := s) (by decide) (by decide) (by decide) (by decide) (by decide) (by decide)).2.2] at hc
          cases hc
      · exact hs
    obtain ⟨m, c, e, rfl, h1, h2, h3⟩ := (Tok.isSci_exact_partial s hs').mp hc
    rcases h2 with h2 | h2
    · exact .inr (.noMantissa h1.symm h2 h3)
    · exact .inl (.sci h1.symm h2 h3)
  have hc := eq_false_of_ne_true hc
  by_cases hw : s ∈ words
  · simp only [words, List.mem_cons, List.not_mem_nil, or_false] at hw
    rcases hw with rfl | rfl | rfl | rfl | rfl | rfl | rfl | rfl | rfl | rfl | rfl
    · cases h; exact .inl .pi
    · cases h; exact .inl .e
    · cases h; exact .inl .inf
    · cases h; exact .inl .posInf
    · cases h; exact .inl .negInf
    · exact .inr .eps
    · cases h; exact .inl .posEps
    · cases h; exact .inl .negEps
    · cases h; exact .inl .nan
    · exact .inr .posNan
    · exact .inr .negNan
  rw [constOf_rest hw hi hr hc] at h
  by_cases hb : isBV s = true
  · rw [if_pos hb] at h
    cases h
    clear hi hr hc hw
    clear hi hr hc
    unfold isBV at hb
    split at hb
    · rename_i k c r
      by_cases h1 : k ∈ ['B', 'X', 'd', 'D']
      · exact .inr (.hash h1)
      · simp only [List.mem_cons, List.not_mem_nil, or_false, not_or] at h1
        obtain ⟨hB, hX, hd, hD⟩ := h1
        by_cases h2 : k = 'b'
        · subst h2
          simp only [true_or, if_true, List.all_eq_true] at hb
          have := Writes.bin (ds := c :: r) (by simp) (fun d hd => by
            have := hb d hd
            simp only [isBin, Bool.or_eq_true, beq_iff_eq] at this
            exact this)
          left
          simpa [bvWidth] using this
        · rw [if_neg (by simp [h2, hB])] at hb
          by_cases h3 : k = 'x'
          · subst h3
            simp only [true_or, if_true, List.all_eq_true] at hb
            have := Writes.hex (ds := c :: r) (by simp) (fun d hd => hex_digit (hb d hd))
            left
            simpa [bvWidth, Nat.mul_comm] using this
          · rw [if_neg (by simp [h3, hX]), if_neg (by simp [hd, hD])] at hb
            cases hb
    · cases hb
  rw [if_neg hb] at h
  by_cases hf : isFP s = true
  · exfalso
    simp only [isFP, Bool.and_eq_true, beq_iff_eq, decide_eq_true_eq] at hf
    cases s with
    | nil => simp at hf
    | cons c s =>
      have hcc : c = '(' := by
        have := hf.1.2
        simp only [List.take_succ_cons, List.cons.injEq] at this
        exact this.1
      rcases hs with hs | hs
      · subst hcc
        revert hs; simp
      · exact (hs c List.mem_cons_self).2 hcc
  rw [if_neg hf] at h
  by_cases hq : isString s = true
  · rw [if_pos hq] at h
    cases h
    simp only [isString, Bool.and_eq_true, beq_iff_eq] at hq
    cases s with
    | nil => simp at hq
    | cons c s =>
      have hcq : c = '"' := by simpa using hq.1
      subst hcq
      rcases List.eq_nil_or_concat s with rfl | ⟨b, d, rfl⟩
      · exact .inr .quote
      · rw [List.concat_eq_append] at hq ⊢
        rw [show '"' :: (b ++ [d]) = ('"' :: b) ++ [d] from rfl, last_append (by simp)] at hq
        have hd : d = '"' := by simpa using hq.2
        subst hd
        exact .inl .str
  rw [if_neg hq] at h
  by_cases e : s = cs!"re.none"
  · subst e; cases h; exact .inl .regNone
  rw [if_neg e] at h
  by_cases e : s = cs!"re.all"
  · subst e; cases h; exact .inl .regAll
  rw [if_neg e] at h
  by_cases e : s = cs!"re.allchar"
  · subst e; cases h; exact .inl .regAllchar
  rw [if_neg e] at h
  by_cases e : s = cs!"RNE" ∨ s = cs!"roundNearestTiesToEven"
  · rw [if_pos e] at h; cases h; rcases e with rfl | rfl <;> first | exact .inl .rne | exact .inl .rneL
  rw [if_neg e] at h
  by_cases e : s = cs!"RNA" ∨ s = cs!"roundNearestTiesToAway"
  · rw [if_pos e] at h; cases h; rcases e with rfl | rfl <;> first | exact .inl .rna | exact .inl .rnaL
  rw [if_neg e] at h
  by_cases e : s = cs!"RTP" ∨ s = cs!"roundTowardPositive"
  · rw [if_pos e] at h; cases h; rcases e with rfl | rfl <;> first | exact .inl .rtp | exact .inl .rtpL
  rw [if_neg e] at h
  by_cases e : s = cs!"RTN" ∨ s = cs!"roundTowardNegative"
  · rw [if_pos e] at h; cases h; rcases e with rfl | rfl <;> first | exact .inl .rtn | exact .inl .rtnL
  rw [if_neg e] at h
  by_cases e : s = cs!"RTZ" ∨ s = cs!"roundTowardZero"
  · rw [if_pos e] at h; cases h; rcases e with rfl | rfl <;> first | exact .inl .rtz | exact .inl .rtzL
  rw [if_neg e] at h
  cases h

/-- **C54 (unknown names).** A token that no table has, with or without bars, that writes no constant and is not odd is an error outside
placeholder mode: no variable is invented for it. -/
theorem unknown_name_aborts {α : Type} (t : Tables α) (lit : Lit → Res α) (holder : List Char → Res α) {s : List Char}
    (hs : s.head? = some '"' ∨ ∀ c ∈ s, Str.isSpace c = false ∧ c ≠ '(')
    (hu : Unused t s) (hw : ∀ l, ¬ Writes s l) (ho : ¬ Odd s) : parseConstFunc t lit holder false s = .abort := by
  refine unknown_aborts t lit holder hu ?_ ?_ ?_
  · rintro rfl; exact hw _ .tru
  · rintro rfl; exact hw _ .fls
  · cases hc : constOf s with
    | none => rfl
    | some l => 
      rcases constant_only_partial hs hc with h | h
      · exact absurd h (hw l)
      · exact absurd h ho

/-- **C54 violated: odd constants.** `+e5` (no digit before the exponent) and `.` are read as constants, not reported as unknown names. -/
theorem odd_violated : constOf cs!"+e5" = some (.sci cs!"+e5") ∧ constOf cs!"." = some (.real cs!".") ∧ constOf ['"'] = some (.str ['"']) := by
  decide

/-! ## Where the property fails -/

/-- **C54 violated: `epsilon`.** The positive infinitesimal, which the library prints as `epsilon`, is not read back: whatever constants are, it is
an error; the misspelt `epsion` is read instead. -/
theorem epsilon_violated {α : Type} (t : Tables α) (lit : Lit → Res α) (holder : List Char → Res α) (hu : Unused t cs!"epsilon") :
    parseConstFunc t lit holder false cs!"epsilon" = .abort :=
  unknown_aborts t lit holder hu (by decide) (by decide) (by decide)

theorem epsion_reads {α : Type} (t : Tables α) (lit : Lit → Res α) (holder : List Char → Res α) (ph : Bool) (hu : Unused t cs!"epsion") :
    parseConstFunc t lit holder ph cs!"epsion" = lit .eps := by
  unfold parseConstFunc
  rw [if_neg (by decide), if_neg (by decide), named_unused hu]
  rfl

/-- **C54 violated: bound variables in bars.** A bound variable `x` (of a quantifier, a let or a definition) is not found under the name `|x|`:
the token is the global variable `x`, when there is one, and otherwise an error. -/
theorem bound_bars_violated {α : Type} (t : Tables α) (lit : Lit → Res α) (holder : List Char → Res α) {x : List Char} {v : α}
    (hx : x ≠ []) (hb : t.quants.lookup x = some v ∨ t.lets.lookup x = some v ∨ t.funVars.lookup x = some v)
    (hq : NotBound t ('|' :: x ++ ['|'])) (h1 : t.vars.lookup ('|' :: x ++ ['|']) = none)
    (h2 : t.vars.lookup ('|' :: ('|' :: x ++ ['|']) ++ ['|']) = none) (hc : constOf ('|' :: x ++ ['|']) = none) :
    parseConstFunc t lit holder false ('|' :: x ++ ['|']) =
      match t.vars.lookup x with
      | some g => .ok g
      | none => .abort := by
  unfold parseConstFunc
  rw [if_neg (by simp), if_neg (by simp), named_global hq]
  unfold globalVar
  rw [h1]
  simp only [inBars_bar hx, if_true, unbar]
  cases hg : t.vars.lookup x with
  | some g => rfl
  | none =>
    simp only [h2, ite_self, hc]
    rfl

/-- **C54 violated: two variables.** When `x` and `|x|` have both been declared (the second declaration is not an error), the two tokens are two
different variables. -/
theorem both_declared_violated {α : Type} (t : Tables α) (lit : Lit → Res α) (holder : List Char → Res α) (ph : Bool) {x : List Char} {v w : α}
    (ht : x ≠ cs!"true") (hf : x ≠ cs!"false") (hn : NotBound t x) (hq : NotBound t ('|' :: x ++ ['|']))
    (h1 : t.vars.lookup x = some v) (h2 : t.vars.lookup ('|' :: x ++ ['|']) = some w) :
    parseConstFunc t lit holder ph x = .ok v ∧ parseConstFunc t lit holder ph ('|' :: x ++ ['|']) = .ok w :=
  ⟨declared_reads t lit holder ph ht hf hn h1, declared_reads t lit holder ph (by simp) (by simp) hq h2⟩

/-! ## The hypotheses are met -/

/-- `x`, `|y z|` and `pi` are declared, `b` is bound by a quantifier -/
def demo : Tables Nat :=
  { holders := [], lets := [], funs := [(cs!"f", 9)], funVars := [], quants := [(cs!"b", 4)], vars := [(cs!"x", 1), (cs!"|y z|", 2), (cs!"pi", 3)] }

example : parseConstFunc demo (fun _ => .ok 0) (fun _ => .abort) false cs!"|x|" = .ok 1 ∧
    parseConstFunc demo (fun _ => .ok 0) (fun _ => .abort) false cs!"x" = .ok 1 :=
  (quoted_same_partial demo _ _ false (x := cs!"x") (v := 1) (by decide) (by decide) (by decide) (by decide) (by decide)
    ⟨rfl, rfl, rfl, rfl, rfl⟩ ⟨rfl, rfl, rfl, rfl, rfl⟩ (.inl ⟨rfl, rfl⟩)).symm

example : parseConstFunc demo (fun _ => .ok 0) (fun _ => .abort) false cs!"y z" = .ok 2 :=
  (quoted_same_partial demo _ _ false (x := cs!"y z") (v := 2) (by decide) (by decide) (by decide) (by decide) (by decide)
    ⟨rfl, rfl, rfl, rfl, rfl⟩ ⟨rfl, rfl, rfl, rfl, rfl⟩ (.inr ⟨rfl, rfl⟩)).1

example : parseConstFunc demo (fun l => if l = .bv cs!"#xFf" 8 then .ok 7 else .ub) (fun _ => .abort) false cs!"#xFf" = .ok 7 :=
  literal_reads_partial demo _ _ false (s := cs!"#xFf") (.hex (ds := cs!"Ff") (by decide) (by decide)) ⟨rfl, rfl, rfl, rfl, rfl, rfl, rfl, rfl⟩

example : parseConstFunc demo (fun l => if l = .sci cs!"-1.5e+3" then .ok 7 else .ub) (fun _ => .abort) true cs!"-1.5e+3" = .ok 7 :=
  literal_reads_partial demo _ _ true (s := cs!"-1.5e+3")
    (.sci (m := cs!"-1.5") (c := 'e') (x := cs!"+3") (.inl rfl)
      ⟨cs!"-", cs!"1", cs!"5", .inr (.inl rfl), by decide, by decide, by decide, .inl rfl⟩ ⟨cs!"+", cs!"3", rfl, .inr (.inr rfl), (by decide), (by decide)⟩)
    ⟨rfl, rfl, rfl, rfl, rfl, rfl, rfl, rfl⟩

example : parseConstFunc demo (fun _ => .ok 0) (fun _ => .abort) false cs!"pi" = .ok 3 :=
  declared_reads demo _ _ false (by decide) (by decide) ⟨rfl, rfl, rfl, rfl, rfl⟩ rfl

example : parseConstFunc demo (fun _ => .ok 0) (fun _ => .abort) false cs!"|b|" = .abort :=
  bound_bars_violated demo _ _ (x := cs!"b") (v := 4) (by decide) (.inl rfl) ⟨rfl, rfl, rfl, rfl, rfl⟩ rfl rfl (by decide)

end SMT.Leaf
