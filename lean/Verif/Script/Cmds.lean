import Verif.Script.Rep

/-! # The commands one by one (lemmas for C56, C57) -/

namespace SMT.Script
open SMT SMT.Text SMT.Lex SMT.Sorts SMT.Parse

set_option linter.unusedSimpArgs false
set_option linter.unusedVariables false

/-- the command is read and recorded -/
def Does (cfg : Cfg) (cs : List Cmd) (c : Cmd) (x : Sexp) : Prop :=
  ∀ (tx r : List Char) (l : Nat) (s : S), Lay cfg.file x tx → State cfg cs s → ∃ (s' : S) (k : Nat), State cfg (cs ++ [c]) s' ∧
    ∀ m, k ≤ m → loop cfg (m + 1) { s with p := s.p.at l (tx ++ r) } = loop cfg m { s' with p := s'.p.at (l + nls tx) r }

/-- what is behind the name of the command is read -/
def Tail (cfg : Cfg) (cs : List Cmd) (c : Cmd) (h : List Char) (xs : List Sexp) : Prop :=
  ∀ (b r : List Char) (l : Nat) (s : S), LayL cfg.file xs b → State cfg cs s → ∃ (s' : S) (p1 : P) (k : Nat), State cfg (cs ++ [c]) s' ∧
    rpar p1 = .ok (s'.p.at (l + nls b) r) ∧
    ∀ m, k ≤ m → dispatch cfg m h { s with p := s.p.at l (b ++ ')' :: r) } = .ok (false, { s' with p := p1 })

theorem does_tail {cfg : Cfg} {cs : List Cmd} {c : Cmd} {h : List Char} {xs : List Sexp} (ht : Tail cfg cs c h xs) :
    Does cfg cs c (.list (.atom h :: xs)) := by
  intro tx r l s hl hs
  obtain ⟨b, g, h1, h2, h3, h4⟩ := open_at hl s.p l r
  obtain ⟨b', l', e1, e2, e3, _, _⟩ := word_at h1 s.p (l + nls g) r
  obtain ⟨s', p1, k, i1, i2, i3⟩ := ht b' r l' s e1 hs
  refine ⟨s', k, i1, fun m hm => ?_⟩
  rw [loop, if_neg (by rw [h2]; simp)]
  simp only [h3, Res.ok_bind, command, e2, i3 m hm, i2]
  rw [e3, h4, Nat.add_assoc]
  rfl

/-- a list inside a list is opened -/
theorem list_at {cfg : Cfg} {ys xs : List Sexp} {b : List Char} (h : LayL cfg.file (.list ys :: xs) b) (p : P) (l : Nat) (r : List Char) :
    ∃ (b1 : List Char) (l1 : Nat) (r1 b' : List Char) (l' : Nat), LayL cfg.file ys b1 ∧ LayL cfg.file xs b' ∧
      lpar (p.at l (b ++ ')' :: r)) = .ok (p.at l1 (b1 ++ ')' :: r1)) ∧
      (∀ q : P, q.at (l1 + nls b1) r1 = q.at l' (b' ++ ')' :: r)) ∧ l' + nls b' = l + nls b ∧ (p.at l (b ++ ')' :: r)).cur = some '(' := by
  obtain ⟨tx, b', g, h1, h2, h3, _, h5, h6, _, h7, _⟩ := part_at h p l r
  obtain ⟨b1, g1, k1, k2, k3, k4⟩ := open_at h1 p l (g ++ (b' ++ ')' :: r))
  refine ⟨b1, l + nls g1, g ++ (b' ++ ')' :: r), b', l + nls tx + nls g, k1, h2, ?_, fun q => ?_, by omega, h7.2 ⟨_, rfl⟩⟩
  · rw [h5, k3]
  · rw [at_gap _ _ _ h3, k4, Nat.add_assoc l]

/-! ## Without arguments -/

theorem clean_state {cfg : Cfg} {cs : List Cmd} {s : S} (h : State cfg cs s) (c : Cmd) (hc : c.assertion = none ∧ c.softs = none ∧ c.vars = none ∧
    c.fn = [] ∧ c.goals = none ∧ c.defined = none ∧ c.marks = []) (h2 : c.sorts = none) : State cfg (cs ++ [c]) { s with
      checkSat := s.checkSat || c.isCheckSat
      getModel := s.getModel || c.isGetModel
      getObjectives := s.getObjectives || c.isGetObjectives
      logic := c.logics.getD s.logic } := ⟨h.rep.other c hc, h.clean.more h2⟩

theorem tail_checkSat (cfg : Cfg) (cs : List Cmd) (xs : List Sexp) : Tail cfg cs .checkSat cs!"check-sat" xs := by
  intro b r l s hl hs
  refine ⟨_, _, 0, clean_state hs .checkSat ⟨rfl, rfl, rfl, rfl, rfl, rfl, rfl⟩ rfl, skip_rest hl s.p l r, fun m _ => ?_⟩
  simp [dispatch, Cmd.isCheckSat, Cmd.isGetModel, Cmd.isGetObjectives, Cmd.logics]

theorem tail_getModel (cfg : Cfg) (cs : List Cmd) (xs : List Sexp) : Tail cfg cs .getModel cs!"get-model" xs := by
  intro b r l s hl hs
  refine ⟨_, _, 0, clean_state hs .getModel ⟨rfl, rfl, rfl, rfl, rfl, rfl, rfl⟩ rfl, skip_rest hl s.p l r, fun m _ => ?_⟩
  simp [dispatch, Cmd.isCheckSat, Cmd.isGetModel, Cmd.isGetObjectives, Cmd.logics]

theorem tail_getObjectives (cfg : Cfg) (cs : List Cmd) (xs : List Sexp) : Tail cfg cs .getObjectives cs!"get-objectives" xs := by
  intro b r l s hl hs
  refine ⟨_, _, 0, clean_state hs .getObjectives ⟨rfl, rfl, rfl, rfl, rfl, rfl, rfl⟩ rfl, skip_rest hl s.p l r, fun m _ => ?_⟩
  simp [dispatch, Cmd.isCheckSat, Cmd.isGetModel, Cmd.isGetObjectives, Cmd.logics]

theorem tail_nothing (cfg : Cfg) (cs : List Cmd) {h : List Char} (xs : List Sexp) (hh : h ∈ harmless) : Tail cfg cs .nothing h xs := by
  intro b r l s hl hs
  refine ⟨_, _, 0, clean_state hs .nothing ⟨rfl, rfl, rfl, rfl, rfl, rfl, rfl⟩ rfl, skip_rest hl s.p l r, fun m _ => ?_⟩
  simp only [harmless, List.mem_cons, List.not_mem_nil, or_false] at hh
  rcases hh with rfl | rfl | rfl | rfl | rfl | rfl | rfl | rfl | rfl | rfl | rfl <;>
    simp [dispatch, skipped, Cmd.isCheckSat, Cmd.isGetModel, Cmd.isGetObjectives, Cmd.logics]

theorem logics_known : ∀ l ∈ knownLogics, l ∈ logics := by decide +kernel

theorem tail_logic (cfg : Cfg) (cs : List Cmd) {l : List Char} (h : l ∈ knownLogics) : Tail cfg cs (.logic l) cs!"set-logic" [.atom l] := by
  intro b r ln s hl hs
  obtain ⟨b', l', e1, e2, e3, _, _⟩ := word_at hl s.p ln r
  obtain ⟨c1, c2, c3, c4⟩ := close_at e1 s.p l' r
  refine ⟨_, s.p.at l' (b' ++ ')' :: r), 0, clean_state hs (.logic l) ⟨rfl, rfl, rfl, rfl, rfl, rfl, rfl⟩ rfl, ?_, fun m _ => ?_⟩
  · rw [c1, ← e3, c4]; rfl
  · have : dispatch cfg m cs!"set-logic" { s with p := s.p.at ln (b ++ ')' :: r) } =
      (do let s ← cmdLogic cfg { s with p := s.p.at ln (b ++ ')' :: r) }; return (false, s)) := rfl
    rw [this, cmdLogic]
    simp only [e2, Res.ok_bind, if_pos (logics_known l h), Res.pure_eq]
    simp [Cmd.isCheckSat, Cmd.isGetModel, Cmd.isGetObjectives, Cmd.logics]

/-! ## Assertions -/

theorem tail_assert {cfg : Cfg} {cs : List Cmd} {x : Sexp} {e : T D} {g1 g2 a : Option (List Char)} (hx : Term (sorts cs) x e)
    (h1 : g1 = none ∨ g2 = none) (h2 : a = none ∨ g1 ≠ none ∨ g2 ≠ none) :
    Tail cfg cs (.assert e (g1.or g2) a) cs!"assert" (opt cs!":id" g1 ++ x :: (opt cs!":id" g2 ++ opt cs!":named" a)) := by
  intro b r l s hl hs
  obtain ⟨b1, l1, k1, i1, i2, n1, p1, i3, i4⟩ := opt_at (k := .null) hl (want := .id) (by simp [kwTable])
    (fun _ y hy => by simp only [List.head?_cons, Option.some.injEq] at hy; subst hy; exact hx.notKw) s.p l r
  obtain ⟨t, q, k, b2, l2, j1, j2, j3, j4, j5⟩ := term_at hs.clean hx i1 l1 r
  have main : ∃ b3 l3, LayL cfg.file (opt cs!":named" a) b3 ∧ l3 + nls b3 = l2 + nls b2 ∧ (∀ w, g1.or g2 = some w → w ≠ []) ∧
      idAfter cfg (g1.getD []) (q.at l2 (b2 ++ ')' :: r)) = .ok ((g1.or g2).getD [], q.at l3 (b3 ++ ')' :: r)) := by
    cases g1 with
    | some w =>
      have hg2 : g2 = none := by simpa using h1
      subst hg2
      refine ⟨b2, l2, j3, rfl, by simpa using n1, ?_⟩
      unfold idAfter
      rw [if_neg (by simpa using n1 w rfl)]
      rfl
    | none =>
      obtain ⟨b3, l3, k3, m1, m2, m3, p3, m4, m5⟩ := opt_at (k := .null) j3 (want := .id) (by simp [kwTable]) (fun e y hy => by
        have : a = none := by simpa [e] using h2
        subst this
        simp [opt] at hy) q l2 r
      refine ⟨b3, l3, m1, m2, by simpa using m3, ?_⟩
      unfold idAfter
      rw [if_pos (show (none : Option (List Char)).getD [] = [] from rfl), m4]
      simp only [Res.ok_bind, m5]
      rfl
  obtain ⟨b3, l3, m1, m2, m3, m4⟩ := main
  obtain ⟨b4, l4, k4, o1, o2, o3, p4, o4, o5⟩ := opt_at (k := .null) (xs := []) (by simpa using m1) (want := .named) (a := cs!":named")
    (by simp [kwTable]) (fun _ y hy => by simp at hy) q l3 r
  refine ⟨_, skipTo (q.at l4 (b4 ++ ')' :: r)), k, ⟨(hs.rep.assert j1 (g1.or g2) a m3 o3).setP q, j2.more rfl⟩, ?_, fun m hm => ?_⟩
  · rw [skip_rest o1]
    rw [o2, m2, j4, i2]
  · have : dispatch cfg m cs!"assert" { s with p := s.p.at l (b ++ ')' :: r) } =
      (do let s ← cmdAssert cfg m { s with p := s.p.at l (b ++ ')' :: r) }; return (false, s)) := rfl
    rw [this, cmdAssert]
    simp only [i3, i4, Res.ok_bind, j5 m hm, m4, o4, o5, Res.pure_eq]
    rfl

/-! ## Attributes -/

theorem last_snoc (key : List Char) (as : List (List Char × List Char)) (k v : List Char) :
    last key (as ++ [(k, v)]) = if key = k then some v else last key as := by
  unfold last
  rw [List.reverse_append]
  simp only [List.reverse_cons, List.reverse_nil, List.nil_append, List.cons_append, List.lookup_cons]
  by_cases h : key = k
  · simp [h]
  · have : (key == k) = false := by simpa using h
    simp [this, h]

theorem last_mem {key : List Char} {as : List (List Char × List Char)} {v : List Char} (h : last key as = some v) : (key, v) ∈ as := by
  unfold last at h
  rw [← List.mem_reverse]
  generalize as.reverse = bs at h
  induction bs with
  | nil => cases h
  | cons b bs ih =>
    obtain ⟨k, w⟩ := b
    rw [List.lookup_cons] at h
    by_cases e : key = k
    · subst e
      simp only [beq_self_eq_true, Option.some.injEq] at h
      simp [h]
    · have : (key == k) = false := by simpa using e
      rw [this] at h
      exact List.mem_cons_of_mem _ (ih h)

/-- the values of attributes are words -/
theorem attrs_ne {file : Bool} : ∀ {as : List (List Char × List Char)} {xs : List Sexp} {b : List Char}, LayL file (attrs as ++ xs) b →
    (∀ a ∈ as, a.2 ≠ []) ∧ ∃ b', LayL file xs b'
  | [], _, b, h => ⟨by simp, b, h⟩
  | (k, v) :: as, _, _, h => by
    simp only [attrs, List.cons_append] at h
    obtain ⟨_, _, _, _, _, _, h', _⟩ := h.cons_inv
    obtain ⟨_, _, _, _, h1, _, h'', _⟩ := h'.cons_inv
    have ht := h1.atom_inv.2
    obtain ⟨h2, h3⟩ := attrs_ne h''
    refine ⟨fun a ha => ?_, h3⟩
    rcases List.mem_cons.1 ha with rfl | ha
    · obtain ⟨c, u, e, _⟩ := ht.head
      simp only at e ⊢
      simp [e]
    · exact h2 a ha

/-- what `softKeys` has found -/
def softAcc (as : List (List Char × List Char)) : List Char × List Char := ((last cs!":id" as).getD [], (last cs!":weight" as).getD [])

theorem softKeys_at {cfg : Cfg} : ∀ (as : List (List Char × List Char)) (n : Nat) (as0 : List (List Char × List Char)) {xs : List Sexp} {b : List Char},
    as.length ≤ n → LayL cfg.file (attrs as ++ xs) b → (∀ x, xs.head? = some x → NotKw x) → (∀ a ∈ as, a.1 ∈ [cs!":id", cs!":weight"]) →
    ∀ (p : P) (l : Nat) (r : List Char), ∃ b' l', LayL cfg.file xs b' ∧ l' + nls b' = l + nls b ∧
      softKeys cfg n (softAcc as0) (p.at l (b ++ ')' :: r)) = .ok (softAcc (as0 ++ as), p.at l' (b' ++ ')' :: r))
  | [], n, as0, xs, b, _, hl, hx, _, p, l, r => by
    refine ⟨b, l, hl, rfl, ?_⟩
    cases n with
    | zero => simp [softKeys]
    | succ n =>
      rw [softKeys, kw_none (xs := xs) hl hx]
      simp
  | (k, v) :: as, 0, _, _, _, h, _, _, _, _, _, _ => by simp at h
  | (k, v) :: as, n + 1, as0, xs, b, h, hl, hx, hk, p, l, r => by
    simp only [attrs, List.cons_append] at hl
    have hk0 := hk (k, v) (by simp)
    simp only [List.mem_cons, List.not_mem_nil, or_false] at hk0
    have hkw : ∃ w, (k, w) ∈ kwTable ∧ (w = .id ∧ k = cs!":id" ∨ w = .weight ∧ k = cs!":weight") := by
      rcases hk0 with rfl | rfl
      · exact ⟨.id, by simp [kwTable], .inl ⟨rfl, rfl⟩⟩
      · exact ⟨.weight, by simp [kwTable], .inr ⟨rfl, rfl⟩⟩
    obtain ⟨w, hw, hw2⟩ := hkw
    obtain ⟨b1, l1, h1, e1, k1⟩ := kw_at hl hw p l r
    obtain ⟨b2, l2, h2, e2, e3, _, _⟩ := word_at h1 p l1 r
    obtain ⟨b3, l3, h3, e4, e5⟩ := softKeys_at as n (as0 ++ [(k, v)]) (by simpa using h) h2 hx (fun a ha => hk a (by simp [ha])) p l2 r
    refine ⟨b3, l3, h3, by omega, ?_⟩
    rw [softKeys, k1]
    simp only [Res.ok_bind, e2]
    rw [List.append_assoc] at e5
    rw [List.singleton_append] at e5
    rw [← e5]
    rcases hw2 with ⟨rfl, rfl⟩ | ⟨rfl, rfl⟩ <;> simp [softAcc, last_snoc]

theorem weight_is {o : Option (List Char)} {w : Weight} (h : WeightIs o w) : weightOf (o.getD []) = .ok w := by
  have hd : ∀ c : Char, c.isDigit = true → c ≠ '.' := by
    rintro c h rfl; revert h; decide
  have real : ∀ (ds es : List Char), (∀ c ∈ ds, c.isDigit = true) → (∀ c ∈ es, c.isDigit = true) → Tok.realGo false (ds ++ '.' :: es) = true := by
    intro ds es h1 h2
    have h3 : ∀ es : List Char, (∀ c ∈ es, c.isDigit = true) → Tok.realGo true es = true := by
      intro es h
      induction es with
      | nil => rfl
      | cons c es ih => simp [Tok.realGo, h c (by simp), ih fun x hx => h x (by simp [hx])]
    induction ds with
    | nil => simp [Tok.realGo, h3 es h2]
    | cons c ds ih =>
      have := h1 c (by simp)
      simp [Tok.realGo, this, hd c this, ih fun x hx => h1 x (by simp [hx])]
  have nint : ∀ (m ds es : List Char), ds ≠ [] → Str.isIntTok (m ++ (ds ++ '.' :: es)) = false := by
    intro m ds es hne
    obtain ⟨c, w, e⟩ : ∃ c w, m ++ ds = c :: w := by
      cases hm : m ++ ds with
      | nil => simp at hm; exact absurd hm.2 hne
      | cons c w => exact ⟨c, w, rfl⟩
    rw [← List.append_assoc, e]
    simp only [List.cons_append, Str.isIntTok, List.all_append, List.all_cons]
    simp
  cases h with
  | none => rfl
  | int hm hds =>
    rename_i m ds
    obtain ⟨c, w, rfl⟩ : ∃ c w, ds = c :: w := by
      cases ds with
      | nil => exact absurd rfl hds.1
      | cons c w => exact ⟨c, w, rfl⟩
    have hc := hds.2 c (by simp)
    have hw : ∀ x ∈ w, x.isDigit = true := fun x hx => hds.2 x (by simp [hx])
    rcases hm with rfl | rfl
    · simp [weightOf, Str.isIntTok, hc]
      exact fun x hx hf => by rw [hw x hx] at hf; cases hf
    · simp [weightOf, Str.isIntTok, hc]
      exact fun x hx hf => by rw [hw x hx] at hf; cases hf
  | real hm hds hes =>
    rename_i m ds es
    have h1 := nint m ds es hds.1
    have h2 : Tok.isReal (m ++ (ds ++ '.' :: es)) = true := by
      have hr := real ds es hds.2 hes.2
      rcases hm with rfl | rfl
      · obtain ⟨c, w, rfl⟩ : ∃ c w, ds = c :: w := by
          cases ds with
          | nil => exact absurd rfl hds.1
          | cons c w => exact ⟨c, w, rfl⟩
        have hc := hds.2 c (by simp)
        have n1 : c ≠ '-' := by rintro rfl; revert hc; decide
        have n2 : c ≠ '+' := by rintro rfl; revert hc; decide
        simpa [Tok.isReal, n1, n2] using hr
      · simpa [Tok.isReal] using hr
    unfold weightOf
    rw [if_pos (by simp [hds.1]), Option.getD_some, h1, h2]
    simp

theorem tail_soft {cfg : Cfg} {cs : List Cmd} {x : Sexp} {e : T D} {as bs : List (List Char × List Char)} {w : Weight} (hx : Term (sorts cs) x e)
    (ha : as.length ≤ 2) (hb : bs.length ≤ 2) (hk : ∀ a ∈ as ++ bs, a.1 ∈ [cs!":id", cs!":weight"]) (hw : WeightIs (last cs!":weight" (as ++ bs)) w) :
    Tail cfg cs (.soft e w (last cs!":id" (as ++ bs))) cs!"assert-soft" (attrs as ++ x :: attrs bs) := by
  intro b r l s hl hs
  obtain ⟨b1, l1, i1, i2, i3⟩ := softKeys_at as 2 [] ha hl
    (fun y hy => by simp only [List.head?_cons, Option.some.injEq] at hy; subst hy; exact hx.notKw)
    (fun a h => hk a (by simp [h])) s.p l r
  obtain ⟨t, q, k, b2, l2, j1, j2, j3, j4, j5⟩ := term_at hs.clean hx i1 l1 r
  obtain ⟨b3, l3, m1, m2, m3⟩ := softKeys_at (xs := []) bs 2 as hb (by simpa using j3) (by simp) (fun a h => hk a (by simp [h])) q l2 r
  have hne : ∀ v, last cs!":id" (as ++ bs) = some v → v ≠ [] := by
    intro v hv
    have := last_mem hv
    rcases List.mem_append.1 this with h | h
    · exact (attrs_ne hl).1 _ h
    · exact (attrs_ne (xs := []) (by simpa using j3)).1 _ h
  refine ⟨_, skipTo (q.at l3 (b3 ++ ')' :: r)), k, ⟨(hs.rep.softly j1 w _ hne).setP q, j2.more rfl⟩, ?_, fun m hm => ?_⟩
  · rw [skip_rest m1]
    rw [m2, j4, i2]
  · have : dispatch cfg m cs!"assert-soft" { s with p := s.p.at l (b ++ ')' :: r) } =
      (do let s ← cmdSoft cfg m { s with p := s.p.at l (b ++ ')' :: r) }; return (false, s)) := rfl
    rw [this, cmdSoft]
    have h0 : (([] : List Char), ([] : List Char)) = softAcc [] := rfl
    simp only [h0, i3, Res.ok_bind, j5 m hm, List.nil_append, m3, Res.pure_eq]
    rw [show (softAcc (as ++ bs)).2 = (last cs!":weight" (as ++ bs)).getD [] from rfl, weight_is hw]
    rfl

/-! ## Declarations -/

theorem var_p (s : S) (n : List Char) (so : Srt) (a b : P) :
    { ({ s with p := a } : S).var n so with p := b } = { s.var n so with p := b } := by
  unfold S.var
  simp only
  cases s.vars.lookup n <;> rfl

theorem tail_const {cfg : Cfg} {cs : List Cmd} {n : List Char} {y : Sexp} {d : D} (hy : SortOf (sorts cs) y d) (hn : ∀ v ∈ vars cs, v.1 ≠ n) :
    Tail cfg cs (.var n d) cs!"declare-const" [.atom n, y] := by
  intro b r l s hl hs
  obtain ⟨b1, l1, e1, e2, e3, _, _⟩ := word_at hl s.p l r
  obtain ⟨t, q, k, b2, l2, _, j1, j2, j3, j4, j5⟩ := sort_at hs.clean hy e1 l1 r
  refine ⟨_, skipTo (q.at l2 (b2 ++ ')' :: r)), k, ⟨(hs.rep.addVar j1 n hn).setP q, j2.more rfl⟩, ?_, fun m hm => ?_⟩
  · rw [skip_rest j3]
    rw [j4, e3]
  · have : dispatch cfg m cs!"declare-const" { s with p := s.p.at l (b ++ ')' :: r) } =
      (do let s ← cmdConst cfg m { s with p := s.p.at l (b ++ ')' :: r) }; return (false, s)) := rfl
    rw [this, cmdConst]
    simp only [e2, Res.ok_bind, j5 m hm, Res.pure_eq]
    rw [var_p]

theorem tail_fun0 {cfg : Cfg} {cs : List Cmd} {n : List Char} {y : Sexp} {d : D} (hy : SortOf (sorts cs) y d) (hn : ∀ v ∈ vars cs, v.1 ≠ n) :
    Tail cfg cs (.var n d) cs!"declare-fun" [.atom n, .list [], y] := by
  intro b r l s hl hs
  obtain ⟨b1, l1, e1, e2, e3, _, _⟩ := word_at hl s.p l r
  obtain ⟨b2, l2, r2, b3, l3, f1, f2, f3, f4, f5, _⟩ := list_at e1 s.p l1 r
  obtain ⟨c1, c2, _, c4⟩ := close_at f1 s.p l2 r2
  obtain ⟨t, q, k, b4, l4, _, j1, j2, j3, j4, j5⟩ := sort_at hs.clean hy f2 l3 r
  refine ⟨_, skipTo (q.at l4 (b4 ++ ')' :: r)), k, ⟨(hs.rep.addVar j1 n hn).setP q, j2.more rfl⟩, ?_, fun m hm => ?_⟩
  · rw [skip_rest j3]
    rw [j4, f5, e3]
  · have : dispatch cfg m cs!"declare-fun" { s with p := s.p.at l (b ++ ')' :: r) } =
      (do let s ← cmdFun cfg m { s with p := s.p.at l (b ++ ')' :: r) }; return (false, s)) := rfl
    rw [this, cmdFun]
    have f4' := f4 s.p
    rw [c4, Nat.add_zero] at f4'
    simp only [e2, Res.ok_bind, f3, if_pos c2, c1, f4', j5 m hm, Res.pure_eq]
    rw [var_p]

/-- a function that is not known -/
theorem funs_none {cs : List Cmd} {s : S} (h : Represents cs s) {n : List Char} (hn : n ∉ fnNames (functions cs)) : s.funs.lookup n = none := by
  have h2 : s.funs.map (fun v => v.1) = (functions cs).map fun v => v.1 := by
    have := congrArg (List.map fun v => v.1) h.funs
    simpa [Function.comp_def] using this
  rw [List.lookup_eq_none_iff]
  intro a ha
  have h3 : a.1 ∈ fnNames (functions cs) := by unfold fnNames; rw [← h2]; exact List.mem_map_of_mem ha
  have : a.1 ≠ n := fun e => hn (e ▸ h3)
  simpa using this.symm

theorem tail_fun {cfg : Cfg} {cs : List Cmd} {n : List Char} {ys : List Sexp} {ds : List D} {y : Sexp} {d : D} (hys : SortsOf (sorts cs) ys ds)
    (hne : ys ≠ []) (hy : SortOf (sorts cs) y d) (hn : n ∉ fnNames (functions cs)) :
    Tail cfg cs (.fns [(n, .dec ds d)]) cs!"declare-fun" [.atom n, .list ys, y] := by
  intro b r l s hl hs
  obtain ⟨b1, l1, e1, e2, e3, _, _⟩ := word_at hl s.p l r
  obtain ⟨b2, l2, r2, b3, l3, f1, f2, f3, f4, f5, _⟩ := list_at e1 s.p l1 r
  obtain ⟨ts, q1, k1, g1, g2, g3⟩ := sorts_at hys hs.clean f1 l2 r2
  obtain ⟨t, q, k, b4, l4, _, j1, j2, j3, j4, j5⟩ := sort_at g2 hy f2 l3 r
  have hcur : (s.p.at l2 (b2 ++ ')' :: r2)).cur ≠ some ')' := by
    cases ys with
    | nil => exact absurd rfl hne
    | cons z zs =>
      obtain ⟨_, _, _, _, _, _, _, _, _, n1, _, _⟩ := part_at f1 s.p l2 r2
      exact n1
  have hrep := hs.rep.addFns (fs := [(n, .dec ds d)]) (gs := [(n, .dec ts t)]) (by simp [Fn.map, g1, j1])
  refine ⟨_, skipTo (q.at l4 (b4 ++ ')' :: r)), k + k1, ⟨hrep.setP q, j2.more rfl⟩, ?_, fun m hm => ?_⟩
  · rw [skip_rest j3]
    rw [j4, f5, e3]
  · have : dispatch cfg m cs!"declare-fun" { s with p := s.p.at l (b ++ ')' :: r) } =
      (do let s ← cmdFun cfg m { s with p := s.p.at l (b ++ ')' :: r) }; return (false, s)) := rfl
    rw [this, cmdFun]
    simp only [e2, Res.ok_bind, f3, if_neg hcur, g3 m (by omega), rpar_at, f4, j5 m (by omega), mkFuncDec, funs_none hs.rep hn, Res.pure_eq,
      List.nil_append]
    simp [Fn.body, namingsL]

/-- a sort is added to the table -/
theorem addKey_clean {cfg : Cfg} {cs : List Cmd} {p : P} (h : Clean cfg cs p) {n : List Char} {d : D} (hn : n ∉ declNames (sorts cs))
    (hg : GoodDecl (sorts cs ++ [(n, d)])) {so : Srt} (hd : Denotes so d) : Clean cfg (cs ++ [.sort n d]) (addKey p n so) := by
  have e : sorts (cs ++ [.sort n d]) = sorts cs ++ [(n, d)] := by simp [sorts, List.filterMap_append, Cmd.sorts]
  have hnone : p.keys.lookup n = none := by
    cases hl : p.keys.lookup n with
    | none => rfl
    | some s =>
      have hk := hg.notKey n (by simp [declNames])
      rcases h.keys.entries n s hl with h1 | ⟨w, h1, _⟩ | ⟨e, m, h1, _⟩ | ⟨i, e, di, de, h1, _⟩
      · exact absurd h1 hn
      · exact absurd ⟨w, h1.symm⟩ hk.1
      · exact absurd ⟨e ++ cs!"_" ++ m, by rw [h1]; simp⟩ hk.2.1
      · exact absurd ⟨print i ++ cs!"_" ++ print e, by rw [h1]; simp⟩ hk.2.2
  have ep : addKey p n so = { p with keys := p.keys ++ [(n, so)] } := by unfold addKey; rw [hnone]
  rw [ep]
  refine ⟨by rw [e]; exact hg, ?_, h.depth, h.ph, h.bound⟩
  rw [e]
  have hover : ∀ {d' : D}, Over (sorts cs) d' → Over (sorts cs ++ [(n, d)]) d' := by
    intro d' h
    induction d' with
    | array i e ih1 ih2 => exact ⟨ih1 h.1, ih2 h.2⟩
    | named m => exact List.mem_append_left _ h
    | _ => trivial
  refine ⟨fun m d' hm => ?_, fun k s hks => ?_⟩
  · rcases List.mem_append.1 hm with hm' | hm
    · obtain ⟨s, h1, h2⟩ := h.keys.known m d' hm'
      refine ⟨s, ?_, h2⟩
      rw [lookup_append_none hnone, if_neg, h1]
      rintro rfl
      exact hn (List.mem_map.2 ⟨(m, d'), hm', rfl⟩)
    · simp only [List.mem_cons, Prod.mk.injEq, List.not_mem_nil, or_false] at hm
      obtain ⟨rfl, rfl⟩ := hm
      exact ⟨so, by rw [lookup_append_none hnone, if_pos rfl], hd⟩
  · rw [lookup_append_none hnone] at hks
    split at hks
    · rename_i e; subst e
      exact .inl (by simp [declNames])
    · rcases h.keys.entries k s hks with h1 | h1 | h1 | ⟨i, e, di, de, h1, h2, h3, h4, h5, h6⟩
      · left; simp only [declNames, List.map_append, List.mem_append] at h1 ⊢; exact .inl h1
      · exact .inr (.inl h1)
      · exact .inr (.inr (.inl h1))
      · exact .inr (.inr (.inr ⟨i, e, di, de, h1, h2, h3, hover h4, hover h5, h6⟩))

theorem addKey_at (p : P) (l : Nat) (b : List Char) (n : List Char) (so : Srt) : addKey (p.at l b) n so = (addKey p n so).at l b := by
  unfold addKey P.at
  simp only
  cases p.keys.lookup n <;> rfl

theorem rep_sort {cs : List Cmd} {s : S} (h : Represents cs s) (n : List Char) (d : D) : Represents (cs ++ [.sort n d]) s := by
  have := h.other (.sort n d) ⟨rfl, rfl, rfl, rfl, rfl, rfl, rfl⟩
  simpa [Cmd.isCheckSat, Cmd.isGetModel, Cmd.isGetObjectives, Cmd.logics] using this

theorem tail_sort {cfg : Cfg} {cs : List Cmd} {n : List Char} (hn : n ∉ declNames (sorts cs)) (hg : GoodDecl (sorts cs ++ [(n, .named n)])) :
    Tail cfg cs (.sort n (.named n)) cs!"declare-sort" [.atom n, .atom cs!"0"] := by
  intro b r l s hl hs
  obtain ⟨b1, l1, e1, e2, e3, _, _⟩ := word_at hl s.p l r
  obtain ⟨b2, l2, f1, f2, f3, _, _⟩ := word_at e1 s.p l1 r
  have hd : Denotes (decSort n 0) (.named n) := .named n
  refine ⟨{ s with p := addKey s.p n (decSort n 0) }, skipTo ((addKey s.p n (decSort n 0)).at l2 (b2 ++ ')' :: r)), 0,
    ⟨(rep_sort hs.rep n _).setP _, addKey_clean hs.clean hn hg hd⟩, ?_, fun m hm => ?_⟩
  · rw [skip_rest f1]
    rw [f3, e3]
  · have : dispatch cfg m cs!"declare-sort" { s with p := s.p.at l (b ++ ')' :: r) } =
      (do let s ← cmdSort cfg { s with p := s.p.at l (b ++ ')' :: r) }; return (false, s)) := rfl
    rw [this, cmdSort]
    have h0 : stoi cs!"0" = .ok 0 := by decide
    simp only [e2, Res.ok_bind, f2, h0, Res.pure_eq, addKey_at]
    rfl

theorem tail_defSort {cfg : Cfg} {cs : List Cmd} {n : List Char} {y : Sexp} {d : D} (hy : SortOf (sorts cs) y d) (hn : n ∉ declNames (sorts cs))
    (hg : GoodDecl (sorts cs ++ [(n, d)])) : Tail cfg cs (.sort n d) cs!"define-sort" [.atom n, .list [], y] := by
  intro b r l s hl hs
  obtain ⟨b1, l1, e1, e2, e3, _, _⟩ := word_at hl s.p l r
  obtain ⟨b2, l2, r2, b3, l3, f1, f2, f3, f4, f5, _⟩ := list_at e1 s.p l1 r
  obtain ⟨c1, c2, _, c4⟩ := close_at f1 s.p l2 r2
  obtain ⟨t, q, k, b4, l4, j0, j1, j2, j3, j4, j5⟩ := sort_at hs.clean hy f2 l3 r
  refine ⟨{ s with p := addKey q n t }, skipTo ((addKey q n t).at l4 (b4 ++ ')' :: r)), k + 1,
    ⟨(rep_sort hs.rep n _).setP _, addKey_clean j2 hn hg j0⟩, ?_, fun m hm => ?_⟩
  · rw [skip_rest j3]
    rw [j4, f5, e3]
  · have : dispatch cfg m cs!"define-sort" { s with p := s.p.at l (b ++ ')' :: r) } =
      (do let s ← cmdDefSort cfg m { s with p := s.p.at l (b ++ ')' :: r) }; return (false, s)) := rfl
    rw [this, cmdDefSort]
    have f4' := f4 s.p
    rw [c4, Nat.add_zero] at f4'
    obtain ⟨m, rfl⟩ : ∃ n, m = n + 1 := ⟨m - 1, by omega⟩
    simp only [e2, Res.ok_bind, f3, symList, if_pos c2, c1, f4', j5 (m + 1) (by omega), Res.pure_eq, addKey_at]
    rfl

/-! ## Definitions -/

theorem known_none {cs : List Cmd} {s : S} (h : Represents cs s) {n : List Char} (hn : n ∉ fnNames (functions cs)) (q : P) :
    known { s with p := q } n = .ok false := by
  unfold known
  rw [show ({ s with p := q } : S).funs = s.funs from rfl, funs_none h hn]

theorem tail_defConst {cfg : Cfg} {cs : List Cmd} {n : List Char} {y : Sexp} {d : D} {x : Sexp} {e : T D} (hy : SortOf (sorts cs) y d)
    (hx : Term (sorts cs) x e) (hn : n ∉ fnNames (functions cs)) : Tail cfg cs (.fns [(n, .defn [] d e)]) cs!"define-const" [.atom n, y, x] := by
  intro b r l s hl hs
  obtain ⟨b1, l1, e1, e2, e3, _, _⟩ := word_at hl s.p l r
  obtain ⟨so, q1, k1, b2, l2, _, j1, j2, j3, j4, j5⟩ := sort_at hs.clean hy e1 l1 r
  obtain ⟨t, q, k, b3, l3, i1, i2, i3, i4, i5⟩ := term_at j2 hx j3 l2 r
  have hrep := hs.rep.addFns (fs := [(n, .defn [] d e)]) (gs := [(n, .defn [] so t)]) (by simp only [Same] at i1; simp [Fn.map, i1, j1])
  refine ⟨_, skipTo (q.at l3 (b3 ++ ')' :: r)), k + k1, ⟨hrep.setP q, i2.more rfl⟩, ?_, fun m hm => ?_⟩
  · rw [skip_rest i3]
    rw [i4, j4, e3]
  · have : dispatch cfg m cs!"define-const" { s with p := s.p.at l (b ++ ')' :: r) } =
      (do let s ← cmdDefConst cfg m { s with p := s.p.at l (b ++ ')' :: r) }; return (false, s)) := rfl
    rw [this, cmdDefConst]
    simp only [e2, Res.ok_bind, known_none hs.rep hn, j5 m (by omega), i5 m (by omega), S.note, mkFuncBody, funs_none hs.rep hn, Res.pure_eq]
    simp [Fn.body, namingsL]

theorem tail_defFun {cfg : Cfg} {cs : List Cmd} {n : List Char} {ps : List Sexp} {vs : List (List Char × D)} {y : Sexp} {d : D} {x : Sexp} {e : T D}
    (hv : Vars (sorts cs) ps vs) (hd : (vs.map fun v => v.1).Nodup) (hy : SortOf (sorts cs) y d)
    (hx : Term (sorts cs) x e) (hn : n ∉ fnNames (functions cs)) :
    Tail cfg cs (.fns [(n, .defn vs d e)]) cs!"define-fun" [.atom n, .list ps, y, x] := by
  intro b r l s hl hs
  obtain ⟨b1, l1, e1, e2, e3, _, _⟩ := word_at hl s.p l r
  obtain ⟨b2, l2, r2, b3, l3, f1, f2, f3, f4, f5, _⟩ := list_at e1 s.p l1 r
  obtain ⟨us, q0, k0, v1, v2, v3⟩ := vars_at hv hs.clean f1 l2 r2
  have hnd : (us.map fun v => v.1).Nodup := by
    have := congrArg (List.map fun v => v.1) v1
    simp only [List.map_map, Function.comp_def] at this
    rw [this]; exact hd
  obtain ⟨so, q1, k1, b4, l4, _, j1, j2, j3, j4, j5⟩ := sort_at v2 hy f2 l3 r
  obtain ⟨t, q, k, b5, l5, i1, i2, i3, i4, i5⟩ := term_at j2 hx j3 l4 r
  have hrep := hs.rep.addFns (fs := [(n, .defn vs d e)]) (gs := [(n, .defn us so t)]) (by simp only [Same] at i1; simp [Fn.map, i1, j1, v1])
  refine ⟨_, skipTo (q.at l5 (b5 ++ ')' :: r)), k + k1 + k0, ⟨hrep.setP q, i2.more rfl⟩, ?_, fun m hm => ?_⟩
  · rw [skip_rest i3]
    rw [i4, j4, f5, e3]
  · have : dispatch cfg m cs!"define-fun" { s with p := s.p.at l (b ++ ')' :: r) } =
      (do let s ← cmdDefFun cfg m { s with p := s.p.at l (b ++ ')' :: r) }; return (false, s)) := rfl
    rw [this, cmdDefFun]
    have hf := funParams_eq m [] us _ _ (v3 m (by omega)) (by simpa using hnd)
    rw [List.nil_append] at hf
    simp only [e2, Res.ok_bind, known_none hs.rep hn, f3, hf, rpar_at, f4, j5 m (by omega), i5 m (by omega), S.note, mkFuncBody,
      funs_none hs.rep hn, Res.pure_eq]
    simp [Fn.body, namingsL]

theorem lookup_snoc {α : Type} {fs : List (List Char × α)} {n : List Char} (h : fs.lookup n = none) (f : α) :
    (fs ++ [(n, f)]).lookup n = some f := by
  rw [List.lookup_append, h]
  simp

theorem setFn_skip {n : List Char} {f g : Fn Srt} {rest : List (List Char × Fn Srt)} : ∀ {fs : List (List Char × Fn Srt)}, fs.lookup n = none →
    setFn n f (fs ++ (n, g) :: rest) = fs ++ (n, f) :: rest
  | [], _ => by simp [setFn]
  | (m, h) :: fs, hn => by
    rw [List.lookup_cons] at hn
    have hne : m ≠ n := by
      rintro rfl
      simp at hn
    have : (n == m) = false := by simpa using hne.symm
    rw [this] at hn
    simp only [List.cons_append, setFn, if_neg hne]
    rw [setFn_skip hn]

theorem tail_defRec {cfg : Cfg} {cs : List Cmd} {n : List Char} {ps : List Sexp} {vs : List (List Char × D)} {y : Sexp} {d : D} {x : Sexp} {e : T D}
    (hv : Vars (sorts cs) ps vs) (hd : (vs.map fun v => v.1).Nodup) (hy : SortOf (sorts cs) y d)
    (hx : Term (sorts cs) x e) (hn : n ∉ fnNames (functions cs)) :
    Tail cfg cs (.fns [(n, .recu vs d e)]) cs!"define-fun-rec" [.atom n, .list ps, y, x] := by
  intro b r l s hl hs
  obtain ⟨b1, l1, e1, e2, e3, _, _⟩ := word_at hl s.p l r
  obtain ⟨b2, l2, r2, b3, l3, f1, f2, f3, f4, f5, _⟩ := list_at e1 s.p l1 r
  obtain ⟨us, q0, k0, v1, v2, v3⟩ := vars_at hv hs.clean f1 l2 r2
  have hnd : (us.map fun v => v.1).Nodup := by
    have := congrArg (List.map fun v => v.1) v1
    simp only [List.map_map, Function.comp_def] at this
    rw [this]; exact hd
  obtain ⟨so, q1, k1, b4, l4, _, j1, j2, j3, j4, j5⟩ := sort_at v2 hy f2 l3 r
  obtain ⟨t, q, k, b5, l5, i1, i2, i3, i4, i5⟩ := term_at j2 hx j3 l4 r
  have hrep := hs.rep.addFns (fs := [(n, .recu vs d e)]) (gs := [(n, .recu us so t)]) (by simp only [Same] at i1; simp [Fn.map, i1, j1, v1])
  refine ⟨_, skipTo (q.at l5 (b5 ++ ')' :: r)), k + k1 + k0, ⟨hrep.setP q, i2.more rfl⟩, ?_, fun m hm => ?_⟩
  · rw [skip_rest i3]
    rw [i4, j4, f5, e3]
  · have : dispatch cfg m cs!"define-fun-rec" { s with p := s.p.at l (b ++ ')' :: r) } =
      (do let s ← cmdDefRec cfg m { s with p := s.p.at l (b ++ ')' :: r) }; return (false, s)) := rfl
    rw [this, cmdDefRec]
    have hf := funParams_eq m [] us _ _ (v3 m (by omega)) (by simpa using hnd)
    rw [List.nil_append] at hf
    have h0 := funs_none hs.rep hn
    have h1 := lookup_snoc h0 (.dec (us.map fun v => v.2) so)
    have h2 := setFn_skip (rest := []) (g := .dec (us.map fun v => v.2) so) (f := .recu us so t) h0
    simp only [e2, Res.ok_bind, known_none hs.rep hn, f3, hf, rpar_at, f4, j5 m (by omega), i5 m (by omega), S.note, mkFuncDec, mkFuncBody,
      h0, h1, h2, Res.pure_eq]
    simp [Fn.body, namingsL]

/-! ## Mutually recursive functions -/

/-- the heads that were read and the bodies that are still to be read -/
inductive Heads (decl : Decl) : List (List Char × List (List Char × Srt) × Srt) → List Sexp → List (List Char × Fn D) → Prop where
  | nil : Heads decl [] [] []
  | cons {n us vs so d x e hs bs fs} : (us.map fun v => (v.1, sortOf v.2)) = (vs.map fun v => (v.1, some v.2)) → sortOf so = some d →
      Term decl x e → Heads decl hs bs fs → Heads decl ((n, us, so) :: hs) (x :: bs) ((n, .recu vs d e) :: fs)

theorem heads_names {decl : Decl} {hs : List (List Char × List (List Char × Srt) × Srt)} {bs : List Sexp} {fs : List (List Char × Fn D)}
    (h : Heads decl hs bs fs) : hs.map (fun h => h.1) = fnNames fs := by
  induction h with
  | nil => rfl
  | cons _ _ _ _ ih => simp [fnNames] at ih ⊢; exact ih

theorem recHeads_at {cfg : Cfg} {cs : List Cmd} {s : S} (hrep : Represents cs s) (q0 : P) {xs bs : List Sexp} {fs : List (List Char × Fn D)}
    (h : Recs (sorts cs) xs bs fs) : (∀ n ∈ fnNames fs, n ∉ fnNames (functions cs)) → ∀ {b : List Char} {p : P}, Clean cfg cs p →
    LayL cfg.file xs b → ∀ (l : Nat) (r : List Char), ∃ hs q k, Heads (sorts cs) hs bs fs ∧ Clean cfg cs q ∧
      ∀ m, k ≤ m → ∀ acc, recHeads cfg m { s with p := q0 } acc (p.at l (b ++ ')' :: r)) = .ok (acc ++ hs, q.at (l + nls b) (')' :: r)) := by
  induction h with
  | nil =>
    intro _ b p hc hl l r
    refine ⟨[], p, 1, .nil, hc, fun m hm acc => ?_⟩
    obtain ⟨m, rfl⟩ : ∃ n, m = n + 1 := ⟨m - 1, by omega⟩
    obtain ⟨_, h2, _, h4⟩ := close_at hl p l r
    cases hl.nil_inv
    rw [recHeads, if_pos h2]
    simp
  | cons hv hy hx _ ih =>
    intro hn b p hc hl l r
    rename_i n ps vs y d x e xs bs fs _
    obtain ⟨b1, l1, r1, b', l', f1, f2, f3, f4, f5, f6⟩ := list_at hl p l r
    obtain ⟨b2, l2, e1, e2, e3, _, _⟩ := word_at f1 p l1 r1
    obtain ⟨b3, l3, r3, b4, l4, g1, g2, g3, g4, g5, _⟩ := list_at e1 p l2 r1
    obtain ⟨us, q1, k1, v1, v2, v3⟩ := vars_at hv hc g1 l3 r3
    obtain ⟨so, q2, k2, b5, l5, _, j1, j2, j3, j4, j5⟩ := sort_at v2 hy g2 l4 r1
    obtain ⟨c1, c2, _, c4⟩ := close_at j3 q2 l5 r1
    obtain ⟨hs, q, k, i1, i2, i3⟩ := ih (fun n h => hn n (by simp only [fnNames, List.map_cons, List.mem_cons] at h ⊢; exact .inr h)) j2 f2 l' r
    refine ⟨(n, us, so) :: hs, q, k + k1 + k2 + 1, .cons v1 j1 hx i1, i2, fun m hm acc => ?_⟩
    obtain ⟨m, rfl⟩ : ∃ n, m = n + 1 := ⟨m - 1, by omega⟩
    have hk := known_none hrep (hn n (by simp [fnNames])) q0
    have e5 : q2.at l5 r1 = q2.at l' (b' ++ ')' :: r) := by
      rw [← f4]
      congr 1
      omega
    rw [recHeads, if_neg (by rw [f6]; simp)]
    simp only [f3, Res.ok_bind, e2, hk, g3, v3 m (by omega), rpar_at, g4, j5 m (by omega), c1, e5]
    rw [i3 m (by omega), f5]
    simp

theorem recDecs_at {decl : Decl} {hs : List (List Char × List (List Char × Srt) × Srt)} {bs : List Sexp} {fs : List (List Char × Fn D)}
    (h : Heads decl hs bs fs) : (fnNames fs).Nodup → ∀ {funs : List (List Char × Fn Srt)}, (∀ n ∈ fnNames fs, funs.lookup n = none) →
    recDecs hs funs = .ok (funs ++ hs.map fun h => (h.1, .dec (h.2.1.map fun v => v.2) h.2.2)) := by
  induction h with
  | nil => intro _ funs _; simp [recDecs]
  | cons _ _ _ _ ih =>
    intro hnd funs hn
    rename_i n us vs so d x e hs bs fs _ _ _ _
    simp only [fnNames, List.map_cons, List.nodup_cons] at hnd
    rw [recDecs, mkFuncDec, hn n (by simp [fnNames])]
    simp only [Res.ok_bind]
    rw [ih hnd.2]
    · simp
    · intro m hm
      rw [List.lookup_append, hn m (by simp only [fnNames, List.map_cons, List.mem_cons] at hm ⊢; exact .inr hm)]
      have : m ≠ n := by rintro rfl; exact hnd.1 hm
      have : (m == n) = false := by simpa using this
      simp [List.lookup_cons, this]

theorem recBodies_at {cfg : Cfg} {cs : List Cmd} {hs : List (List Char × List (List Char × Srt) × Srt)} {bs : List Sexp}
    {fs : List (List Char × Fn D)} (h : Heads (sorts cs) hs bs fs) : (fnNames fs).Nodup → ∀ {b : List Char} {p : P}, Clean cfg cs p →
    LayL cfg.file bs b → ∀ (l : Nat) (r : List Char), ∃ gs q k, gs.map (fun f => (f.1, f.2.map sortOf)) = fs.map (fun f => (f.1, f.2.map some)) ∧
      Clean cfg cs q ∧ ∀ m, k ≤ m → ∀ (s : S) (A : List (List Char × Fn Srt)), (∀ n ∈ fnNames fs, A.lookup n = none) →
        s.funs = A ++ hs.map (fun h => (h.1, .dec (h.2.1.map fun v => v.2) h.2.2)) →
        recBodies cfg m hs s (p.at l (b ++ ')' :: r)) = .ok ({ s with
          funs := A ++ gs
          named := (namingsL (gs.flatMap fun f => f.2.body)).reverse ++ s.named }, q.at (l + nls b) (')' :: r)) := by
  induction h with
  | nil =>
    intro _ b p hc hl l r
    refine ⟨[], p, 0, rfl, hc, fun m hm s A _ hA => ?_⟩
    cases hl.nil_inv
    rw [recBodies]
    simp only [List.map_nil, List.append_nil] at hA
    simp [namingsL, hA]
    cases s
    simp_all
  | cons hu hso hx _ ih =>
    intro hnd b p hc hl l r
    rename_i n us vs so d x e hs bs fs _
    simp only [fnNames, List.map_cons, List.nodup_cons] at hnd
    obtain ⟨t, q1, k1, b1, l1, i1, i2, i3, i4, i5⟩ := term_at hc hx hl l r
    obtain ⟨gs, q, k, j1, j2, j3⟩ := ih hnd.2 i2 i3 l1 r
    refine ⟨(n, .recu us so t) :: gs, q, k + k1, ?_, j2, fun m hm s A hA hf => ?_⟩
    · simp only [Same] at i1
      rw [List.map_cons, List.map_cons, j1]
      simp only [Fn.map, hu, hso, i1]
    · have hn := hA n (by simp [fnNames])
      have hlk : s.funs.lookup n = some (.dec (us.map fun v => v.2) so) := by
        rw [hf, List.lookup_append, hn]; simp
      rw [recBodies, i5 m (by omega)]
      simp only [Res.ok_bind, S.note, mkFuncBody, hlk]
      rw [hf, List.map_cons, setFn_skip hn]
      rw [j3 m (by omega) _ (A ++ [(n, .recu us so t)])]
      · rw [i4]
        simp [namingsL, namingsL_append, Fn.body]
      · intro w hw
        have hne : w ≠ n := by rintro rfl; exact hnd.1 hw
        have : (w == n) = false := by simpa using hne
        rw [List.lookup_append, hA w (by simp only [fnNames, List.map_cons, List.mem_cons] at hw ⊢; exact .inr hw)]
        simp [List.lookup_cons, this]
      · simp

theorem tail_defRecs {cfg : Cfg} {cs : List Cmd} {xs bs : List Sexp} {fs : List (List Char × Fn D)} (hr : Recs (sorts cs) xs bs fs)
    (hnd : (fnNames fs).Nodup) (hn : ∀ n ∈ fnNames fs, n ∉ fnNames (functions cs)) :
    Tail cfg cs (.fns fs) cs!"define-funs-rec" [.list xs, .list bs] := by
  intro b r l s hl hs
  obtain ⟨b1, l1, r1, b2, l2, f1, f2, f3, f4, f5, _⟩ := list_at hl s.p l r
  obtain ⟨hd, q1, k1, h1, h2, h3⟩ := recHeads_at hs.rep (s.p.at l (b ++ ')' :: r)) hr hn hs.clean f1 l1 r1
  obtain ⟨b3, l3, r3, b4, l4, g1, g2, g3, g4, g5, _⟩ := list_at f2 q1 l2 r
  obtain ⟨gs, q, k2, i1, i2, i3⟩ := recBodies_at h1 hnd h2 g1 l3 r3
  have hrep := hs.rep.addFns i1
  refine ⟨_, skipTo (q.at l4 (b4 ++ ')' :: r)), k1 + k2, ⟨hrep.setP q, i2.more rfl⟩, ?_, fun m hm => ?_⟩
  · rw [skip_rest g2]
    rw [g5, f5]
  · have : dispatch cfg m cs!"define-funs-rec" { s with p := s.p.at l (b ++ ')' :: r) } =
      (do let s ← cmdDefRecs cfg m { s with p := s.p.at l (b ++ ')' :: r) }; return (false, s)) := rfl
    rw [this, cmdDefRecs]
    have h5 := recDecs_at h1 hnd (funs := s.funs) (fun n h => funs_none hs.rep (hn n h))
    have h6 := h3 m (by omega) []
    rw [List.nil_append] at h6
    have h7 : gs.map (fun g => g.1) = hd.map fun h => h.1 := by
      rw [heads_names h1]
      have := congrArg (List.map fun f => f.1) i1
      simpa [Function.comp_def, fnNames] using this
    simp only [f3, Res.ok_bind, h6, rpar_at, f4, h5, g3]
    rw [i3 m (by omega) _ s.funs (fun n h => funs_none hs.rep (hn n h)) rfl]
    simp only [Res.ok_bind, rpar_at, g4, Res.pure_eq, h7]

end SMT.Script
