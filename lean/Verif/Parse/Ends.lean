import Verif.Parse.Fuel

/-!
# Reading ends (C77)

The functions of the reader are defined with a bound on the depth of calls (`Res.diverge` when it is used up).  Here: a bound that is large
enough is known in advance, from the length of the text and the arities of the declared sorts, for every text, whether it is well formed
or not.
-/

namespace SMT.Parse
open SMT SMT.Text SMT.Lex SMT.Sorts

set_option linter.unusedVariables false
set_option linter.unusedSimpArgs false

/-- it ends, and if with a result, then with one that has the property -/
def Ends {α : Type} (r : Res α) (Q : α → Prop) : Prop :=
  match r with
  | .ok a => Q a
  | .diverge => False
  | _ => True

theorem Ends.bind {α β : Type} {r : Res α} {f : α → Res β} {Q : α → Prop} {Q' : β → Prop} (h : Ends r Q) (hf : ∀ a, Q a → Ends (f a) Q') :
    Ends (r >>= f) Q' := by
  cases r with
  | ok a => exact hf a h
  | diverge => exact h.elim
  | throw => trivial
  | abort => trivial
  | ub => trivial

theorem Ends.mono {α : Type} {r : Res α} {Q Q' : α → Prop} (h : Ends r Q) (hf : ∀ a, Q a → Q' a) : Ends r Q' := by
  cases r with
  | ok a => exact hf a h
  | diverge => exact h.elim
  | throw => trivial
  | abort => trivial
  | ub => trivial

theorem Ends.not_diverge {α : Type} {r : Res α} {Q : α → Prop} (h : Ends r Q) : r ≠ .diverge := by
  rintro rfl
  exact h

theorem Ends.any {α : Type} {r : Res α} (h : r ≠ .diverge) : Ends r fun _ => True := by
  cases r <;> first | trivial | exact absurd rfl h

/-! ## The scanner -/

theorem scanGo_len (s : List Char) : ∀ mode line, (scanGo mode line s).rest.length ≤ s.length := by
  induction s with
  | nil => intro m l; simp [scanGo]
  | cons c s ih =>
    intro m l
    simp only [scanGo]
    repeat' split
    all_goals first
      | exact Nat.le_refl _
      | exact Nat.le_succ_of_le (ih _ _)

theorem scan_len (line : Nat) (s : List Char) : (scan line s).rest.length ≤ s.length := scanGo_len s _ _

theorem eof_ends (file : Bool) (acc : List Char) (line : Nat) (n : Nat) : Ends (eof file acc line) fun r => r.2.rest.length ≤ n := by
  unfold eof
  split
  · trivial
  · exact Nat.le_trans (scan_len line []) (Nat.zero_le _)

theorem sciGo_ends (file : Bool) (s : List Char) : ∀ acc opn lv line, Ends (sciGo file acc opn lv line s) fun r => r.2.rest.length ≤ s.length := by
  induction s with
  | nil => intro acc opn lv line; exact eof_ends _ _ _ _
  | cons c s ih =>
    intro acc opn lv line
    have ih' : ∀ acc opn lv line, Ends (sciGo file acc opn lv line s) fun r => r.2.rest.length ≤ (c :: s).length :=
      fun acc opn lv line => (ih acc opn lv line).mono fun r h => by simp; omega
    simp only [sciGo]
    repeat' split
    all_goals first
      | exact ih' _ _ _ _
      | exact Nat.le_refl _
      | exact Nat.le_succ_of_le (scan_len _ _)

theorem symGo_ends (file : Bool) (s : List Char) : ∀ acc line, Ends (symGo file acc line s) fun r => r.2.rest.length ≤ s.length := by
  induction s with
  | nil => intro acc line; exact eof_ends _ _ _ _
  | cons c s ih =>
    intro acc line
    have ih' : ∀ acc line, Ends (symGo file acc line s) fun r => r.2.rest.length ≤ (c :: s).length :=
      fun acc line => (ih acc line).mono fun r h => by simp; omega
    simp only [symGo]
    repeat' split
    all_goals first
      | exact sciGo_ends file _ _ _ _ _
      | exact ih' _ _
      | exact Nat.le_refl _
      | exact Nat.le_succ_of_le (scan_len _ _)

theorem compGo_ends (file : Bool) (s : List Char) : ∀ acc line, Ends (compGo file acc line s) fun r => r.2.rest.length ≤ s.length := by
  induction s with
  | nil => intro acc line; exact eof_ends _ _ _ _
  | cons c s ih =>
    intro acc line
    have ih' : ∀ acc line, Ends (compGo file acc line s) fun r => r.2.rest.length ≤ (c :: s).length :=
      fun acc line => (ih acc line).mono fun r h => by simp; omega
    simp only [compGo]
    repeat' split
    all_goals first
      | exact ih' _ _
      | exact Nat.le_refl _
      | exact Nat.le_succ_of_le (scan_len _ _)

theorem strGo_ends (file : Bool) : ∀ (k : Nat) (s : List Char), s.length ≤ k → ∀ acc line, Ends (strGo file acc line s) fun r => r.2.rest.length ≤ s.length := by
  intro k
  induction k with
  | zero =>
    intro s hs acc line
    obtain rfl : s = [] := List.length_eq_zero_iff.mp (by omega)
    rw [strGo]
    exact eof_ends _ _ _ _
  | succ k ih =>
    intro s hs acc line
    rw [strGo.eq_def]
    repeat' split
    all_goals first
      | exact eof_ends _ _ _ _
      | exact Nat.le_refl _
      | exact Nat.le_succ_of_le (scan_len _ _)
      | (refine (ih _ (by simp at hs; omega) _ _).mono fun r h => ?_; simp at h ⊢; omega)

/-- reading a symbol steps over at least one character -/
theorem getSymbol_ends (file : Bool) (st : St) : Ends (getSymbol file st) fun r => r.2.rest.length < st.rest.length := by
  obtain ⟨rest, mode, line⟩ := st
  unfold getSymbol
  cases rest with
  | nil => trivial
  | cons c s =>
    cases mode with
    | symbol => exact (symGo_ends file s _ _).mono fun r h => Nat.lt_succ_of_le h
    | compSym => exact (compGo_ends file s _ _).mono fun r h => Nat.lt_succ_of_le h
    | string => exact (strGo_ends file _ s (Nat.le_refl _) _ _).mono fun r h => Nat.lt_succ_of_le h
    | common => exact (eof_ends file _ _ s.length).mono fun r h => Nat.lt_succ_of_le h
    | comment => exact (eof_ends file _ _ s.length).mono fun r h => Nat.lt_succ_of_le h

/-- how much text is left -/
def P.len (p : P) : Nat := p.lex.rest.length

/-- the sorts that names stand for have at most `M` arguments -/
def Arity (M : Nat) (keys : List (List Char × Srt)) : Prop := ∀ k s, keys.lookup k = some s → s.arity ≤ M

theorem sym_ends (cfg : Cfg) (p : P) : Ends (sym cfg p) fun r => r.2.len < p.len ∧ r.2.keys = p.keys :=
  (getSymbol_ends cfg.file p.lex).bind fun r h => ⟨h, rfl⟩

theorem lpar_ends (p : P) : Ends (lpar p) fun q => q.len < p.len ∧ q.keys = p.keys := by
  unfold lpar parseLpar P.len
  cases h : p.lex.rest with
  | nil => trivial
  | cons c s =>
    by_cases hc : c = '('
    · subst hc
      exact ⟨Nat.lt_succ_of_le (scan_len _ _), rfl⟩
    · split
      · rename_i heq; cases heq; exact absurd rfl hc
      · trivial

theorem rpar_ends (p : P) : Ends (rpar p) fun q => q.len < p.len ∧ q.keys = p.keys := by
  unfold rpar parseRpar P.len
  cases h : p.lex.rest with
  | nil => trivial
  | cons c s =>
    by_cases hc : c = ')'
    · subst hc
      exact ⟨Nat.lt_succ_of_le (scan_len _ _), rfl⟩
    · split
      · rename_i heq; cases heq; exact absurd rfl hc
      · trivial

theorem skip_len (p : P) : (skip p).len ≤ p.len := scan_len _ _
theorem skip_keys (p : P) : (skip p).keys = p.keys := rfl
theorem advance_len (p : P) : (advance p).len ≤ p.len := by simp [advance, P.len]

/-! ## Sorts -/

theorem lookup_snoc_some {α : Type} {l : List (List Char × α)} {a k : List Char} {b s : α} (h : (l ++ [(a, b)]).lookup k = some s) :
    l.lookup k = some s ∨ s = b := by
  induction l with
  | nil =>
    simp only [List.nil_append, List.lookup] at h
    split at h
    · exact .inr (by cases h; rfl)
    · cases h
  | cons x l ih =>
    obtain ⟨x, y⟩ := x
    simp only [List.cons_append, List.lookup] at h ⊢
    split at h
    · exact .inl h
    · exact ih h

theorem Arity.snoc {M : Nat} {keys : List (List Char × Srt)} (h : Arity M keys) {k : List Char} {s : Srt} (hs : s.arity ≤ M) :
    Arity M (keys ++ [(k, s)]) := by
  intro k' s' hl
  rcases lookup_snoc_some hl with h1 | rfl
  · exact h k' s' h1
  · exact hs

theorem keyed_ends {M : Nat} {p : P} (h : Arity M p.keys) (k : List Char) {r : Res Srt} (hr : Ends r fun s => s.arity ≤ M) :
    Ends (keyed p k r) fun x => x.2.len ≤ p.len ∧ Arity M x.2.keys ∧ x.1.arity ≤ M := by
  unfold keyed
  split
  · rename_i hk
    exact ⟨Nat.le_refl _, h, h _ _ hk⟩
  · exact hr.bind fun s hs => ⟨Nat.le_refl _, h.snoc hs, hs⟩

theorem basicSorts_arity : ∀ x ∈ basicSorts, x.2.arity = 0 := by decide +kernel

theorem lookup_mem' {α : Type} {l : List (List Char × α)} {k : List Char} {s : α} (h : l.lookup k = some s) : ∃ k', (k', s) ∈ l := by
  induction l with
  | nil => cases h
  | cons x l ih =>
    obtain ⟨x, y⟩ := x
    simp only [List.lookup] at h
    split at h
    · cases h; exact ⟨x, by simp⟩
    · obtain ⟨k', h'⟩ := ih h
      exact ⟨k', by simp [h']⟩

theorem findSort_ends {M : Nat} {p : P} (h : Arity M p.keys) (s : List Char) : Ends (findSort p s) fun r => r.arity ≤ M := by
  unfold findSort
  split
  · rename_i r hr
    obtain ⟨k, hk⟩ := lookup_mem' hr
    have := basicSorts_arity _ hk
    show r.arity ≤ M
    simp only at this
    omega
  · split
    · rename_i r hr
      exact h _ _ hr
    · trivial

theorem stoi_ends (s : List Char) : Ends (stoi s) fun _ => True := by
  unfold stoi
  repeat' split
  all_goals trivial

theorem stoul_ends (s : List Char) : Ends (stoul s) fun _ => True := by
  unfold stoul
  repeat' split
  all_goals trivial

theorem mul_step {A a b : Nat} (h : a < b) : A * a + A ≤ A * b := by
  have := Nat.mul_le_mul_left A h
  rwa [Nat.mul_succ] at this

/-- the depth that is enough for every character of the text -/
def cost (M : Nat) (l : Nat) : Nat := (M + 20) * l

theorem cost_lt {M a b : Nat} (h : a < b) : cost M a + M + 20 ≤ cost M b := by
  have := mul_step (A := M + 20) h
  unfold cost
  omega
theorem cost_le {M a b : Nat} (h : a ≤ b) : cost M a ≤ cost M b := Nat.mul_le_mul_left _ h

/-- sorts are read to the end -/
structure SortEnds (cfg : Cfg) (M n : Nat) : Prop where
  sort : ∀ p, Arity M p.keys → cost M p.len + 1 ≤ n → Ends (parseSort cfg n p) fun r =>
    r.2.len ≤ p.len ∧ (p.cur ≠ some ')' → r.2.len < p.len) ∧ Arity M r.2.keys ∧ r.1.arity ≤ M
  tail : ∀ s p, Arity M p.keys → cost M p.len + M + 4 ≤ n → Ends (sortTail cfg n s p) fun r =>
    r.2.len ≤ p.len ∧ Arity M r.2.keys ∧ r.1.arity ≤ M
  args : ∀ k p, Arity M p.keys → cost M p.len + k + 2 ≤ n → Ends (sortArgs cfg n k p) fun r => r.len ≤ p.len ∧ Arity M r.keys

theorem sort_ends (cfg : Cfg) (M : Nat) : ∀ n, SortEnds cfg M n
  | 0 => ⟨fun p _ h => by omega, fun s p _ h => by omega, fun k p _ h => by omega⟩
  | n + 1 => by
    obtain ⟨h1, h2, h3⟩ := sort_ends cfg M n
    refine ⟨fun p hp hn => ?_, fun s p hp hn => ?_, fun k p hp hn => ?_⟩
    · rw [parseSort]
      split
      · rename_i hc
        exact ⟨Nat.le_refl _, fun h => absurd hc h, hp, Nat.zero_le _⟩
      · split
        · refine (sym_ends cfg p).bind fun r hr => ?_
          obtain ⟨s, q⟩ := r
          obtain ⟨e1, e2⟩ := hr
          dsimp only at e1 e2 ⊢
          rw [← e2] at hp
          exact (findSort_ends hp s).bind fun r hr => ⟨Nat.le_of_lt e1, fun _ => e1, hp, hr⟩
        · refine (lpar_ends p).bind fun q hq => ?_
          obtain ⟨a1, a2⟩ := hq
          refine (sym_ends cfg q).bind fun r hr => ?_
          obtain ⟨s, q'⟩ := r
          obtain ⟨e1, e2⟩ := hr
          dsimp only at e1 e2 ⊢
          rw [← a2, ← e2] at hp
          have c1 := cost_lt (M := M) a1
          have c2 := cost_lt (M := M) e1
          refine (h2 s q' hp (by omega)).bind fun r hr => ?_
          obtain ⟨s', q''⟩ := r
          obtain ⟨b1, b2, b3⟩ := hr
          dsimp only at b1 b2 b3 ⊢
          refine (rpar_ends q'').bind fun r hr => ?_
          obtain ⟨d1, d2⟩ := hr
          exact ⟨by show r.len ≤ p.len; omega, fun _ => by show r.len < p.len; omega, by show Arity M r.keys; rw [d2]; exact b2, b3⟩
    · rw [sortTail]
      split
      · refine (h1 p hp (by omega)).bind fun r hr => ?_
        obtain ⟨i, q⟩ := r
        obtain ⟨a1, _, a2, a3⟩ := hr
        dsimp only at a1 a2 a3 ⊢
        have c1 := cost_le (M := M) a1
        refine (h1 q a2 (by omega)).bind fun r hr => ?_
        obtain ⟨e, q'⟩ := r
        obtain ⟨b1, _, b2, b3⟩ := hr
        dsimp only at b1 b2 ⊢
        exact (keyed_ends b2 _ (by show (arraySort i e).arity ≤ M; exact Nat.zero_le _)).mono fun r h => ⟨by omega, h.2⟩
      · split
        · exact ⟨Nat.le_refl _, hp, Nat.zero_le _⟩
        · split
          · refine (h1 p hp (by omega)).bind fun r hr => ?_
            obtain ⟨i, q⟩ := r
            obtain ⟨a1, _, a2, a3⟩ := hr
            dsimp only at a1 a2 a3 ⊢
            split
            · trivial
            · exact ⟨a1, a2, Nat.zero_le _⟩
          · split
            · exact ⟨Nat.le_refl _, hp, Nat.zero_le _⟩
            · split
              · refine (sym_ends cfg p).bind fun r hr => ?_
                obtain ⟨id, q⟩ := r
                obtain ⟨e1, e2⟩ := hr
                dsimp only at e1 e2 ⊢
                rw [← e2] at hp
                split
                · refine (sym_ends cfg q).bind fun r hr => ?_
                  obtain ⟨w, q'⟩ := r
                  obtain ⟨d1, d2⟩ := hr
                  dsimp only at d1 d2 ⊢
                  rw [← d2] at hp
                  exact (keyed_ends hp _ ((stoi_ends w).bind fun i _ => Nat.zero_le _)).mono fun r h => ⟨by omega, h.2⟩
                · split
                  · refine (sym_ends cfg q).bind fun r hr => ?_
                    obtain ⟨w, q'⟩ := r
                    obtain ⟨d1, d2⟩ := hr
                    dsimp only at d1 d2 ⊢
                    rw [← d2] at hp
                    refine (sym_ends cfg q').bind fun r hr => ?_
                    obtain ⟨w', q''⟩ := r
                    obtain ⟨f1, f2⟩ := hr
                    dsimp only at f1 f2 ⊢
                    rw [← f2] at hp
                    exact (keyed_ends hp _ ((stoi_ends w).bind fun i _ => (stoi_ends w').bind fun j _ => Nat.zero_le _)).mono
                      fun r h => ⟨by omega, h.2⟩
                  · trivial
              · refine (findSort_ends hp s).bind fun r hr => ?_
                exact (h3 r.arity p hp (by omega)).bind fun q hq => ⟨hq.1, hq.2, hr⟩
    · cases k with
      | zero => rw [sortArgs]; exact ⟨Nat.le_refl _, hp⟩
      | succ k =>
        rw [sortArgs]
        refine (h1 p hp (by omega)).bind fun r hr => ?_
        obtain ⟨i, q⟩ := r
        obtain ⟨a1, _, a2, a3⟩ := hr
        dsimp only at a1 a2 a3 ⊢
        have c1 := cost_le (M := M) a1
        exact (h3 k q a2 (by omega)).mono fun r h => ⟨by omega, h.2⟩

end SMT.Parse
