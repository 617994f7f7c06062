import Verif.Parse.Ends

/-! # Reading an expression ends (C77) -/

namespace SMT.Parse
open SMT SMT.Text SMT.Lex SMT.Sorts

set_option linter.unusedVariables false
set_option linter.unusedSimpArgs false

theorem sym_ok {cfg : Cfg} {M : Nat} {p : P} (h : Arity M p.keys) : Ends (sym cfg p) fun r => r.2.len < p.len ∧ Arity M r.2.keys :=
  (sym_ends cfg p).mono fun r hr => ⟨hr.1, by rw [hr.2]; exact h⟩
theorem lpar_ok {M : Nat} {p : P} (h : Arity M p.keys) : Ends (lpar p) fun r => r.len < p.len ∧ Arity M r.keys :=
  (lpar_ends p).mono fun r hr => ⟨hr.1, by rw [hr.2]; exact h⟩
theorem rpar_ok {M : Nat} {p : P} (h : Arity M p.keys) : Ends (rpar p) fun r => r.len < p.len ∧ Arity M r.keys :=
  (rpar_ends p).mono fun r hr => ⟨hr.1, by rw [hr.2]; exact h⟩
theorem sort_ok {cfg : Cfg} {M n : Nat} {p : P} (h : Arity M p.keys) (hn : cost M p.len + 1 ≤ n) :
    Ends (parseSort cfg n p) fun r => r.2.len ≤ p.len ∧ Arity M r.2.keys :=
  ((sort_ends cfg M n).sort p h hn).mono fun r hr => ⟨hr.1, hr.2.2.1⟩
theorem keyword_ok {cfg : Cfg} {M : Nat} {p : P} (h : Arity M p.keys) : Ends (keyword cfg p) fun r => r.2.len ≤ p.len ∧ Arity M r.2.keys := by
  unfold keyword
  split
  · refine (sym_ok h).bind ?_
    rintro ⟨k, q⟩ ⟨h1, h2⟩
    try dsimp only at *
    repeat' split
    all_goals first | trivial | exact ⟨Nat.le_of_lt h1, h2⟩
  · exact ⟨Nat.le_refl _, h⟩
theorem isLet_ok (cfg : Cfg) (p : P) : Ends (isLet cfg p) fun _ => True := by
  unfold isLet peekSymbol
  split
  · refine Ends.bind (Q := fun _ => True) ?_ fun _ _ => trivial
    split
    · exact (getSymbol_ends _ _).bind fun _ _ => trivial
    · exact (getSymbol_ends _ _).bind fun _ _ => trivial
  · trivial

theorem fit_lt {M a b c d n m : Nat} (hn : cost M b + d ≤ m) (h : a < b) (hc : m + c ≤ n + d + M + 20) : cost M a + c ≤ n := by
  have := cost_lt (M := M) h
  omega
theorem fit_le {M a b c d n m : Nat} (hn : cost M b + d ≤ m) (h : a ≤ b) (hc : m + c ≤ n + d) : cost M a + c ≤ n := by
  have := cost_le (M := M) h
  omega

/-- the steps a frame still needs without reading anything -/
def wt : FS → Nat
  | .start => 0
  | .finish => 2
  | _ => 3

theorem wt_le (s : FS) : wt s ≤ 3 := by cases s <;> decide

/-- expressions are read to the end -/
structure ExprEnds (cfg : Cfg) (M n : Nat) : Prop where
  expr : ∀ p, Arity M p.keys → cost M p.len + 4 ≤ n → Ends (expr cfg n p) fun r => r.2.len < p.len ∧ Arity M r.2.keys
  run : ∀ f st p, Arity M p.keys → cost M p.len + (2 * st.length + wt f.state + 3) ≤ n → Ends (run cfg n (f :: st) p) fun r =>
    r.2.len ≤ p.len ∧ (f.state = .start → r.2.len < p.len) ∧ Arity M r.2.keys
  start : ∀ f p, Arity M p.keys → cost M p.len + 10 ≤ n → Ends (start cfg n f p) fun r => r.2.len ≤ p.len ∧ Arity M r.2.keys
  rootInt : ∀ p, Arity M p.keys → cost M p.len + 1 ≤ n → Ends (rootInt cfg n p) fun r => r.2.len ≤ p.len ∧ Arity M r.2.keys
  coeffs : ∀ a p, Arity M p.keys → cost M p.len + 6 ≤ n → Ends (coeffs cfg n a p) fun r => r.2.len ≤ p.len ∧ Arity M r.2.keys
  algebraic : ∀ p, Arity M p.keys → cost M p.len + 6 ≤ n → Ends (algebraic cfg n p) fun r => r.2.len ≤ p.len ∧ Arity M r.2.keys
  quantHead : ∀ p, Arity M p.keys → cost M p.len + 1 ≤ n → Ends (quantHead cfg n p) fun r => r.2.len ≤ p.len ∧ Arity M r.2.keys
  quantVars : ∀ a p, Arity M p.keys → cost M p.len + 1 ≤ n → Ends (quantVars cfg n a p) fun r => r.2.len ≤ p.len ∧ Arity M r.2.keys
  letBinds : ∀ a b p, Arity M p.keys → cost M p.len + 1 ≤ n → Ends (letBinds cfg n a b p) fun r => r.2.2.len ≤ p.len ∧ Arity M r.2.2.keys
  letLoop : ∀ a b p, Arity M p.keys → cost M p.len + 8 ≤ n → Ends (letLoop cfg n a b p) fun r => r.2.len ≤ p.len ∧ Arity M r.2.keys
  letLevel : ∀ a b p, Arity M p.keys → cost M p.len + 2 ≤ n → Ends (letLevel cfg n a b p) fun r => r.2.2.len ≤ p.len ∧ Arity M r.2.2.keys
  letBody : ∀ a p, Arity M p.keys → cost M p.len + 6 ≤ n → Ends (letBody cfg n a p) fun r => r.2.len ≤ p.len ∧ Arity M r.2.keys

/-- facts about the rest of the text -/
macro "len_omega" : tactic => `(tactic| first | omega | (simp only [P.len, skip, advance, P.cur] at *; omega))

set_option hygiene false in
/-- the bound is large enough for a call -/
macro "e_fit" : tactic => `(tactic| first
  | exact fit_lt hn (by len_omega) (by omega)
  | exact fit_le hn (by len_omega) (by omega))

set_option hygiene false in
/-- read on -/
macro "e_read" : tactic => `(tactic| first
  | (refine Ends.bind (sym_ok (M := M) (by assumption)) ?_; rintro ⟨_, _⟩ ⟨_, _⟩; (try dsimp only at *))
  | (refine Ends.bind (lpar_ok (M := M) (by assumption)) ?_; rintro _ ⟨_, _⟩; (try dsimp only at *))
  | (refine Ends.bind (rpar_ok (M := M) (by assumption)) ?_; rintro _ ⟨_, _⟩; (try dsimp only at *))
  | (refine Ends.bind (sort_ok (M := M) (by assumption) (by e_fit)) ?_; rintro ⟨_, _⟩ ⟨_, _⟩; (try dsimp only at *))
  | (refine Ends.bind (keyword_ok (M := M) (by assumption)) ?_; rintro ⟨_, _⟩ ⟨_, _⟩; (try dsimp only at *))
  | (refine Ends.bind (stoi_ends _) ?_; rintro _ _; (try dsimp only at *))
  | (refine Ends.bind (stoul_ends _) ?_; rintro _ _; (try dsimp only at *))
  | (refine Ends.bind (h1 _ (by assumption) (by e_fit)) ?_; rintro ⟨_, _⟩ ⟨_, _⟩; (try dsimp only at *)))

set_option hygiene false in
/-- a result -/
macro "e_fin" : tactic => `(tactic| first
  | trivial
  | (show _ ∧ _; refine ⟨by len_omega, by assumption⟩))

set_option hygiene false in
/-- a call at the end -/
macro "e_last" x:term : tactic => `(tactic| exact Ends.mono ($x _ (by assumption) (by e_fit)) fun r h => ⟨by have := h.1; len_omega, h.2⟩)

theorem skip_ok {M : Nat} {p : P} (h : Arity M p.keys) : ∃ q, skip p = q ∧ q.len ≤ p.len ∧ Arity M q.keys := ⟨_, rfl, skip_len p, h⟩

theorem comma_ok {M : Nat} {p : P} (h : Arity M p.keys) :
    ∃ q, (if p.cur = some ',' then skip (advance p) else p) = q ∧ q.len ≤ p.len ∧ Arity M q.keys := by
  refine ⟨_, rfl, ?_, ?_⟩
  · split
    · exact Nat.le_trans (skip_len _) (advance_len _)
    · exact Nat.le_refl _
  · split
    · exact h
    · exact h

theorem angle_ok {M : Nat} {p : P} (h : Arity M p.keys) :
    ∃ q, (if p.cur = some '>' then advance p else p) = q ∧ q.len ≤ p.len ∧ Arity M q.keys := by
  refine ⟨_, rfl, ?_, ?_⟩
  · split
    · exact advance_len _
    · exact Nat.le_refl _
  · split
    · exact h
    · exact h

set_option hygiene false in
/-- a step that only skips -/
macro "e_over" p:term : tactic => `(tactic| (
  obtain ⟨_, e, _, _⟩ := $p
  rw [e]
  clear e))

section
variable {cfg : Cfg} {M n : Nat} (ih : ExprEnds cfg M n)
include ih

theorem quantVars_ends (a : List (List Char × Srt)) (p : P) (hp : Arity M p.keys) (hn : cost M p.len + 1 ≤ n + 1) :
    Ends (quantVars cfg (n + 1) a p) fun r => r.2.len ≤ p.len ∧ Arity M r.2.keys := by
  obtain ⟨h1, h2, h3, h4, h5, h6, h7, h8, h9, h10, h11, h12⟩ := ih
  rw [quantVars]
  split
  · e_fin
  · iterate 4 e_read
    e_last h8 _

theorem quantHead_ends (p : P) (hp : Arity M p.keys) (hn : cost M p.len + 1 ≤ n + 1) :
    Ends (quantHead cfg (n + 1) p) fun r => r.2.len ≤ p.len ∧ Arity M r.2.keys := by
  obtain ⟨h1, h2, h3, h4, h5, h6, h7, h8, h9, h10, h11, h12⟩ := ih
  rw [quantHead]
  e_read
  refine Ends.bind (h8 _ _ (by assumption) (by e_fit)) ?_
  rintro ⟨_, _⟩ ⟨_, _⟩
  try dsimp only at *
  e_read
  e_fin

theorem coeffs_ends (a : List (T Srt)) (p : P) (hp : Arity M p.keys) (hn : cost M p.len + 6 ≤ n + 1) :
    Ends (coeffs cfg (n + 1) a p) fun r => r.2.len ≤ p.len ∧ Arity M r.2.keys := by
  obtain ⟨h1, h2, h3, h4, h5, h6, h7, h8, h9, h10, h11, h12⟩ := ih
  rw [coeffs]
  split
  · e_fin
  · e_read
    rename_i q _ hq
    e_over skip_ok (p := q) hq
    e_last h5 _

theorem rootInt_ends (p : P) (hp : Arity M p.keys) (hn : cost M p.len + 1 ≤ n + 1) :
    Ends (rootInt cfg (n + 1) p) fun r => r.2.len ≤ p.len ∧ Arity M r.2.keys := by
  obtain ⟨h1, h2, h3, h4, h5, h6, h7, h8, h9, h10, h11, h12⟩ := ih
  rw [rootInt]
  iterate 2 e_read
  rename_i q _ hq
  e_over skip_ok (p := q) hq
  refine Ends.bind (h5 _ _ (by assumption) (by e_fit)) ?_
  rintro ⟨_, _⟩ ⟨_, _⟩
  try dsimp only at *
  iterate 4 e_read
  e_fin

theorem letBinds_ends (a : List (List Char)) (b : List (T Srt)) (p : P) (hp : Arity M p.keys) (hn : cost M p.len + 1 ≤ n + 1) :
    Ends (letBinds cfg (n + 1) a b p) fun r => r.2.2.len ≤ p.len ∧ Arity M r.2.2.keys := by
  obtain ⟨h1, h2, h3, h4, h5, h6, h7, h8, h9, h10, h11, h12⟩ := ih
  rw [letBinds]
  split
  · e_fin
  · iterate 2 e_read
    split
    · trivial
    · e_read
      e_read
      e_last h9 _ _

theorem letLevel_ends (a : LetCtx) (b : List (List (List Char) × List (T Srt))) (p : P) (hp : Arity M p.keys) (hn : cost M p.len + 2 ≤ n + 1) :
    Ends (letLevel cfg (n + 1) a b p) fun r => r.2.2.len ≤ p.len ∧ Arity M r.2.2.keys := by
  obtain ⟨h1, h2, h3, h4, h5, h6, h7, h8, h9, h10, h11, h12⟩ := ih
  rw [letLevel]
  split
  · e_fin
  · refine Ends.bind (h9 _ _ _ (by assumption) (by e_fit)) ?_
    rintro ⟨_, _, _⟩ ⟨_, _⟩
    try dsimp only at *
    e_read
    e_fin

theorem letBody_ends (a : LetCtx) (p : P) (hp : Arity M p.keys) (hn : cost M p.len + 6 ≤ n + 1) :
    Ends (letBody cfg (n + 1) a p) fun r => r.2.len ≤ p.len ∧ Arity M r.2.keys := by
  obtain ⟨h1, h2, h3, h4, h5, h6, h7, h8, h9, h10, h11, h12⟩ := ih
  rw [letBody]
  split
  · e_read
    e_fin
  · e_fin

theorem letLoop_ends (a : List LetCtx) (b : List (List (List Char) × List (T Srt))) (p : P) (hp : Arity M p.keys)
    (hn : cost M p.len + 8 ≤ n + 1) : Ends (letLoop cfg (n + 1) a b p) fun r => r.2.len ≤ p.len ∧ Arity M r.2.keys := by
  obtain ⟨h1, h2, h3, h4, h5, h6, h7, h8, h9, h10, h11, h12⟩ := ih
  cases a with
  | nil => rw [letLoop]; trivial
  | cons c st =>
    rw [letLoop]
    refine Ends.bind (h11 _ _ _ (by assumption) (by e_fit)) ?_
    rintro ⟨c, all, q⟩ ⟨_, hq⟩
    try dsimp only at *
    refine (isLet_ok cfg q).bind fun inner _ => ?_
    split
    · iterate 3 e_read
      e_last h10 _ _
    · refine Ends.bind (h12 _ _ (by assumption) (by e_fit)) ?_
      rintro ⟨r, q'⟩ ⟨_, hq'⟩
      try dsimp only at *
      have hx : ∃ x : P, (if cfg.pres = true then q' else { q' with bound := q'.bound.filter fun x => decide (x ∉ c.names) }) = x ∧
          x.len ≤ q'.len ∧ Arity M x.keys := by
        refine ⟨_, rfl, ?_, ?_⟩
        · split <;> exact Nat.le_refl _
        · split <;> exact hq'
      e_over hx
      split
      · split
        · trivial
        · e_fin
      · e_read
        e_last h10 _ _

theorem algebraic_ends (p : P) (hp : Arity M p.keys) (hn : cost M p.len + 6 ≤ n + 1) :
    Ends (algebraic cfg (n + 1) p) fun r => r.2.len ≤ p.len ∧ Arity M r.2.keys := by
  obtain ⟨h1, h2, h3, h4, h5, h6, h7, h8, h9, h10, h11, h12⟩ := ih
  rw [algebraic]
  split
  · have := advance_len p
    e_over skip_ok (M := M) (p := advance p) hp
    e_read
    rename_i q _ hq
    e_over skip_ok hq
    rename_i q1 _ hq1
    e_over comma_ok hq1
    split
    · iterate 2 e_read
      rename_i q2 _ hq2
      e_over skip_ok hq2
      rename_i q3 _ hq3
      e_over comma_ok hq3
      iterate 2 e_read
      rename_i q4 _ hq4
      e_over skip_ok hq4
      rename_i q5 _ hq5
      e_over angle_ok hq5
      e_fin
    · iterate 2 e_read
      rename_i q4 _ hq4
      e_over skip_ok hq4
      rename_i q5 _ hq5
      e_over angle_ok hq5
      e_fin
  · iterate 3 e_read
    e_fin

theorem start_ends (f : Frame) (p : P) (hp : Arity M p.keys) (hn : cost M p.len + 10 ≤ n + 1) :
    Ends (start cfg (n + 1) f p) fun r => r.2.len ≤ p.len ∧ Arity M r.2.keys := by
  obtain ⟨h1, h2, h3, h4, h5, h6, h7, h8, h9, h10, h11, h12⟩ := ih
  rw [start]
  split
  · iterate 2 e_read
    split
    · e_read
      e_fin
    · split
      · e_read
        split
        · iterate 4 e_read
          e_fin
        · trivial
      · split
        · rename_i q _ hq _ _ _
          refine Ends.bind (h1 { q with ph := true } hq (by e_fit)) ?_
          rintro ⟨_, _⟩ ⟨_, _⟩
          try dsimp only at *
          iterate 3 e_read
          e_fin
        · split
          · refine Ends.bind (h4 _ (by assumption) (by e_fit)) ?_
            rintro ⟨_, _⟩ ⟨_, _⟩
            try dsimp only at *
            e_fin
          · trivial
  · e_read
    split
    · refine Ends.bind (h7 _ (by assumption) (by e_fit)) ?_
      rintro ⟨_, _⟩ ⟨_, _⟩
      try dsimp only at *
      iterate 2 e_read
      e_fin
    · split
      · e_read
        split
        · iterate 3 e_read
          e_fin
        · split
          · iterate 5 e_read
            e_fin
          · split
            · iterate 2 e_read
              e_fin
            · split
              · rename_i q _ hq _ _ _ _
                have hs := skip_len { q with ph := true }
                refine Ends.bind (h6 (skip { q with ph := true }) hq (by
                  have : (skip { q with ph := true }).len < p.len := by
                    have : ({ q with ph := true } : P).len = q.len := rfl
                    omega
                  exact fit_lt hn this (by omega))) ?_
                rintro ⟨_, q'⟩ ⟨_, hq'⟩
                try dsimp only at *
                refine Ends.bind (rpar_ok (M := M) (p := { q' with ph := q.ph }) hq') ?_
                rintro r ⟨hr, hk⟩
                refine ⟨?_, hk⟩
                have e1 : ({ q with ph := true } : P).len = q.len := rfl
                have e2 : ({ q' with ph := q.ph } : P).len = q'.len := rfl
                show r.len ≤ p.len
                omega
              · e_fin
      · split
        · iterate 4 e_read
          e_fin
        · split
          · rename_i h _ hq _ _ _ _
            have hx : ∃ x : P, (if cfg.pres = true ∧ h.depth = 0 then { h with bound := [] } else h) = x ∧ x.len ≤ h.len ∧ Arity M x.keys := by
              refine ⟨_, rfl, ?_, ?_⟩
              · split <;> exact Nat.le_refl _
              · split <;> assumption
            e_over hx
            e_read
            refine Ends.bind (h10 _ _ _ (by assumption) (by e_fit)) ?_
            rintro ⟨_, _⟩ ⟨_, _⟩
            try dsimp only at *
            e_read
            e_fin
          · split
            · iterate 2 e_read
              split
              · iterate 2 e_read
                e_fin
              · e_read
                e_fin
            · split
              · refine Ends.bind (h4 _ (by assumption) (by e_fit)) ?_
                rintro ⟨_, _⟩ ⟨_, _⟩
                try dsimp only at *
                e_fin
              · e_fin

theorem run_ends (f : Frame) (st : List Frame) (p : P) (hp : Arity M p.keys)
    (hn : cost M p.len + (2 * st.length + wt f.state + 3) ≤ n + 1) : Ends (run cfg (n + 1) (f :: st) p) fun r =>
      r.2.len ≤ p.len ∧ (f.state = .start → r.2.len < p.len) ∧ Arity M r.2.keys := by
  have hwt := wt_le
  obtain ⟨h1, h2, h3, h4, h5, h6, h7, h8, h9, h10, h11, h12⟩ := ih
  rw [run]
  split
  · rename_i hs
    rw [hs] at hn
    simp only [wt] at hn
    split
    · refine Ends.bind (sym_ok (M := M) hp) ?_
      rintro ⟨s, q⟩ ⟨hl, hq⟩
      dsimp only at hl hq ⊢
      refine Ends.mono (h2 (f.done (.mk (.sym s q.ph) [])) st q hq (fit_lt hn hl (by simp only [Frame.done, wt]; omega))) fun r hr => ?_
      exact ⟨by omega, fun _ => by omega, hr.2.2⟩
    · refine Ends.bind (lpar_ok (M := M) hp) ?_
      rintro q ⟨hl, hq⟩
      refine Ends.bind (h3 f q hq (fit_lt hn hl (by omega))) ?_
      rintro ⟨f', q'⟩ ⟨hl', hq'⟩
      dsimp only at hl' hq' ⊢
      have := hwt f'.state
      refine Ends.mono (h2 f' st q' hq' (fit_lt hn (by omega) (by omega))) fun r hr => ?_
      exact ⟨by omega, fun _ => by omega, hr.2.2⟩
  · rename_i hs
    rw [hs] at hn ⊢
    simp only [wt] at hn
    dsimp only
    have hx : ∃ x : P, skip (if placeholderOp f.opName = true then { p with ph := true } else p) = x ∧ x.len ≤ p.len ∧ Arity M x.keys := by
      refine ⟨_, rfl, Nat.le_trans (skip_len _) ?_, ?_⟩
      · split <;> exact Nat.le_refl _
      · rw [skip_keys]; split <;> exact hp
    obtain ⟨x, e, hx1, hx2⟩ := hx
    rw [e]
    clear e
    split
    · refine Ends.bind (rpar_ok (M := M) hx2) ?_
      rintro q ⟨hl, hq⟩
      have hy : ∃ y : P, (if placeholderOp f.opName = true then { q with ph := p.ph } else q) = y ∧ y.len ≤ q.len ∧ Arity M y.keys := by
        refine ⟨_, rfl, ?_, ?_⟩
        · split <;> exact Nat.le_refl _
        · split <;> exact hq
      obtain ⟨y, e, hy1, hy2⟩ := hy
      rw [e]
      clear e
      refine Ends.mono (h2 _ st y hy2 (fit_lt hn (by omega) (by simp only [Frame.done, wt]; omega))) fun r hr => ?_
      exact ⟨by omega, fun h => (by cases h), hr.2.2⟩
    · refine Ends.mono (h2 {} (f :: st) x hx2 (fit_le hn hx1 (by simp only [wt, List.length_cons]; omega))) fun r hr => ?_
      exact ⟨by omega, fun h => (by cases h), hr.2.2⟩
  · rename_i hs
    rw [hs] at hn ⊢
    simp only [wt] at hn
    dsimp only
    obtain ⟨x, e, hx1, hx2⟩ := skip_ok (M := M) hp
    rw [e]
    clear e
    split
    · refine Ends.bind (rpar_ok (M := M) hx2) ?_
      rintro q ⟨hl, hq⟩
      refine Ends.mono (h2 _ st q hq (fit_lt hn (by omega) (by simp only [wt]; omega))) fun r hr => ?_
      exact ⟨by omega, fun h => (by cases h), hr.2.2⟩
    · refine Ends.mono (h2 {} (f :: st) x hx2 (fit_le hn hx1 (by simp only [wt, List.length_cons]; omega))) fun r hr => ?_
      exact ⟨by omega, fun h => (by cases h), hr.2.2⟩
  · rename_i hs
    rw [hs] at hn ⊢
    simp only [wt] at hn
    dsimp only
    obtain ⟨x, e, hx1, hx2⟩ := skip_ok (M := M) hp
    rw [e]
    clear e
    split
    · refine Ends.bind (rpar_ok (M := M) hx2) ?_
      rintro q ⟨hl, hq⟩
      refine Ends.mono (h2 _ st q hq (fit_lt hn (by omega) (by simp only [Frame.done, wt]; omega))) fun r hr => ?_
      exact ⟨by omega, fun h => (by cases h), hr.2.2⟩
    · refine Ends.mono (h2 {} (f :: st) x hx2 (fit_le hn hx1 (by simp only [wt, List.length_cons]; omega))) fun r hr => ?_
      exact ⟨by omega, fun h => (by cases h), hr.2.2⟩
  · rename_i hs
    rw [hs] at hn ⊢
    simp only [wt] at hn
    split
    · trivial
    · split
      · exact ⟨Nat.le_refl _, fun h => (by cases h), hp⟩
      · rename_i g st
        simp only [List.length_cons] at hn
        have hw := hwt g.state
        split
        all_goals
          rename_i hg
          refine Ends.mono (h2 _ st p hp (fit_le hn (Nat.le_refl _) (by first | omega | (dsimp only; omega)))) fun r hr => ?_
          exact ⟨hr.1, fun h => (by cases h), hr.2.2⟩

end

theorem expr_ends (cfg : Cfg) (M : Nat) : ∀ n, ExprEnds cfg M n
  | 0 => ⟨fun p _ h => by omega, fun _ _ p _ h => by omega, fun _ p _ h => by omega, fun p _ h => by omega, fun _ p _ h => by omega,
      fun p _ h => by omega, fun p _ h => by omega, fun _ p _ h => by omega, fun _ _ p _ h => by omega, fun _ _ p _ h => by omega,
      fun _ _ p _ h => by omega, fun _ p _ h => by omega⟩
  | n + 1 => by
    have ih := expr_ends cfg M n
    refine ⟨fun p hp hn => ?_, run_ends ih, start_ends ih, rootInt_ends ih, coeffs_ends ih, algebraic_ends ih, quantHead_ends ih,
      quantVars_ends ih, letBinds_ends ih, letLoop_ends ih, letLevel_ends ih, letBody_ends ih⟩
    rw [SMT.Parse.expr]
    exact (ih.run {} [] p hp (by show cost M p.len + 3 ≤ n; omega)).mono fun r h => ⟨h.2.1 rfl, h.2.2⟩

end SMT.Parse
