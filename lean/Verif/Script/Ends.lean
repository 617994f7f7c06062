import Verif.Parse.EndsExpr
import Verif.Script.Model

/-! # Reading a script ends (C77) -/

namespace SMT.Script
open SMT SMT.Text SMT.Lex SMT.Sorts SMT.Parse

set_option linter.unusedVariables false
set_option linter.unusedSimpArgs false

theorem skipGo_len (s : List Char) : ∀ mode lv line, (skipGo mode lv line s).rest.length ≤ s.length := by
  induction s with
  | nil => intro m l k; simp [skipGo]
  | cons c s ih =>
    intro m l k
    simp only [skipGo]
    repeat' split
    all_goals first
      | exact Nat.le_refl _
      | exact Nat.le_succ_of_le (ih _ _ _)

theorem skipTo_len (p : P) : (skipTo p).len ≤ p.len := skipGo_len _ _ _ _
theorem skipTo_keys (p : P) : (skipTo p).keys = p.keys := rfl
theorem note_p (s : S) (t : T Srt) : (s.note t).p = s.p := rfl

section
variable {cfg : Cfg} {M : Nat}

theorem symAfter_ends {want k : KW} {p : P} (h : Arity M p.keys) :
    Ends (symAfter cfg want k p) fun r => r.2.len ≤ p.len ∧ Arity M r.2.keys := by
  unfold symAfter
  split
  · exact (sym_ok h).mono fun r h => ⟨Nat.le_of_lt h.1, h.2⟩
  · exact ⟨Nat.le_refl _, h⟩

theorem idAfter_ends {g : List Char} {p : P} (h : Arity M p.keys) :
    Ends (idAfter cfg g p) fun r => r.2.len ≤ p.len ∧ Arity M r.2.keys := by
  unfold idAfter
  split
  · refine Ends.bind (keyword_ok h) ?_
    rintro ⟨k, q⟩ ⟨h1, h2⟩
    exact (symAfter_ends h2).mono fun r h => ⟨Nat.le_trans h.1 h1, h.2⟩
  · exact ⟨Nat.le_refl _, h⟩

theorem expr_ok {n : Nat} {p : P} (h : Arity M p.keys) (hn : cost M p.len + 4 ≤ n) :
    Ends (expr cfg n p) fun r => r.2.len < p.len ∧ Arity M r.2.keys := (expr_ends cfg M n).expr p h hn

set_option hygiene false in
/-- read on -/
macro "s_read" : tactic => `(tactic| first
  | (refine Ends.bind (sym_ok (M := M) (by assumption)) ?_; rintro ⟨_, _⟩ ⟨_, _⟩; (try dsimp only at *))
  | (refine Ends.bind (lpar_ok (M := M) (by assumption)) ?_; rintro _ ⟨_, _⟩; (try dsimp only at *))
  | (refine Ends.bind (rpar_ok (M := M) (by assumption)) ?_; rintro _ ⟨_, _⟩; (try dsimp only at *))
  | (refine Ends.bind (sort_ok (M := M) (by assumption) (by e_fit)) ?_; rintro ⟨_, _⟩ ⟨_, _⟩; (try dsimp only at *))
  | (refine Ends.bind (keyword_ok (M := M) (by assumption)) ?_; rintro ⟨_, _⟩ ⟨_, _⟩; (try dsimp only at *))
  | (refine Ends.bind (symAfter_ends (M := M) (by assumption)) ?_; rintro ⟨_, _⟩ ⟨_, _⟩; (try dsimp only at *))
  | (refine Ends.bind (idAfter_ends (M := M) (by assumption)) ?_; rintro ⟨_, _⟩ ⟨_, _⟩; (try dsimp only at *))
  | (refine Ends.bind (stoi_ends _) ?_; rintro _ _; (try dsimp only at *))
  | (refine Ends.bind (expr_ok (M := M) (by assumption) (by e_fit)) ?_; rintro ⟨_, _⟩ ⟨_, _⟩; (try dsimp only at *)))

/-- what a command leaves: no more text than there was, and sorts within the bound -/
def Left (M : Nat) (p : P) (s : S) : Prop := s.p.len ≤ p.len ∧ Arity M s.p.keys

theorem left_skip {p q : P} {s : S} (h1 : q.len ≤ p.len) (h2 : Arity M q.keys) (hs : s.p = skipTo q) : Left M p s :=
  ⟨by rw [hs]; exact Nat.le_trans (skipTo_len q) h1, by rw [hs]; exact h2⟩

set_option hygiene false in
/-- the end of a command -/
macro "s_done" : tactic => `(tactic| first
  | trivial
  | exact left_skip (by len_omega) (by assumption) rfl
  | (show _ ∧ _; refine ⟨by len_omega, by assumption⟩))

theorem cmdAssert_ends {n : Nat} {s : S} (h : Arity M s.p.keys) (hn : cost M s.p.len + 4 ≤ n) : Ends (cmdAssert cfg n s) (Left M s.p) := by
  unfold cmdAssert
  iterate 6 s_read
  s_done

theorem softKeys_ends : ∀ (n : Nat) (a : List Char × List Char) (p : P), Arity M p.keys →
    Ends (softKeys cfg n a p) fun r => r.2.len ≤ p.len ∧ Arity M r.2.keys
  | 0, a, p, h => ⟨Nat.le_refl _, h⟩
  | n + 1, a, p, h => by
    rw [softKeys]
    s_read
    split
    · s_done
    · split
      · s_read
        exact (softKeys_ends n _ _ (by assumption)).mono fun r h => ⟨by have := h.1; len_omega, h.2⟩
      · split
        · s_read
          exact (softKeys_ends n _ _ (by assumption)).mono fun r h => ⟨by have := h.1; len_omega, h.2⟩
        · trivial

theorem weightOf_ends (w : List Char) : Ends (weightOf w) fun _ => True := by
  unfold weightOf
  repeat' split
  all_goals trivial

theorem cmdSoft_ends {n : Nat} {s : S} (h : Arity M s.p.keys) (hn : cost M s.p.len + 4 ≤ n) : Ends (cmdSoft cfg n s) (Left M s.p) := by
  unfold cmdSoft
  refine Ends.bind (softKeys_ends _ _ _ h) ?_
  rintro ⟨_, _⟩ ⟨_, _⟩
  try dsimp only at *
  s_read
  refine Ends.bind (softKeys_ends _ _ _ (by assumption)) ?_
  rintro ⟨_, _⟩ ⟨_, _⟩
  try dsimp only at *
  refine Ends.bind (weightOf_ends _) ?_
  rintro _ _
  s_done

theorem exprList_ends : ∀ (n : Nat) (acc : List (T Srt)) (p : P), Arity M p.keys → cost M p.len + 5 ≤ n →
    Ends (exprList cfg n acc p) fun r => r.2.len ≤ p.len ∧ Arity M r.2.keys
  | 0, _, _, _, hn => by omega
  | n + 1, acc, p, h, hn => by
    rw [exprList]
    split
    · s_done
    · s_read
      exact (exprList_ends n _ _ (by assumption) (by e_fit)).mono fun r h => ⟨by have := h.1; len_omega, h.2⟩

theorem foldl_note (ts : List (T Srt)) : ∀ s : S, (ts.foldl S.note s).p = s.p := by
  induction ts with
  | nil => intro s; rfl
  | cons t ts ih => intro s; exact ih _

theorem cmdAssuming_ends {n : Nat} {s : S} (h : Arity M s.p.keys) (hn : cost M s.p.len + 4 ≤ n) :
    Ends (cmdAssuming cfg n s) (Left M s.p) := by
  unfold cmdAssuming
  s_read
  refine Ends.bind (exprList_ends n _ _ (by assumption) (by e_fit)) ?_
  rintro ⟨_, _⟩ ⟨_, _⟩
  try dsimp only at *
  s_done

theorem cmdConst_ends {n : Nat} {s : S} (h : Arity M s.p.keys) (hn : cost M s.p.len + 4 ≤ n) :
    Ends (cmdConst cfg n s) (Left M s.p) := by
  unfold cmdConst
  iterate 2 s_read
  s_done

theorem sortArity {n : Nat} {p : P} (h : Arity M p.keys) (hn : cost M p.len + 1 ≤ n) :
    Ends (parseSort cfg n p) fun r => r.2.len ≤ p.len ∧ Arity M r.2.keys ∧ r.1.arity ≤ M :=
  ((sort_ends cfg M n).sort p h hn).mono fun r hr => ⟨hr.1, hr.2.2⟩

theorem sortLt {n : Nat} {p : P} (h : Arity M p.keys) (hc : p.cur ≠ some ')') (hn : cost M p.len + 1 ≤ n) :
    Ends (parseSort cfg n p) fun r => r.2.len < p.len ∧ Arity M r.2.keys :=
  ((sort_ends cfg M n).sort p h hn).mono fun r hr => ⟨hr.2.1 hc, hr.2.2.1⟩

theorem sortList_ends : ∀ (n : Nat) (acc : List Srt) (p : P), Arity M p.keys → cost M p.len + 2 ≤ n →
    Ends (sortList cfg n acc p) fun r => r.2.len ≤ p.len ∧ Arity M r.2.keys
  | 0, _, _, _, hn => by omega
  | n + 1, acc, p, h, hn => by
    rw [sortList]
    split
    · s_done
    · rename_i hc
      refine Ends.bind (sortLt h hc (by e_fit)) ?_
      rintro ⟨_, _⟩ ⟨_, _⟩
      try dsimp only at *
      exact (sortList_ends n _ _ (by assumption) (by e_fit)).mono fun r h => ⟨by have := h.1; len_omega, h.2⟩

theorem mkFuncDec_ends (fs : List (List Char × Fn Srt)) (x : List Char) (ps : List Srt) (o : Srt) :
    Ends (mkFuncDec fs x ps o) fun _ => True := by
  unfold mkFuncDec
  split <;> trivial
theorem mkFuncBody_ends (fs : List (List Char × Fn Srt)) (x : List Char) (f : Fn Srt) :
    Ends (mkFuncBody fs x f) fun _ => True := by
  unfold mkFuncBody
  split <;> trivial
theorem known_ends (s : S) (x : List Char) : Ends (known s x) fun _ => True := by
  unfold known
  split <;> trivial

theorem cmdFun_ends {n : Nat} {s : S} (h : Arity M s.p.keys) (hn : cost M s.p.len + 4 ≤ n) : Ends (cmdFun cfg n s) (Left M s.p) := by
  unfold cmdFun
  iterate 2 s_read
  split
  · iterate 2 s_read
    s_done
  · refine Ends.bind (sortList_ends n _ _ (by assumption) (by e_fit)) ?_
    rintro ⟨_, _⟩ ⟨_, _⟩
    try dsimp only at *
    iterate 2 s_read
    refine Ends.bind (mkFuncDec_ends _ _ _ _) ?_
    rintro _ _
    s_done

theorem addKey_len (p : P) (x : List Char) (so : Srt) : (addKey p x so).len = p.len := by
  unfold addKey
  split <;> rfl
theorem addKey_arity {p : P} {x : List Char} {so : Srt} (h : Arity M p.keys) (hs : so.arity ≤ M) : Arity M (addKey p x so).keys := by
  unfold addKey
  split
  · exact h
  · exact h.snoc hs

theorem cmdSort_ends {s : S} (h : Arity M s.p.keys) (hM : 2 ^ 64 ≤ M + 1) : Ends (cmdSort cfg s) (Left M s.p) := by
  unfold cmdSort
  iterate 3 s_read
  refine left_skip (q := addKey _ _ _) ?_ ?_ rfl
  · rw [addKey_len]; len_omega
  · refine addKey_arity (by assumption) ?_
    show toSize _ ≤ M
    unfold toSize
    omega

theorem symList_ends : ∀ (n : Nat) (acc : List (List Char)) (p : P), Arity M p.keys → cost M p.len + 1 ≤ n →
    Ends (symList cfg n acc p) fun r => r.1.length + r.2.len ≤ acc.length + p.len ∧ Arity M r.2.keys
  | 0, _, _, _, hn => by omega
  | n + 1, acc, p, h, hn => by
    rw [symList]
    split
    · exact ⟨Nat.le_refl _, h⟩
    · s_read
      refine (symList_ends n _ _ (by assumption) (by e_fit)).mono fun r h => ⟨?_, h.2⟩
      have := h.1
      rw [List.length_append] at this
      simp only [List.length_singleton] at this
      len_omega

theorem cmdDefSort_ends {n : Nat} {s : S} (h : Arity M s.p.keys) (hn : cost M s.p.len + 4 ≤ n) (hM : s.p.len ≤ M) :
    Ends (cmdDefSort cfg n s) (Left M s.p) := by
  unfold cmdDefSort
  iterate 2 s_read
  refine Ends.bind (symList_ends n _ _ (by assumption) (by e_fit)) ?_
  rintro ⟨_, _⟩ ⟨ha, _⟩
  try dsimp only at *
  rw [List.length_nil, Nat.zero_add] at ha
  s_read
  refine Ends.bind (sortArity (M := M) (by assumption) (by e_fit)) ?_
  rintro ⟨_, _⟩ ⟨_, _, hs⟩
  try dsimp only at *
  split
  · refine left_skip (q := addKey _ _ _) ?_ ?_ rfl
    · rw [addKey_len]; len_omega
    · exact addKey_arity (by assumption) hs
  · refine left_skip (q := addKey _ _ _) ?_ ?_ rfl
    · rw [addKey_len]; len_omega
    · refine addKey_arity (by assumption) ?_
      show List.length _ ≤ M
      omega

theorem funParams_ends : ∀ (n : Nat) (acc : List (List Char × Srt)) (p : P), Arity M p.keys → cost M p.len + 2 ≤ n →
    Ends (funParams cfg n acc p) fun r => r.2.len ≤ p.len ∧ Arity M r.2.keys
  | 0, _, _, _, hn => by omega
  | n + 1, acc, p, h, hn => by
    rw [funParams]
    split
    · s_done
    · iterate 3 s_read
      split
      · trivial
      · s_read
        exact (funParams_ends n _ _ (by assumption) (by e_fit)).mono fun r h => ⟨by have := h.1; len_omega, h.2⟩

theorem cmdDefConst_ends {n : Nat} {s : S} (h : Arity M s.p.keys) (hn : cost M s.p.len + 4 ≤ n) :
    Ends (cmdDefConst cfg n s) (Left M s.p) := by
  unfold cmdDefConst
  s_read
  refine Ends.bind (known_ends _ _) ?_
  rintro _ _
  split
  · s_done
  · iterate 2 s_read
    refine Ends.bind (mkFuncBody_ends _ _ _) ?_
    rintro _ _
    s_done

theorem cmdDefFun_ends {n : Nat} {s : S} (h : Arity M s.p.keys) (hn : cost M s.p.len + 4 ≤ n) :
    Ends (cmdDefFun cfg n s) (Left M s.p) := by
  unfold cmdDefFun
  s_read
  refine Ends.bind (known_ends _ _) ?_
  rintro _ _
  split
  · s_done
  · s_read
    refine Ends.bind (funParams_ends n _ _ (by assumption) (by e_fit)) ?_
    rintro ⟨_, _⟩ ⟨_, _⟩
    try dsimp only at *
    iterate 3 s_read
    refine Ends.bind (mkFuncBody_ends _ _ _) ?_
    rintro _ _
    s_done

theorem cmdDefRec_ends {n : Nat} {s : S} (h : Arity M s.p.keys) (hn : cost M s.p.len + 4 ≤ n) :
    Ends (cmdDefRec cfg n s) (Left M s.p) := by
  unfold cmdDefRec
  s_read
  refine Ends.bind (known_ends _ _) ?_
  rintro _ _
  split
  · s_done
  · s_read
    refine Ends.bind (funParams_ends n _ _ (by assumption) (by e_fit)) ?_
    rintro ⟨_, _⟩ ⟨_, _⟩
    try dsimp only at *
    iterate 2 s_read
    refine Ends.bind (mkFuncDec_ends _ _ _ _) ?_
    rintro _ _
    s_read
    refine Ends.bind (mkFuncBody_ends _ _ _) ?_
    rintro _ _
    s_done

theorem recHeads_ends : ∀ (n : Nat) (s : S) (acc : List (List Char × List (List Char × Srt) × Srt)) (p : P), Arity M p.keys →
    cost M p.len + 2 ≤ n → Ends (recHeads cfg n s acc p) fun r => r.2.len ≤ p.len ∧ Arity M r.2.keys
  | 0, _, _, _, _, hn => by omega
  | n + 1, s, acc, p, h, hn => by
    rw [recHeads]
    split
    · s_done
    · iterate 2 s_read
      refine Ends.bind (known_ends _ _) ?_
      rintro _ _
      split
      · rename_i q _ _ _ _ _
        have hl := skipTo_len q
        exact (recHeads_ends n _ _ (skipTo q) (by assumption) (fit_lt hn (by len_omega) (by omega))).mono
          fun r h => ⟨by have := h.1; len_omega, h.2⟩
      · s_read
        refine Ends.bind ((expr_ends cfg M n).quantVars _ _ (by assumption) (by e_fit)) ?_
        rintro ⟨_, _⟩ ⟨_, _⟩
        try dsimp only at *
        iterate 3 s_read
        exact (recHeads_ends n _ _ _ (by assumption) (by e_fit)).mono fun r h => ⟨by have := h.1; len_omega, h.2⟩

theorem recDecs_ends : ∀ (hs : List (List Char × List (List Char × Srt) × Srt)) (fs : List (List Char × Fn Srt)),
    Ends (recDecs hs fs) fun _ => True
  | [], fs => trivial
  | (x, ps, so) :: hs, fs => by
    rw [recDecs]
    exact Ends.bind (mkFuncDec_ends _ _ _ _) fun _ _ => recDecs_ends hs _

theorem recBodies_ends (n : Nat) : ∀ (hs : List (List Char × List (List Char × Srt) × Srt)) (s : S) (p : P), Arity M p.keys →
    cost M p.len + 4 ≤ n → Ends (recBodies cfg n hs s p) fun r => r.2.len ≤ p.len ∧ Arity M r.2.keys
  | [], s, p, h, hn => ⟨Nat.le_refl _, h⟩
  | (x, ps, so) :: hs, s, p, h, hn => by
    rw [recBodies]
    s_read
    refine Ends.bind (mkFuncBody_ends _ _ _) ?_
    rintro _ _
    exact (recBodies_ends n hs _ _ (by assumption) (by e_fit)).mono fun r h => ⟨by have := h.1; len_omega, h.2⟩

theorem cmdDefRecs_ends {n : Nat} {s : S} (h : Arity M s.p.keys) (hn : cost M s.p.len + 4 ≤ n) :
    Ends (cmdDefRecs cfg n s) (Left M s.p) := by
  unfold cmdDefRecs
  s_read
  refine Ends.bind (recHeads_ends n _ _ _ (by assumption) (by e_fit)) ?_
  rintro ⟨_, _⟩ ⟨_, _⟩
  try dsimp only at *
  s_read
  refine Ends.bind (recDecs_ends _ _) ?_
  rintro _ _
  s_read
  refine Ends.bind (recBodies_ends n _ _ _ (by assumption) (by e_fit)) ?_
  rintro ⟨_, _⟩ ⟨_, _⟩
  try dsimp only at *
  s_read
  s_done

theorem cmdLogic_ends {s : S} (h : Arity M s.p.keys) : Ends (cmdLogic cfg s) (Left M s.p) := by
  unfold cmdLogic
  s_read
  split
  · s_done
  · trivial

theorem cmdQuant_ends {n : Nat} {s : S} (h : Arity M s.p.keys) (hn : cost M s.p.len + 4 ≤ n) :
    Ends (cmdQuant cfg n s) (Left M s.p) := by
  unfold cmdQuant
  refine Ends.bind ((expr_ends cfg M n).quantHead _ (by assumption) (by e_fit)) ?_
  rintro ⟨_, _⟩ ⟨_, _⟩
  try dsimp only at *
  s_read
  s_done

theorem objKeys_ends : ∀ (n : Nat) (a : OKeys) (p : P), Arity M p.keys →
    Ends (objKeys cfg n a p) fun r => r.2.len ≤ p.len ∧ Arity M r.2.keys
  | 0, a, p, h => ⟨Nat.le_refl _, h⟩
  | n + 1, a, p, h => by
    rw [objKeys]
    s_read
    split
    · s_done
    · repeat' split
      all_goals first
        | trivial
        | (s_read; exact (objKeys_ends n _ _ (by assumption)).mono fun r h => ⟨by have := h.1; len_omega, h.2⟩)

theorem singleObj_ends {n : Nat} {k : OptKind} {s : S} (h : Arity M s.p.keys) (hn : cost M s.p.len + 4 ≤ n) :
    Ends (singleObj cfg n k s) fun r => Left M s.p r.2 := by
  unfold singleObj
  refine Ends.bind (objKeys_ends _ _ _ h) ?_
  rintro ⟨_, _⟩ ⟨_, _⟩
  try dsimp only at *
  s_read
  refine Ends.bind (objKeys_ends _ _ _ (by assumption)) ?_
  rintro ⟨_, _⟩ ⟨_, _⟩
  try dsimp only at *
  s_done

theorem cmdObj_ends {n : Nat} {k : OptKind} {s : S} (h : Arity M s.p.keys) (hn : cost M s.p.len + 4 ≤ n) :
    Ends (cmdObj cfg n k s) (Left M s.p) := by
  unfold cmdObj
  refine Ends.bind (singleObj_ends h hn) ?_
  rintro ⟨_, s'⟩ ⟨h1, h2⟩
  exact left_skip h1 h2 rfl

theorem cmdDefObj_ends {n : Nat} {s : S} (h : Arity M s.p.keys) (hn : cost M s.p.len + 4 ≤ n) :
    Ends (cmdDefObj cfg n s) (Left M s.p) := by
  unfold cmdDefObj
  iterate 5 s_read
  split
  · rename_i q _ _ _
    refine Ends.bind (singleObj_ends (M := M) (s := { s with p := q }) (by assumption) (by show cost M q.len + 4 ≤ n; e_fit)) ?_
    rintro ⟨_, s'⟩ ⟨h1, h2⟩
    try dsimp only at *
    s_read
    s_done
  · trivial

theorem cmdMulti_ends {n : Nat} {k : OptKind} {s : S} (h : Arity M s.p.keys) (hn : cost M s.p.len + 4 ≤ n) :
    Ends (cmdMulti cfg n k s) (Left M s.p) := by
  unfold cmdMulti
  iterate 3 s_read
  refine Ends.bind (symList_ends n _ _ (by assumption) (by e_fit)) ?_
  rintro ⟨_, _⟩ ⟨ha, _⟩
  try dsimp only at *
  rw [List.length_nil, Nat.zero_add] at ha
  iterate 3 s_read
  s_done

theorem optKeys_ends : ∀ (n : Nat) (p : P), Arity M p.keys → Ends (optKeys cfg n p) fun r => r.len ≤ p.len ∧ Arity M r.keys
  | 0, p, h => ⟨Nat.le_refl _, h⟩
  | n + 1, p, h => by
    rw [optKeys]
    s_read
    split
    · s_done
    · split
      · s_read
        exact (optKeys_ends n _ (by assumption)).mono fun r h => ⟨by have := h.1; len_omega, h.2⟩
      · trivial

theorem cmdOptimize_ends {n : Nat} {s : S} (h : Arity M s.p.keys) (hn : cost M s.p.len + 4 ≤ n) :
    Ends (cmdOptimize cfg n s) (Left M s.p) := by
  unfold cmdOptimize
  refine Ends.bind (optKeys_ends _ _ h) ?_
  rintro _ ⟨_, _⟩
  s_read
  refine Ends.bind (symList_ends n _ _ (by assumption) (by e_fit)) ?_
  rintro ⟨_, _⟩ ⟨ha, _⟩
  try dsimp only at *
  rw [List.length_nil, Nat.zero_add] at ha
  s_read
  refine Ends.bind (optKeys_ends _ _ (by assumption)) ?_
  rintro _ ⟨_, _⟩
  s_done

theorem go_ends {p : P} {r : Res S} (h : Ends r (Left M p)) :
    Ends (do let s ← r; return (false, s) : Res (Bool × S)) fun x => Left M p x.2 := h.bind fun s hs => hs

theorem ite_ends {α : Type} {c : Prop} [Decidable c] {a b : Res α} {Q : α → Prop} (h1 : Ends a Q) (h2 : Ends b Q) :
    Ends (if c then a else b) Q := by
  split
  · exact h1
  · exact h2

theorem dispatch_ends {n : Nat} {c : List Char} {s : S} (h : Arity M s.p.keys) (hn : cost M s.p.len + 4 ≤ n) (hM : s.p.len ≤ M)
    (hM' : 2 ^ 64 ≤ M + 1) : Ends (dispatch cfg n c s) fun r => Left M s.p r.2 := by
  have hsk : ∀ s' : S, s'.p = skipTo s.p → Ends (.ok s' : Res S) (Left M s.p) := fun s' e => left_skip (Nat.le_refl _) h e
  unfold dispatch
  dsimp only
  exact
    ite_ends (go_ends (cmdAssert_ends h hn)) <|
    ite_ends (go_ends (cmdSoft_ends h hn)) <|
    ite_ends (go_ends (hsk _ rfl)) <|
    ite_ends (go_ends (cmdAssuming_ends h hn)) <|
    ite_ends (go_ends (cmdConst_ends h hn)) <|
    ite_ends (go_ends (cmdFun_ends h hn)) <|
    ite_ends (go_ends (cmdSort_ends h hM')) <|
    ite_ends (go_ends (cmdDefConst_ends h hn)) <|
    ite_ends (go_ends (cmdDefFun_ends h hn)) <|
    ite_ends (go_ends (cmdDefRec_ends h hn)) <|
    ite_ends (go_ends (cmdDefRecs_ends h hn)) <|
    ite_ends (go_ends (cmdDefSort_ends h hn hM)) <|
    ite_ends ((left_skip (Nat.le_refl _) h rfl : Left M s.p _)) <|
    ite_ends (go_ends (hsk _ rfl)) <|
    ite_ends (go_ends (cmdLogic_ends h)) <|
    ite_ends (go_ends (cmdQuant_ends h hn)) <|
    ite_ends (go_ends (hsk _ rfl)) <|
    ite_ends (go_ends (cmdObj_ends h hn)) <|
    ite_ends (go_ends (cmdObj_ends h hn)) <|
    ite_ends (go_ends (cmdDefObj_ends h hn)) <|
    ite_ends (go_ends (cmdMulti_ends h hn)) <|
    ite_ends (go_ends (cmdMulti_ends h hn)) <|
    ite_ends (go_ends (cmdMulti_ends h hn)) <|
    ite_ends (go_ends (cmdMulti_ends h hn)) <|
    ite_ends (go_ends (cmdMulti_ends h hn)) <|
    ite_ends (go_ends (cmdObj_ends h hn)) <|
    ite_ends (go_ends (cmdObj_ends h hn)) <|
    ite_ends (go_ends (cmdOptimize_ends h hn)) <|
    ite_ends (go_ends (hsk _ rfl)) <|
    trivial

theorem loop_ends (hM' : 2 ^ 64 ≤ M + 1) : ∀ (n : Nat) (s : S), Arity M s.p.keys → s.p.len ≤ M → cost M s.p.len + 5 ≤ n →
    Ends (loop cfg n s) fun r => r.p.len ≤ s.p.len ∧ Arity M r.p.keys
  | 0, _, _, _, hn => by omega
  | n + 1, s, h, hM, hn => by
    rw [loop]
    split
    · exact ⟨Nat.le_refl _, h⟩
    · s_read
      rename_i q hq hk
      unfold command
      refine Ends.bind (Q := fun r => r.2.p.len ≤ q.len ∧ Arity M r.2.p.keys) ?_ ?_
      · refine Ends.bind (sym_ok (M := M) (by assumption)) ?_
        rintro ⟨c, q'⟩ ⟨h1, h2⟩
        try dsimp only at *
        refine (dispatch_ends (s := { s with p := q' }) h2 (by show cost M q'.len + 4 ≤ n; e_fit) (by show q'.len ≤ M; omega) hM').mono fun r hr => ?_
        have := hr.1
        have e : ({ s with p := q' } : S).p.len = q'.len := rfl
        exact ⟨by omega, hr.2⟩
      · rintro ⟨b, s'⟩ ⟨h1, h2⟩
        try dsimp only at *
        split
        · exact ⟨by show s'.p.len ≤ s.p.len; omega, h2⟩
        · s_read
          rename_i q' _ _
          refine (loop_ends hM' n { s' with p := q' } (by assumption) (by show q'.len ≤ M; omega) (by show cost M q'.len + 5 ≤ n; e_fit)).mono fun r hr => ?_
          have := hr.1
          have e : ({ s' with p := q' } : S).p.len = q'.len := rfl
          exact ⟨by omega, hr.2⟩

end

end SMT.Script
