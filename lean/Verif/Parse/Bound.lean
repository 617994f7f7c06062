import Verif.Parse.Model

/-!
# Reading an expression leaves the scopes as they were (C52, C56)

For every text, well-formed or not: if `parseExpr` returns, `let_nesting_depth` is what it was, and when lets are expanded the table of the let
names is what it was.  When lets are preserved, an expression outside of all lets is read in the same way whatever names the table has.
-/

namespace SMT.Parse
open SMT SMT.Text SMT.Lex SMT.Sorts

set_option linter.unusedSimpArgs false
set_option linter.unusedVariables false

theorem bind_ok {α β : Type} {x : Res α} {f : α → Res β} {b : β} (h : (x >>= f) = .ok b) : ∃ a, x = .ok a ∧ f a = .ok b := by
  cases x with
  | ok a => exact ⟨a, rfl, h⟩
  | _ => cases h

/-- the let scopes are those of `p` -/
structure Keeps (cfg : Cfg) (p q : P) : Prop where
  depth : q.depth = p.depth
  bound : cfg.pres = false → q.bound = p.bound

theorem Keeps.refl {cfg : Cfg} {p : P} : Keeps cfg p p := ⟨rfl, fun _ => rfl⟩
theorem Keeps.trans {cfg : Cfg} {p q r : P} (h1 : Keeps cfg p q) (h2 : Keeps cfg q r) : Keeps cfg p r :=
  ⟨h2.depth.trans h1.depth, fun h => (h2.bound h).trans (h1.bound h)⟩

/-- `q` is `p` but for the cursor and the sort table -/
structure Quiet (p q : P) : Prop where
  bound : q.bound = p.bound
  depth : q.depth = p.depth
theorem Quiet.keeps {cfg : Cfg} {p q : P} (h : Quiet p q) : Keeps cfg p q := ⟨h.depth, fun _ => h.bound⟩
theorem Quiet.refl {p : P} : Quiet p p := ⟨rfl, rfl⟩
theorem Quiet.trans {p q r : P} (h1 : Quiet p q) (h2 : Quiet q r) : Quiet p r := ⟨h2.bound.trans h1.bound, h2.depth.trans h1.depth⟩

theorem sym_quiet {cfg : Cfg} {p q : P} {s : List Char} (h : sym cfg p = .ok (s, q)) : Quiet p q := by
  obtain ⟨a, _, h⟩ := bind_ok h
  injection h with h; injection h with _ h; subst h; exact ⟨rfl, rfl⟩
theorem lpar_quiet {p q : P} (h : lpar p = .ok q) : Quiet p q := by
  obtain ⟨a, _, h⟩ := bind_ok h
  injection h with h; subst h; exact ⟨rfl, rfl⟩
theorem rpar_quiet {p q : P} (h : rpar p = .ok q) : Quiet p q := by
  obtain ⟨a, _, h⟩ := bind_ok h
  injection h with h; subst h; exact ⟨rfl, rfl⟩
theorem skip_quiet {p : P} : Quiet p (skip p) := ⟨rfl, rfl⟩
theorem keyed_quiet {p q : P} {k : List Char} {rs : Res Srt} {s : Srt} (h : keyed p k rs = .ok (s, q)) : Quiet p q := by
  unfold keyed at h
  split at h
  · injection h with h; injection h with _ h; subst h; exact ⟨rfl, rfl⟩
  · obtain ⟨a, _, h⟩ := bind_ok h
    injection h with h; injection h with _ h; subst h; exact ⟨rfl, rfl⟩

mutual
theorem parseSort_quiet {cfg : Cfg} : ∀ {n : Nat} {p q : P} {s : Srt}, parseSort cfg n p = .ok (s, q) → Quiet p q
  | 0, _, _, _, h => by cases h
  | n + 1, p, q, s, h => by
    rw [parseSort] at h
    split at h
    · injection h with h; injection h with _ h; subst h; exact .refl
    · split at h
      · obtain ⟨⟨a, p1⟩, h1, h⟩ := bind_ok h
        obtain ⟨b, _, h⟩ := bind_ok h
        injection h with h; injection h with _ h; subst h; exact sym_quiet h1
      · obtain ⟨p1, h1, h⟩ := bind_ok h
        obtain ⟨⟨a, p2⟩, h2, h⟩ := bind_ok h
        obtain ⟨⟨b, p3⟩, h3, h⟩ := bind_ok h
        obtain ⟨p4, h4, h⟩ := bind_ok h
        injection h with h; injection h with _ h; subst h
        exact (lpar_quiet h1).trans ((sym_quiet h2).trans ((sortTail_quiet h3).trans (rpar_quiet h4)))
theorem sortTail_quiet {cfg : Cfg} : ∀ {n : Nat} {a : List Char} {p q : P} {s : Srt}, sortTail cfg n a p = .ok (s, q) → Quiet p q
  | 0, _, _, _, _, h => by cases h
  | n + 1, a, p, q, s, h => by
    rw [sortTail] at h
    split at h
    · obtain ⟨⟨i, p1⟩, h1, h⟩ := bind_ok h
      obtain ⟨⟨e, p2⟩, h2, h⟩ := bind_ok h
      exact (parseSort_quiet h1).trans ((parseSort_quiet h2).trans (keyed_quiet h))
    · split at h
      · injection h with h; injection h with _ h; subst h; exact .refl
      · split at h
        · obtain ⟨⟨i, p1⟩, h1, h⟩ := bind_ok h
          simp only at h
          split at h
          · cases h
          · injection h with h; injection h with _ h; subst h; exact parseSort_quiet h1
        · split at h
          · injection h with h; injection h with _ h; subst h; exact .refl
          · split at h
            · obtain ⟨⟨i, p1⟩, h1, h⟩ := bind_ok h
              simp only at h
              split at h
              · obtain ⟨⟨w, p2⟩, h2, h⟩ := bind_ok h
                exact (sym_quiet h1).trans ((sym_quiet h2).trans (keyed_quiet h))
              · split at h
                · obtain ⟨⟨w, p2⟩, h2, h⟩ := bind_ok h
                  obtain ⟨⟨w', p3⟩, h3, h⟩ := bind_ok h
                  exact (sym_quiet h1).trans ((sym_quiet h2).trans ((sym_quiet h3).trans (keyed_quiet h)))
                · cases h
            · obtain ⟨r, h1, h⟩ := bind_ok h
              obtain ⟨p1, h2, h⟩ := bind_ok h
              injection h with h; injection h with _ h; subst h
              exact sortArgs_quiet h2
theorem sortArgs_quiet {cfg : Cfg} : ∀ {n k : Nat} {p q : P}, sortArgs cfg n k p = .ok q → Quiet p q
  | 0, _, _, _, h => by cases h
  | n + 1, 0, p, q, h => by
    rw [sortArgs] at h
    injection h with h; subst h; exact .refl
  | n + 1, k + 1, p, q, h => by
    rw [sortArgs] at h
    obtain ⟨⟨s, p1⟩, h1, h⟩ := bind_ok h
    exact (parseSort_quiet h1).trans (sortArgs_quiet h)
end

theorem keyword_quiet {cfg : Cfg} {p q : P} {k : KW} (h : keyword cfg p = .ok (k, q)) : Quiet p q := by
  unfold keyword at h
  split at h
  · obtain ⟨⟨a, p1⟩, h1, h⟩ := bind_ok h
    have := sym_quiet h1
    simp only [Res.pure_eq] at h
    repeat' split at h
    all_goals first
      | (injection h with h; injection h with _ h; subst h; exact this)
      | cases h
  · injection h with h; injection h with _ h; subst h; exact .refl

/-- the names of the levels that are open, the innermost first, above the names that were there before -/
def openNames (B : List (List Char)) : List LetCtx → List (List Char)
  | [] => B
  | c :: st => c.names.reverse ++ openNames B st

/-- the names of each level are new -/
def NewNames (B : List (List Char)) : List LetCtx → Prop
  | [] => True
  | c :: st => (∀ x ∈ c.names, x ∉ openNames B st) ∧ NewNames B st

/-- the names that are bound are those of the open levels; the top level has no names before its bindings are read -/
def Levels (B : List (List Char)) (st : List LetCtx) (p : P) : Prop :=
  NewNames B st ∧ p.bound = openNames B st ∧ ∀ c st', st = c :: st' → c.complete = false → c.names = []

theorem filter_names {ns B : List (List Char)} (h : ∀ x ∈ ns, x ∉ B) :
    ((ns.reverse ++ B).filter fun x => decide (x ∉ ns)) = B := by
  rw [List.filter_append]
  have h1 : (ns.reverse.filter fun x => decide (x ∉ ns)) = [] := by
    rw [List.filter_eq_nil_iff]; intro x hx; simpa using hx
  have h2 : (B.filter fun x => decide (x ∉ ns)) = B := by
    rw [List.filter_eq_self]; intro x hx; simpa using fun hn => h x hn hx
  rw [h1, h2, List.nil_append]

mutual
theorem expr_keeps {cfg : Cfg} : ∀ {n : Nat} {p q : P} {t : T Srt}, expr cfg n p = .ok (t, q) → Keeps cfg p q
  | 0, _, _, _, h => by cases h
  | n + 1, p, q, t, h => by
    rw [expr] at h
    exact run_keeps h
theorem run_keeps {cfg : Cfg} : ∀ {n : Nat} {st : List Frame} {p q : P} {t : T Srt}, run cfg n st p = .ok (t, q) → Keeps cfg p q
  | 0, _, _, _, _, h => by cases h
  | _ + 1, [], _, _, _, h => by cases h
  | n + 1, f :: st, p, q, t, h => by
    rw [run] at h
    split at h
    · split at h
      · obtain ⟨⟨s, p1⟩, h1, h⟩ := bind_ok h
        exact (sym_quiet h1).keeps.trans (run_keeps h)
      · obtain ⟨p1, h1, h⟩ := bind_ok h
        obtain ⟨⟨f1, p2⟩, h2, h⟩ := bind_ok h
        exact (lpar_quiet h1).keeps.trans ((start_keeps h2).trans (run_keeps h))
    · have hq : Quiet p (skip (if placeholderOp f.opName then { p with ph := true } else p)) := by split <;> exact ⟨rfl, rfl⟩
      simp only at h
      generalize skip (if placeholderOp f.opName then { p with ph := true } else p) = p1 at h hq
      split at h
      · obtain ⟨p2, h1, h⟩ := bind_ok h
        refine hq.keeps.trans ((rpar_quiet h1).keeps.trans (Keeps.trans ?_ (run_keeps h)))
        split <;> exact ⟨rfl, fun _ => rfl⟩
      · exact hq.keeps.trans (run_keeps h)
    · simp only at h
      split at h
      · obtain ⟨p2, h1, h⟩ := bind_ok h
        exact skip_quiet.keeps.trans ((rpar_quiet h1).keeps.trans (run_keeps h))
      · exact skip_quiet.keeps.trans (run_keeps h)
    · simp only at h
      split at h
      · obtain ⟨p2, h1, h⟩ := bind_ok h
        exact skip_quiet.keeps.trans ((rpar_quiet h1).keeps.trans (run_keeps h))
      · exact skip_quiet.keeps.trans (run_keeps h)
    · split at h
      · cases h
      · split at h
        · injection h with h; injection h with _ h; subst h; exact .refl
        · split at h <;> exact run_keeps h
theorem start_keeps {cfg : Cfg} : ∀ {n : Nat} {f g : Frame} {p q : P}, start cfg n f p = .ok (g, q) → Keeps cfg p q
  | 0, _, _, _, _, h => by cases h
  | n + 1, f, g, p, q, h => by
    rw [start] at h
    split at h
    · obtain ⟨p1, h1, h⟩ := bind_ok h
      obtain ⟨⟨s, p2⟩, h2, h⟩ := bind_ok h
      refine (lpar_quiet h1).keeps.trans ((sym_quiet h2).keeps.trans ?_)
      simp only at h
      split at h
      · obtain ⟨⟨s, p3⟩, h3, h⟩ := bind_ok h
        injection h with h; injection h with _ h; subst h; exact (sym_quiet h3).keeps
      · split at h
        · obtain ⟨⟨s, p3⟩, h3, h⟩ := bind_ok h
          refine (sym_quiet h3).keeps.trans ?_
          simp only at h
          split at h
          · obtain ⟨⟨s, p4⟩, h4, h⟩ := bind_ok h
            obtain ⟨p5, h5, h⟩ := bind_ok h
            obtain ⟨⟨s, p6⟩, h6, h⟩ := bind_ok h
            obtain ⟨p7, h7, h⟩ := bind_ok h
            injection h with h; injection h with _ h; subst h
            exact (parseSort_quiet h4).keeps.trans ((rpar_quiet h5).keeps.trans ((expr_keeps h6).trans (rpar_quiet h7).keeps))
          · cases h
        · split at h
          · obtain ⟨⟨s, p3⟩, h3, h⟩ := bind_ok h
            obtain ⟨⟨s, p4⟩, h4, h⟩ := bind_ok h
            obtain ⟨p5, h5, h⟩ := bind_ok h
            obtain ⟨i, h6, h⟩ := bind_ok h
            injection h with h; injection h with _ h; subst h
            have k := expr_keeps h3
            exact Keeps.trans ⟨k.depth, k.bound⟩ ((sym_quiet h4).keeps.trans (Keeps.trans (rpar_quiet h5).keeps ⟨rfl, fun _ => rfl⟩))
          · split at h
            · obtain ⟨⟨s, p3⟩, h3, h⟩ := bind_ok h
              injection h with h; injection h with _ h; subst h
              exact rootInt_keeps h3
            · cases h
    · obtain ⟨⟨s, p1⟩, h1, h⟩ := bind_ok h
      refine (sym_quiet h1).keeps.trans ?_
      simp only at h
      split at h
      · obtain ⟨⟨s, p3⟩, h3, h⟩ := bind_ok h
        obtain ⟨⟨s, p4⟩, h4, h⟩ := bind_ok h
        obtain ⟨p5, h5, h⟩ := bind_ok h
        injection h with h; injection h with _ h; subst h
        exact (quantHead_keeps h3).keeps.trans ((expr_keeps h4).trans (rpar_quiet h5).keeps)
      · split at h
        · obtain ⟨⟨s, p3⟩, h3, h⟩ := bind_ok h
          refine (sym_quiet h3).keeps.trans ?_
          simp only at h
          split at h
          · obtain ⟨⟨s, p4⟩, h4, h⟩ := bind_ok h
            obtain ⟨w, h5, h⟩ := bind_ok h
            obtain ⟨p5, h6, h⟩ := bind_ok h
            injection h with h; injection h with _ h; subst h
            exact (sym_quiet h4).keeps.trans (rpar_quiet h6).keeps
          · split at h
            · obtain ⟨⟨s, p4⟩, h4, h⟩ := bind_ok h
              obtain ⟨⟨s, p5⟩, h5, h⟩ := bind_ok h
              obtain ⟨w, h6, h⟩ := bind_ok h
              obtain ⟨w', h7, h⟩ := bind_ok h
              obtain ⟨p6, h8, h⟩ := bind_ok h
              injection h with h; injection h with _ h; subst h
              exact (sym_quiet h4).keeps.trans ((sym_quiet h5).keeps.trans (rpar_quiet h8).keeps)
            · split at h
              · obtain ⟨⟨s, p4⟩, h4, h⟩ := bind_ok h
                obtain ⟨p6, h8, h⟩ := bind_ok h
                injection h with h; injection h with _ h; subst h
                exact (sym_quiet h4).keeps.trans (rpar_quiet h8).keeps
              · split at h
                · obtain ⟨⟨s, p4⟩, h4, h⟩ := bind_ok h
                  obtain ⟨p6, h8, h⟩ := bind_ok h
                  injection h with h; injection h with _ h; subst h
                  have k := algebraic_keeps h4
                  have k2 := rpar_quiet h8
                  exact Keeps.trans ⟨k.depth, k.bound⟩ ⟨k2.depth, fun _ => k2.bound⟩
                · injection h with h; injection h with _ h; subst h; exact .refl
        · split at h
          · obtain ⟨⟨s, p3⟩, h3, h⟩ := bind_ok h
            obtain ⟨⟨s, p4⟩, h4, h⟩ := bind_ok h
            obtain ⟨⟨s, p5⟩, h5, h⟩ := bind_ok h
            obtain ⟨p6, h6, h⟩ := bind_ok h
            injection h with h; injection h with _ h; subst h
            exact (expr_keeps h3).trans ((expr_keeps h4).trans ((expr_keeps h5).trans (rpar_quiet h6).keeps))
          · split at h
            · obtain ⟨q1, h3, h⟩ := bind_ok h
              obtain ⟨⟨s, q2⟩, h4, h⟩ := bind_ok h
              obtain ⟨q3, h5, h⟩ := bind_ok h
              injection h with h; injection h with _ h; subst h
              have k1 := lpar_quiet h3
              have k2 := letLoop_keeps h4
              have k3 := rpar_quiet h5
              refine ⟨?_, fun hp => ?_⟩
              · rw [k3.depth]
                show q2.depth - 1 = _
                rw [k2.1, k1.depth]
                show (if _ then _ else _ : P).depth + 1 - 1 = _
                split <;> simp
              · rw [k3.bound]
                show q2.bound = _
                rw [k2.2 hp q1.bound ⟨⟨by simp, trivial⟩, rfl, fun c' st' e _ => by injection e with e _; subst e; rfl⟩, k1.bound]
                show (if _ then _ else _ : P).bound = _
                rw [if_neg (by simp [hp])]
            · split at h
              · obtain ⟨⟨s, p3⟩, h3, h⟩ := bind_ok h
                obtain ⟨⟨s, p4⟩, h4, h⟩ := bind_ok h
                refine (expr_keeps h3).trans ((keyword_quiet h4).keeps.trans ?_)
                simp only at h
                split at h
                · obtain ⟨⟨s, p5⟩, h5, h⟩ := bind_ok h
                  obtain ⟨p6, h6, h⟩ := bind_ok h
                  injection h with h; injection h with _ h; subst h
                  exact (sym_quiet h5).keeps.trans (rpar_quiet h6).keeps
                · obtain ⟨p6, h6, h⟩ := bind_ok h
                  injection h with h; injection h with _ h; subst h
                  exact (rpar_quiet h6).keeps
              · split at h
                · obtain ⟨⟨s, p3⟩, h3, h⟩ := bind_ok h
                  injection h with h; injection h with _ h; subst h
                  exact rootInt_keeps h3
                · injection h with h; injection h with _ h; subst h; exact .refl
theorem rootInt_keeps {cfg : Cfg} : ∀ {n : Nat} {p q : P} {ts : List (T Srt)}, rootInt cfg n p = .ok (ts, q) → Keeps cfg p q
  | 0, _, _, _, h => by cases h
  | n + 1, p, q, ts, h => by
    rw [rootInt] at h
    obtain ⟨p1, h1, h⟩ := bind_ok h
    obtain ⟨⟨s, p2⟩, h2, h⟩ := bind_ok h
    obtain ⟨⟨s, p3⟩, h3, h⟩ := bind_ok h
    obtain ⟨p4, h4, h⟩ := bind_ok h
    obtain ⟨⟨s, p5⟩, h5, h⟩ := bind_ok h
    obtain ⟨⟨s, p6⟩, h6, h⟩ := bind_ok h
    obtain ⟨p7, h7, h⟩ := bind_ok h
    injection h with h; injection h with _ h; subst h
    exact (lpar_quiet h1).keeps.trans ((sym_quiet h2).keeps.trans (skip_quiet.keeps.trans ((coeffs_keeps h3).trans ((rpar_quiet h4).keeps.trans
      ((expr_keeps h5).trans ((expr_keeps h6).trans (rpar_quiet h7).keeps))))))
theorem coeffs_keeps {cfg : Cfg} : ∀ {n : Nat} {acc : List (T Srt)} {p q : P} {ts : List (T Srt)}, coeffs cfg n acc p = .ok (ts, q) → Keeps cfg p q
  | 0, _, _, _, _, h => by cases h
  | n + 1, acc, p, q, ts, h => by
    rw [coeffs] at h
    split at h
    · injection h with h; injection h with _ h; subst h; exact .refl
    · obtain ⟨⟨s, p1⟩, h1, h⟩ := bind_ok h
      exact (expr_keeps h1).trans (skip_quiet.keeps.trans (coeffs_keeps h))
theorem algebraic_keeps {cfg : Cfg} : ∀ {n : Nat} {p q : P} {ts : List (T Srt)}, algebraic cfg n p = .ok (ts, q) → Keeps cfg p q
  | 0, _, _, _, h => by cases h
  | n + 1, p, q, ts, h => by
    have comma : ∀ (x : P) (c : Char), Keeps cfg x (if x.cur = some c then skip (advance x) else x) := fun x c => by
      split <;> exact ⟨rfl, fun _ => rfl⟩
    have last : ∀ (x : P) (c : Char), Keeps cfg x (if x.cur = some c then advance x else x) := fun x c => by
      split <;> exact ⟨rfl, fun _ => rfl⟩
    rw [algebraic] at h
    split at h
    · obtain ⟨⟨s, p1⟩, h1, h⟩ := bind_ok h
      refine Keeps.trans (q := skip (advance p)) ⟨rfl, fun _ => rfl⟩ ((expr_keeps h1).trans (skip_quiet.keeps.trans ((comma _ ',').trans ?_)))
      simp only at h
      generalize (if (skip p1).cur = some ',' then skip (advance (skip p1)) else skip p1) = p1' at h ⊢
      split at h
      · obtain ⟨p2, h2, h⟩ := bind_ok h
        obtain ⟨⟨s, p3⟩, h3, h⟩ := bind_ok h
        obtain ⟨⟨s, p4⟩, h4, h⟩ := bind_ok h
        obtain ⟨p5, h5, h⟩ := bind_ok h
        injection h with h; injection h with _ h; subst h
        exact (lpar_quiet h2).keeps.trans ((expr_keeps h3).trans (skip_quiet.keeps.trans ((comma _ ',').trans ((expr_keeps h4).trans
          ((rpar_quiet h5).keeps.trans (skip_quiet.keeps.trans (last _ '>')))))))
      · obtain ⟨⟨s, p3⟩, h3, h⟩ := bind_ok h
        obtain ⟨⟨s, p4⟩, h4, h⟩ := bind_ok h
        injection h with h; injection h with _ h; subst h
        exact (expr_keeps h3).trans ((expr_keeps h4).trans (skip_quiet.keeps.trans (last _ '>')))
    · obtain ⟨⟨s, p2⟩, h2, h⟩ := bind_ok h
      obtain ⟨⟨s, p3⟩, h3, h⟩ := bind_ok h
      obtain ⟨⟨s, p4⟩, h4, h⟩ := bind_ok h
      injection h with h; injection h with _ h; subst h
      exact (expr_keeps h2).trans ((expr_keeps h3).trans (expr_keeps h4))
theorem quantHead_keeps {cfg : Cfg} : ∀ {n : Nat} {p q : P} {vs : List (List Char × Srt)}, quantHead cfg n p = .ok (vs, q) → Quiet p q
  | 0, _, _, _, h => by cases h
  | n + 1, p, q, vs, h => by
    rw [quantHead] at h
    obtain ⟨p1, h1, h⟩ := bind_ok h
    obtain ⟨⟨s, p2⟩, h2, h⟩ := bind_ok h
    obtain ⟨p3, h3, h⟩ := bind_ok h
    injection h with h; injection h with _ h; subst h
    exact (lpar_quiet h1).trans ((quantVars_keeps h2).trans (rpar_quiet h3))
theorem quantVars_keeps {cfg : Cfg} : ∀ {n : Nat} {acc : List (List Char × Srt)} {p q : P} {vs : List (List Char × Srt)},
    quantVars cfg n acc p = .ok (vs, q) → Quiet p q
  | 0, _, _, _, _, h => by cases h
  | n + 1, acc, p, q, vs, h => by
    rw [quantVars] at h
    split at h
    · injection h with h; injection h with _ h; subst h; exact .refl
    · obtain ⟨p1, h1, h⟩ := bind_ok h
      obtain ⟨⟨s, p2⟩, h2, h⟩ := bind_ok h
      obtain ⟨⟨s, p3⟩, h3, h⟩ := bind_ok h
      obtain ⟨p4, h4, h⟩ := bind_ok h
      exact (lpar_quiet h1).trans ((sym_quiet h2).trans ((parseSort_quiet h3).trans ((rpar_quiet h4).trans (quantVars_keeps h))))
theorem letBinds_keeps {cfg : Cfg} : ∀ {n : Nat} {ns ns' : List (List Char)} {vs vs' : List (T Srt)} {p q : P},
    letBinds cfg n ns vs p = .ok (ns', vs', q) → q.depth = p.depth ∧ (cfg.pres = false → ∃ zs, ns' = ns ++ zs ∧ q.bound = zs.reverse ++ p.bound ∧
      ∀ z ∈ zs, z ∉ p.bound)
  | 0, _, _, _, _, _, _, h => by cases h
  | n + 1, ns, ns', vs, vs', p, q, h => by
    rw [letBinds] at h
    split at h
    · injection h with h; injection h with e1 h; injection h with e2 e3; subst e1 e3
      exact ⟨rfl, fun _ => ⟨[], by simp, rfl, by simp⟩⟩
    · obtain ⟨p1, h1, h⟩ := bind_ok h
      obtain ⟨⟨x, p2⟩, h2, h⟩ := bind_ok h
      simp only at h
      split at h
      · cases h
      · rename_i hx
        obtain ⟨⟨v, p3⟩, h3, h⟩ := bind_ok h
        obtain ⟨p4, h4, h⟩ := bind_ok h
        have k1 := (lpar_quiet h1).trans (sym_quiet h2)
        have k2 := expr_keeps h3
        have k3 := rpar_quiet h4
        obtain ⟨d, hb⟩ := letBinds_keeps h
        refine ⟨d.trans (k3.depth.trans (k2.depth.trans k1.depth)), fun hp => ?_⟩
        obtain ⟨zs, e1, e2, e3⟩ := hb hp
        have hb4 : p4.bound = x :: p.bound := by
          rw [k3.bound]
          show x :: p3.bound = _
          rw [k2.bound hp, k1.bound]
        refine ⟨x :: zs, by simp [e1], by simp [e2, hb4], fun z hz => ?_⟩
        rcases List.mem_cons.1 hz with rfl | hz
        · rw [← k1.bound]; exact hx
        · have := e3 z hz
          rw [hb4] at this
          exact fun hh => this (by simp [hh])
theorem letLoop_keeps {cfg : Cfg} : ∀ {n : Nat} {st : List LetCtx} {all : List (List (List Char) × List (T Srt))} {p q : P} {t : T Srt},
    letLoop cfg n st all p = .ok (t, q) → q.depth = p.depth ∧ (cfg.pres = false → ∀ B, Levels B st p → q.bound = B)
  | 0, _, _, _, _, _, h => by cases h
  | _ + 1, [], _, _, _, _, h => by cases h
  | n + 1, c :: st, all, p, q, t, h => by
    rw [letLoop] at h
    obtain ⟨⟨c1, all1, p1⟩, h1, h⟩ := bind_ok h
    obtain ⟨inner, h2, h⟩ := bind_ok h
    obtain ⟨d1, b1⟩ := letLevel_keeps h1
    simp only at h
    split at h
    · obtain ⟨p2, h3, h⟩ := bind_ok h
      obtain ⟨⟨s, p3⟩, h4, h⟩ := bind_ok h
      obtain ⟨p4, h5, h⟩ := bind_ok h
      have k2 := ((lpar_quiet h3).trans (sym_quiet h4)).trans (lpar_quiet h5)
      obtain ⟨d2, b2⟩ := letLoop_keeps h
      refine ⟨d2.trans (k2.depth.trans d1), fun hp B ⟨l1, l2, l3⟩ => b2 hp B ?_⟩
      obtain ⟨e1, e2⟩ := b1 hp (openNames B st) (l3 c st rfl) l2 l1.1
      exact ⟨⟨by simp, e2, l1.2⟩, k2.bound.trans e1, fun c' st' e _ => by injection e with e _; subst e; rfl⟩
    · obtain ⟨⟨r, p2⟩, h3, h⟩ := bind_ok h
      have k2 := letBody_keeps h3
      simp only at h
      have d3 : (if cfg.pres then p2 else { p2 with bound := p2.bound.filter fun x => decide (x ∉ c1.names) } : P).depth = p.depth := by
        split <;> exact k2.depth.trans d1
      have b3 : cfg.pres = false → ∀ B, Levels B (c :: st) p →
          (if cfg.pres then p2 else { p2 with bound := p2.bound.filter fun x => decide (x ∉ c1.names) } : P).bound = openNames B st := by
        intro hp B ⟨l1, l2, l3⟩
        obtain ⟨e1, e2⟩ := b1 hp (openNames B st) (l3 c st rfl) l2 l1.1
        rw [if_neg (by simp [hp])]
        show p2.bound.filter _ = _
        rw [k2.bound hp, e1]
        exact filter_names e2
      generalize (if cfg.pres then p2 else { p2 with bound := p2.bound.filter fun x => decide (x ∉ c1.names) } : P) = p3 at h d3 b3
      split at h
      · split at h
        · cases h
        · injection h with h; injection h with _ h; subst h
          exact ⟨d3, fun hp B hl => b3 hp B hl⟩
      · obtain ⟨p4, h4, h⟩ := bind_ok h
        have k4 := rpar_quiet h4
        obtain ⟨d5, b5⟩ := letLoop_keeps h
        refine ⟨d5.trans (k4.depth.trans d3), fun hp B hl => b5 hp B ?_⟩
        exact ⟨hl.1.2, k4.bound.trans (b3 hp B hl), fun c' st' e hc => by injection e with e _; subst e; cases hc⟩
theorem letLevel_keeps {cfg : Cfg} : ∀ {n : Nat} {c c' : LetCtx} {all all' : List (List (List Char) × List (T Srt))} {p q : P},
    letLevel cfg n c all p = .ok (c', all', q) → q.depth = p.depth ∧ (cfg.pres = false → ∀ B, (c.complete = false → c.names = []) →
      p.bound = c.names.reverse ++ B → (∀ x ∈ c.names, x ∉ B) → q.bound = c'.names.reverse ++ B ∧ ∀ x ∈ c'.names, x ∉ B)
  | 0, _, _, _, _, _, _, h => by cases h
  | n + 1, c, c', all, all', p, q, h => by
    rw [letLevel] at h
    split at h
    · injection h with h; injection h with e1 h; injection h with e2 e3; subst e1 e3
      exact ⟨rfl, fun _ B _ h1 h2 => ⟨h1, h2⟩⟩
    · rename_i hc
      obtain ⟨⟨ns, vs, p1⟩, h1, h⟩ := bind_ok h
      obtain ⟨p2, h2, h⟩ := bind_ok h
      injection h with h; injection h with e1 h; injection h with e2 e3; subst e1 e3
      obtain ⟨d1, b1⟩ := letBinds_keeps h1
      have k2 := rpar_quiet h2
      refine ⟨k2.depth.trans d1, fun hp B hn hb _ => ?_⟩
      obtain ⟨zs, e1, e2, e3⟩ := b1 hp
      have hB : p.bound = B := by rw [hb, hn (by simpa using hc)]; rfl
      simp only [List.nil_append] at e1
      subst e1
      rw [hB] at e2 e3
      exact ⟨k2.bound.trans e2, e3⟩
theorem letBody_keeps {cfg : Cfg} : ∀ {n : Nat} {c : LetCtx} {r : Option (T Srt)} {p q : P}, letBody cfg n c p = .ok (r, q) → Keeps cfg p q
  | 0, _, _, _, _, h => by cases h
  | n + 1, c, r, p, q, h => by
    rw [letBody] at h
    split at h
    · obtain ⟨⟨v, p3⟩, h3, h⟩ := bind_ok h
      injection h with h; injection h with _ h; subst h
      exact expr_keeps h3
    · injection h with h; injection h with _ h; subst h; exact .refl
end

/-! ## Preserved lets: the names of earlier expressions do not matter -/

/-- another table of let names -/
def P.reb (p : P) (b : List (List Char)) : P := { p with bound := b }

theorem sym_reb {cfg : Cfg} {p q : P} {s : List Char} (h : sym cfg p = .ok (s, q)) (b : List (List Char)) :
    sym cfg (p.reb b) = .ok (s, q.reb b) := by
  obtain ⟨⟨s1, l⟩, h1, h⟩ := bind_ok h
  injection h with h; injection h with e1 e2; subst e1 e2
  unfold sym
  rw [show (p.reb b).lex = p.lex from rfl, h1]
  rfl
theorem lpar_reb {p q : P} (h : lpar p = .ok q) (b : List (List Char)) : lpar (p.reb b) = .ok (q.reb b) := by
  obtain ⟨l, h1, h⟩ := bind_ok h
  injection h with h; subst h
  unfold lpar
  rw [show (p.reb b).lex = p.lex from rfl, h1]
  rfl
theorem rpar_reb {p q : P} (h : rpar p = .ok q) (b : List (List Char)) : rpar (p.reb b) = .ok (q.reb b) := by
  obtain ⟨l, h1, h⟩ := bind_ok h
  injection h with h; subst h
  unfold rpar
  rw [show (p.reb b).lex = p.lex from rfl, h1]
  rfl
theorem keyed_reb {p q : P} {k : List Char} {rs : Res Srt} {s : Srt} (h : keyed p k rs = .ok (s, q)) (b : List (List Char)) :
    keyed (p.reb b) k rs = .ok (s, q.reb b) := by
  unfold keyed at h ⊢
  rw [show (p.reb b).keys = p.keys from rfl]
  split at h
  · rename_i h1
    injection h with h; injection h with e1 e2; subst e1 e2
    rfl
  · rename_i h1
    obtain ⟨a, h2, h⟩ := bind_ok h
    injection h with h; injection h with e1 e2; subst e1 e2
    rw [h2]; rfl
theorem findSort_reb (p : P) (s : List Char) (b : List (List Char)) : findSort (p.reb b) s = findSort p s := rfl
theorem keyword_reb {cfg : Cfg} {p q : P} {k : KW} (h : keyword cfg p = .ok (k, q)) (b : List (List Char)) :
    keyword cfg (p.reb b) = .ok (k, q.reb b) := by
  unfold keyword at h ⊢
  rw [show (p.reb b).cur = p.cur from rfl]
  split at h
  · rename_i hc
    rw [if_pos hc]
    obtain ⟨⟨a, p1⟩, h1, h⟩ := bind_ok h
    rw [sym_reb h1]
    simp only [Res.pure_eq, Res.ok_bind] at h ⊢
    clear h1
    repeat' split at h
    all_goals first
      | (rename_i hk; injection h with h; injection h with e1 e2; subst e1 e2; subst hk; rfl)
      | cases h
  · rename_i hc
    injection h with h; injection h with e1 e2; subst e1 e2
    rw [if_neg hc]

mutual
theorem parseSort_reb {cfg : Cfg} : ∀ {n : Nat} {p q : P} {s : Srt}, parseSort cfg n p = .ok (s, q) → ∀ b,
    parseSort cfg n (p.reb b) = .ok (s, q.reb b)
  | 0, _, _, _, h, _ => by cases h
  | n + 1, p, q, s, h, b => by
    rw [parseSort] at h ⊢
    rw [show (p.reb b).cur = p.cur from rfl]
    split at h
    · rename_i hc
      injection h with h; injection h with e1 e2; subst e1 e2; rw [if_pos hc]
    · rename_i hc
      rw [if_neg hc]
      split at h
      · rename_i hc
        rw [if_pos hc]
        obtain ⟨⟨a, p1⟩, h1, h⟩ := bind_ok h
        obtain ⟨r, h2, h⟩ := bind_ok h
        injection h with h; injection h with e1 e2; subst e1 e2
        rw [sym_reb h1]
        simp only [Res.ok_bind, findSort_reb]
        rw [h2]; rfl
      · rename_i hc
        rw [if_neg hc]
        obtain ⟨p1, h1, h⟩ := bind_ok h
        obtain ⟨⟨a, p2⟩, h2, h⟩ := bind_ok h
        obtain ⟨⟨r, p3⟩, h3, h⟩ := bind_ok h
        obtain ⟨p4, h4, h⟩ := bind_ok h
        injection h with h; injection h with e1 e2; subst e1 e2
        rw [lpar_reb h1]; simp only [Res.ok_bind]
        rw [sym_reb h2]; simp only [Res.ok_bind]
        rw [sortTail_reb h3]; simp only [Res.ok_bind]
        rw [rpar_reb h4]; rfl
theorem sortTail_reb {cfg : Cfg} : ∀ {n : Nat} {a : List Char} {p q : P} {s : Srt}, sortTail cfg n a p = .ok (s, q) → ∀ b,
    sortTail cfg n a (p.reb b) = .ok (s, q.reb b)
  | 0, _, _, _, _, h, _ => by cases h
  | n + 1, a, p, q, s, h, b => by
    rw [sortTail] at h ⊢
    split at h
    · rename_i hc
      rw [if_pos hc]
      obtain ⟨⟨i, p1⟩, h1, h⟩ := bind_ok h
      obtain ⟨⟨e, p2⟩, h2, h⟩ := bind_ok h
      rw [parseSort_reb h1]; simp only [Res.ok_bind]
      rw [parseSort_reb h2]; simp only [Res.ok_bind]
      exact keyed_reb h b
    · rename_i hc
      rw [if_neg hc]
      split at h
      · rename_i hc
        rw [if_pos hc]
        injection h with h; injection h with e1 e2; subst e1 e2; rfl
      · rename_i hc
        rw [if_neg hc]
        split at h
        · rename_i hc
          rw [if_pos hc]
          obtain ⟨⟨i, p1⟩, h1, h⟩ := bind_ok h
          rw [parseSort_reb h1]; simp only [Res.ok_bind] at h ⊢
          split at h
          · cases h
          · rename_i hc
            injection h with h; injection h with e1 e2; subst e1 e2; rw [if_neg hc]; rfl
        · rename_i hc
          rw [if_neg hc]
          split at h
          · rename_i hc
            rw [if_pos hc]
            injection h with h; injection h with e1 e2; subst e1 e2; rfl
          · rename_i hc
            rw [if_neg hc]
            split at h
            · rename_i hc
              rw [if_pos hc]
              obtain ⟨⟨i, p1⟩, h1, h⟩ := bind_ok h
              rw [sym_reb h1]; simp only [Res.ok_bind] at h ⊢
              split at h
              · rename_i hc
                rw [if_pos hc]
                obtain ⟨⟨w, p2⟩, h2, h⟩ := bind_ok h
                rw [sym_reb h2]; simp only [Res.ok_bind] at h ⊢
                exact keyed_reb h b
              · rename_i hc
                rw [if_neg hc]
                split at h
                · rename_i hc
                  rw [if_pos hc]
                  obtain ⟨⟨w, p2⟩, h2, h⟩ := bind_ok h
                  obtain ⟨⟨w', p3⟩, h3, h⟩ := bind_ok h
                  rw [sym_reb h2]; simp only [Res.ok_bind] at h ⊢
                  rw [sym_reb h3]; simp only [Res.ok_bind] at h ⊢
                  exact keyed_reb h b
                · cases h
            · rename_i hc
              rw [if_neg hc]
              obtain ⟨r, h1, h⟩ := bind_ok h
              obtain ⟨p1, h2, h⟩ := bind_ok h
              injection h with h; injection h with e1 e2; subst e1 e2
              rw [findSort_reb, h1]; simp only [Res.ok_bind]
              rw [sortArgs_reb h2]; rfl
theorem sortArgs_reb {cfg : Cfg} : ∀ {n k : Nat} {p q : P}, sortArgs cfg n k p = .ok q → ∀ b, sortArgs cfg n k (p.reb b) = .ok (q.reb b)
  | 0, _, _, _, h, _ => by cases h
  | n + 1, 0, p, q, h, b => by
    rw [sortArgs] at h ⊢
    injection h with h; subst h; rfl
  | n + 1, k + 1, p, q, h, b => by
    rw [sortArgs] at h ⊢
    obtain ⟨⟨s, p1⟩, h1, h⟩ := bind_ok h
    rw [parseSort_reb h1]; simp only [Res.ok_bind]
    exact sortArgs_reb h b
end

theorem quantVars_reb {cfg : Cfg} : ∀ {n : Nat} {acc : List (List Char × Srt)} {p q : P} {vs : List (List Char × Srt)},
    quantVars cfg n acc p = .ok (vs, q) → ∀ b, quantVars cfg n acc (p.reb b) = .ok (vs, q.reb b)
  | 0, _, _, _, _, h, _ => by cases h
  | n + 1, acc, p, q, vs, h, b => by
    rw [quantVars] at h ⊢
    rw [show (p.reb b).cur = p.cur from rfl]
    split at h
    · rename_i hc
      rw [if_pos hc]
      injection h with h; injection h with e1 e2; subst e1 e2; rfl
    · rename_i hc
      rw [if_neg hc]
      obtain ⟨p1, h1, h⟩ := bind_ok h
      obtain ⟨⟨s, p2⟩, h2, h⟩ := bind_ok h
      obtain ⟨⟨s, p3⟩, h3, h⟩ := bind_ok h
      obtain ⟨p4, h4, h⟩ := bind_ok h
      rw [lpar_reb h1]; simp only [Res.ok_bind]
      rw [sym_reb h2]; simp only [Res.ok_bind]
      rw [parseSort_reb h3]; simp only [Res.ok_bind]
      rw [rpar_reb h4]; simp only [Res.ok_bind]
      exact quantVars_reb h b
theorem quantHead_reb {cfg : Cfg} {n : Nat} {p q : P} {vs : List (List Char × Srt)} (h : quantHead cfg n p = .ok (vs, q)) (b) :
    quantHead cfg n (p.reb b) = .ok (vs, q.reb b) := by
  cases n with
  | zero => cases h
  | succ n =>
    rw [quantHead] at h ⊢
    obtain ⟨p1, h1, h⟩ := bind_ok h
    obtain ⟨⟨s, p2⟩, h2, h⟩ := bind_ok h
    obtain ⟨p3, h3, h⟩ := bind_ok h
    injection h with h; injection h with e1 e2; subst e1 e2
    rw [lpar_reb h1]; simp only [Res.ok_bind]
    rw [quantVars_reb h2]; simp only [Res.ok_bind]
    rw [rpar_reb h3]; rfl

mutual
theorem expr_reb {cfg : Cfg} (hpr : cfg.pres = true) : ∀ {n : Nat} {p q : P} {t : T Srt}, expr cfg n p = .ok (t, q) → p.depth = 0 → ∀ b,
    ∃ b', expr cfg n (p.reb b) = .ok (t, q.reb b')
  | 0, _, _, _, h, _, _ => by cases h
  | n + 1, p, q, t, h, hd, b => by
    rw [expr] at h ⊢
    exact run_reb hpr h hd b
theorem run_reb {cfg : Cfg} (hpr : cfg.pres = true) : ∀ {n : Nat} {st : List Frame} {p q : P} {t : T Srt}, run cfg n st p = .ok (t, q) →
    p.depth = 0 → ∀ b, ∃ b', run cfg n st (p.reb b) = .ok (t, q.reb b')
  | 0, _, _, _, _, h, _, _ => by cases h
  | _ + 1, [], _, _, _, h, _, _ => by cases h
  | n + 1, f :: st, p, q, t, h, hd, b => by
    rw [run] at h ⊢
    rw [show (p.reb b).cur = p.cur from rfl]
    split at h
    · rename_i hs
      simp only [hs]
      split at h
      · rename_i hc
        rw [if_pos hc]
        obtain ⟨⟨s, p1⟩, h1, h⟩ := bind_ok h
        rw [sym_reb h1]; simp only [Res.ok_bind]
        exact run_reb hpr h ((sym_quiet h1).depth.trans hd) b
      · rename_i hc
        rw [if_neg hc]
        obtain ⟨p1, h1, h⟩ := bind_ok h
        obtain ⟨⟨f1, p2⟩, h2, h⟩ := bind_ok h
        rw [lpar_reb h1]; simp only [Res.ok_bind]
        have d1 := (lpar_quiet h1).depth.trans hd
        obtain ⟨b1, e1⟩ := start_reb hpr h2 d1 b
        rw [e1]; simp only [Res.ok_bind]
        exact run_reb hpr h ((start_keeps h2).depth.trans d1) b1
    · rename_i hs
      simp only [hs] at h ⊢
      have hq : Quiet p (skip (if placeholderOp f.opName then { p with ph := true } else p)) := by split <;> exact ⟨rfl, rfl⟩
      rw [show skip (if placeholderOp f.opName then { p.reb b with ph := true } else p.reb b) =
        (skip (if placeholderOp f.opName then { p with ph := true } else p)).reb b by split <;> rfl]
      generalize skip (if placeholderOp f.opName then { p with ph := true } else p) = p1 at h hq
      rw [show (p1.reb b).cur = p1.cur from rfl]
      split at h
      · rename_i hc
        rw [if_pos hc]
        obtain ⟨p2, h1, h⟩ := bind_ok h
        rw [rpar_reb h1]; simp only [Res.ok_bind] at h ⊢
        have d2 := (rpar_quiet h1).depth.trans (hq.depth.trans hd)
        rw [show (if placeholderOp f.opName then { p2.reb b with ph := (p.reb b).ph } else p2.reb b) =
          (if placeholderOp f.opName then { p2 with ph := p.ph } else p2 : P).reb b by split <;> rfl]
        exact run_reb hpr h (by split <;> exact d2) b
      · rename_i hc
        rw [if_neg hc]
        exact run_reb hpr h (hq.depth.trans hd) b
    · rename_i hs
      simp only [hs] at h ⊢
      rw [show skip (p.reb b) = (skip p).reb b from rfl, show ((skip p).reb b).cur = (skip p).cur from rfl]
      split at h
      · rename_i hc
        rw [if_pos hc]
        obtain ⟨p2, h1, h⟩ := bind_ok h
        rw [rpar_reb h1]; simp only [Res.ok_bind] at h ⊢
        exact run_reb hpr h ((rpar_quiet h1).depth.trans hd) b
      · rename_i hc
        rw [if_neg hc]
        exact run_reb hpr h hd b
    · rename_i hs
      simp only [hs] at h ⊢
      rw [show skip (p.reb b) = (skip p).reb b from rfl, show ((skip p).reb b).cur = (skip p).cur from rfl]
      split at h
      · rename_i hc
        rw [if_pos hc]
        obtain ⟨p2, h1, h⟩ := bind_ok h
        rw [rpar_reb h1]; simp only [Res.ok_bind] at h ⊢
        exact run_reb hpr h ((rpar_quiet h1).depth.trans hd) b
      · rename_i hc
        rw [if_neg hc]
        exact run_reb hpr h hd b
    · rename_i hs
      try simp only [hs]
      split at h
      · cases h
      · rename_i hr
        split at h
        · injection h with h; injection h with e1 e2; subst e1 e2; exact ⟨b, rfl⟩
        · split at h <;> (rename_i hg; first
            | (simp only [hg] at h ⊢; exact run_reb hpr h hd b)
            | (simp only [hg]; exact run_reb hpr h hd b)
            | exact run_reb hpr h hd b)
theorem start_reb {cfg : Cfg} (hpr : cfg.pres = true) : ∀ {n : Nat} {f g : Frame} {p q : P}, start cfg n f p = .ok (g, q) → p.depth = 0 → ∀ b,
    ∃ b', start cfg n f (p.reb b) = .ok (g, q.reb b')
  | 0, _, _, _, _, h, _, _ => by cases h
  | n + 1, f, g, p, q, h, hd, b => by
    rw [start] at h ⊢
    rw [show (p.reb b).cur = p.cur from rfl]
    split at h
    · rename_i hc
      rw [if_pos hc]
      obtain ⟨p1, h1, h⟩ := bind_ok h
      obtain ⟨⟨s, p2⟩, h2, h⟩ := bind_ok h
      rw [lpar_reb h1]; simp only [Res.ok_bind] at h ⊢
      rw [sym_reb h2]; simp only [Res.ok_bind] at h ⊢
      have d2 := ((lpar_quiet h1).trans (sym_quiet h2)).depth.trans hd
      split at h
      · rename_i hc
        rw [if_pos hc]
        obtain ⟨⟨s, p3⟩, h3, h⟩ := bind_ok h
        injection h with h; injection h with e1 e2; subst e1 e2
        rw [sym_reb h3]; exact ⟨b, rfl⟩
      · rename_i hc
        rw [if_neg hc]
        split at h
        · rename_i hc
          rw [if_pos hc]
          obtain ⟨⟨s, p3⟩, h3, h⟩ := bind_ok h
          rw [sym_reb h3]; simp only [Res.ok_bind] at h ⊢
          have d3 := (sym_quiet h3).depth.trans d2
          split at h
          · rename_i hc
            rw [if_pos hc]
            obtain ⟨⟨s, p4⟩, h4, h⟩ := bind_ok h
            obtain ⟨p5, h5, h⟩ := bind_ok h
            obtain ⟨⟨s, p6⟩, h6, h⟩ := bind_ok h
            obtain ⟨p7, h7, h⟩ := bind_ok h
            injection h with h; injection h with e1 e2; subst e1 e2
            rw [parseSort_reb h4]; simp only [Res.ok_bind]
            rw [rpar_reb h5]; simp only [Res.ok_bind]
            obtain ⟨b1, i1⟩ := expr_reb hpr h6 (((parseSort_quiet h4).trans (rpar_quiet h5)).depth.trans d3) b
            rw [i1]; simp only [Res.ok_bind]
            rw [rpar_reb h7]; exact ⟨b1, rfl⟩
          · cases h
        · rename_i hc
          rw [if_neg hc]
          split at h
          · rename_i hc
            rw [if_pos hc]
            obtain ⟨⟨s, p3⟩, h3, h⟩ := bind_ok h
            obtain ⟨⟨s, p4⟩, h4, h⟩ := bind_ok h
            obtain ⟨p5, h5, h⟩ := bind_ok h
            obtain ⟨i, h6, h⟩ := bind_ok h
            injection h with h; injection h with e1 e2; subst e1 e2
            obtain ⟨b1, i1⟩ := expr_reb hpr h3 d2 b
            rw [show ({ p2.reb b with ph := true } : P) = ({ p2 with ph := true } : P).reb b from rfl, i1]; simp only [Res.ok_bind]
            rw [sym_reb h4]; simp only [Res.ok_bind]
            rw [rpar_reb h5]; simp only [Res.ok_bind]
            rw [h6]; exact ⟨b1, rfl⟩
          · rename_i hc
            rw [if_neg hc]
            split at h
            · rename_i hc
              rw [if_pos hc]
              obtain ⟨⟨s, p3⟩, h3, h⟩ := bind_ok h
              injection h with h; injection h with e1 e2; subst e1 e2
              obtain ⟨b1, i1⟩ := rootInt_reb hpr h3 d2 b
              rw [i1]; exact ⟨b1, rfl⟩
            · cases h
    · rename_i hc
      rw [if_neg hc]
      obtain ⟨⟨s, p1⟩, h1, h⟩ := bind_ok h
      rw [sym_reb h1]; simp only [Res.ok_bind] at h ⊢
      have d1 := (sym_quiet h1).depth.trans hd
      split at h
      · rename_i hc
        rw [if_pos hc]
        obtain ⟨⟨s, p3⟩, h3, h⟩ := bind_ok h
        obtain ⟨⟨s, p4⟩, h4, h⟩ := bind_ok h
        obtain ⟨p5, h5, h⟩ := bind_ok h
        injection h with h; injection h with e1 e2; subst e1 e2
        rw [quantHead_reb h3]; simp only [Res.ok_bind]
        obtain ⟨b1, i1⟩ := expr_reb hpr h4 ((quantHead_keeps h3).depth.trans d1) b
        rw [i1]; simp only [Res.ok_bind]
        rw [rpar_reb h5]; exact ⟨b1, rfl⟩
      · rename_i hc
        rw [if_neg hc]
        split at h
        · rename_i hc
          rw [if_pos hc]
          obtain ⟨⟨s, p3⟩, h3, h⟩ := bind_ok h
          rw [sym_reb h3]; simp only [Res.ok_bind] at h ⊢
          have d3 := (sym_quiet h3).depth.trans d1
          split at h
          · rename_i hc
            rw [if_pos hc]
            obtain ⟨⟨s, p4⟩, h4, h⟩ := bind_ok h
            obtain ⟨w, h5, h⟩ := bind_ok h
            obtain ⟨p5, h6, h⟩ := bind_ok h
            injection h with h; injection h with e1 e2; subst e1 e2
            rw [sym_reb h4]; simp only [Res.ok_bind]
            rw [h5]; simp only [Res.ok_bind]
            rw [rpar_reb h6]; exact ⟨b, rfl⟩
          · rename_i hc
            rw [if_neg hc]
            split at h
            · rename_i hc
              rw [if_pos hc]
              obtain ⟨⟨s, p4⟩, h4, h⟩ := bind_ok h
              obtain ⟨⟨s, p5⟩, h5, h⟩ := bind_ok h
              obtain ⟨w, h6, h⟩ := bind_ok h
              obtain ⟨w', h7, h⟩ := bind_ok h
              obtain ⟨p6, h8, h⟩ := bind_ok h
              injection h with h; injection h with e1 e2; subst e1 e2
              rw [sym_reb h4]; simp only [Res.ok_bind]
              rw [sym_reb h5]; simp only [Res.ok_bind]
              rw [h6]; simp only [Res.ok_bind]
              rw [h7]; simp only [Res.ok_bind]
              rw [rpar_reb h8]; exact ⟨b, rfl⟩
            · rename_i hc
              rw [if_neg hc]
              split at h
              · rename_i hc
                rw [if_pos hc]
                obtain ⟨⟨s, p4⟩, h4, h⟩ := bind_ok h
                obtain ⟨p6, h8, h⟩ := bind_ok h
                injection h with h; injection h with e1 e2; subst e1 e2
                rw [sym_reb h4]; simp only [Res.ok_bind]
                rw [rpar_reb h8]; exact ⟨b, rfl⟩
              · rename_i hc
                rw [if_neg hc]
                split at h
                · rename_i hc
                  rw [if_pos hc]
                  obtain ⟨⟨s, p4⟩, h4, h⟩ := bind_ok h
                  obtain ⟨p6, h8, h⟩ := bind_ok h
                  injection h with h; injection h with e1 e2; subst e1 e2
                  obtain ⟨b1, i1⟩ := algebraic_reb hpr h4 d3 b
                  rw [show skip ({ p3.reb b with ph := true } : P) = (skip ({ p3 with ph := true } : P)).reb b from rfl, i1]
                  simp only [Res.ok_bind]
                  rw [show ({ p4.reb b1 with ph := (p3.reb b).ph } : P) = ({ p4 with ph := p3.ph } : P).reb b1 from rfl, rpar_reb h8]
                  exact ⟨b1, rfl⟩
                · rename_i hc
                  rw [if_neg hc]
                  injection h with h; injection h with e1 e2; subst e1 e2; exact ⟨b, rfl⟩
        · rename_i hc
          rw [if_neg hc]
          split at h
          · rename_i hc
            rw [if_pos hc]
            obtain ⟨⟨s, p3⟩, h3, h⟩ := bind_ok h
            obtain ⟨⟨s, p4⟩, h4, h⟩ := bind_ok h
            obtain ⟨⟨s, p5⟩, h5, h⟩ := bind_ok h
            obtain ⟨p6, h6, h⟩ := bind_ok h
            injection h with h; injection h with e1 e2; subst e1 e2
            have d3 := (expr_keeps h3).depth.trans d1
            have d4 := (expr_keeps h4).depth.trans d3
            obtain ⟨b1, i1⟩ := expr_reb hpr h3 d1 b
            rw [i1]; simp only [Res.ok_bind]
            obtain ⟨b2, i2⟩ := expr_reb hpr h4 d3 b1
            rw [i2]; simp only [Res.ok_bind]
            obtain ⟨b3, i3⟩ := expr_reb hpr h5 d4 b2
            rw [i3]; simp only [Res.ok_bind]
            rw [rpar_reb h6]; exact ⟨b3, rfl⟩
          · rename_i hc
            rw [if_neg hc]
            split at h
            · rename_i hc
              rw [if_pos hc]
              rw [if_pos ⟨hpr, d1⟩] at h
              rw [show (p1.reb b).depth = p1.depth from rfl, if_pos ⟨hpr, d1⟩]
              refine ⟨q.bound, ?_⟩
              exact h
            · rename_i hc
              rw [if_neg hc]
              split at h
              · rename_i hc
                rw [if_pos hc]
                obtain ⟨⟨s, p3⟩, h3, h⟩ := bind_ok h
                obtain ⟨⟨s, p4⟩, h4, h⟩ := bind_ok h
                obtain ⟨b1, i1⟩ := expr_reb hpr h3 d1 b
                rw [i1]; simp only [Res.ok_bind] at h ⊢
                rw [keyword_reb h4]; simp only [Res.ok_bind] at h ⊢
                split at h
                · rename_i hc
                  rw [if_pos hc]
                  obtain ⟨⟨s, p5⟩, h5, h⟩ := bind_ok h
                  obtain ⟨p6, h6, h⟩ := bind_ok h
                  injection h with h; injection h with e1 e2; subst e1 e2
                  rw [sym_reb h5]; simp only [Res.ok_bind]
                  rw [rpar_reb h6]; exact ⟨b1, rfl⟩
                · rename_i hc
                  rw [if_neg hc]
                  obtain ⟨p6, h6, h⟩ := bind_ok h
                  injection h with h; injection h with e1 e2; subst e1 e2
                  rw [rpar_reb h6]; exact ⟨b1, rfl⟩
              · rename_i hc
                rw [if_neg hc]
                split at h
                · rename_i hc
                  rw [if_pos hc]
                  obtain ⟨⟨s, p3⟩, h3, h⟩ := bind_ok h
                  injection h with h; injection h with e1 e2; subst e1 e2
                  obtain ⟨b1, i1⟩ := rootInt_reb hpr h3 d1 b
                  rw [i1]; exact ⟨b1, rfl⟩
                · rename_i hc
                  rw [if_neg hc]
                  injection h with h; injection h with e1 e2; subst e1 e2; exact ⟨b, rfl⟩
theorem rootInt_reb {cfg : Cfg} (hpr : cfg.pres = true) : ∀ {n : Nat} {p q : P} {ts : List (T Srt)}, rootInt cfg n p = .ok (ts, q) → p.depth = 0 →
    ∀ b, ∃ b', rootInt cfg n (p.reb b) = .ok (ts, q.reb b')
  | 0, _, _, _, h, _, _ => by cases h
  | n + 1, p, q, ts, h, hd, b => by
    rw [rootInt] at h ⊢
    obtain ⟨p1, h1, h⟩ := bind_ok h
    obtain ⟨⟨s, p2⟩, h2, h⟩ := bind_ok h
    obtain ⟨⟨s, p3⟩, h3, h⟩ := bind_ok h
    obtain ⟨p4, h4, h⟩ := bind_ok h
    obtain ⟨⟨s, p5⟩, h5, h⟩ := bind_ok h
    obtain ⟨⟨s, p6⟩, h6, h⟩ := bind_ok h
    obtain ⟨p7, h7, h⟩ := bind_ok h
    injection h with h; injection h with e1 e2; subst e1 e2
    rw [lpar_reb h1]; simp only [Res.ok_bind]
    rw [sym_reb h2]; simp only [Res.ok_bind]
    have d2 := ((lpar_quiet h1).trans (sym_quiet h2)).depth.trans hd
    obtain ⟨b1, i1⟩ := coeffs_reb hpr h3 d2 b
    rw [show skip (p2.reb b) = (skip p2).reb b from rfl, i1]; simp only [Res.ok_bind]
    rw [rpar_reb h4]; simp only [Res.ok_bind]
    have d4 := (rpar_quiet h4).depth.trans ((coeffs_keeps h3).depth.trans d2)
    obtain ⟨b2, i2⟩ := expr_reb hpr h5 d4 b1
    rw [i2]; simp only [Res.ok_bind]
    obtain ⟨b3, i3⟩ := expr_reb hpr h6 ((expr_keeps h5).depth.trans d4) b2
    rw [i3]; simp only [Res.ok_bind]
    rw [rpar_reb h7]; exact ⟨b3, rfl⟩
theorem coeffs_reb {cfg : Cfg} (hpr : cfg.pres = true) : ∀ {n : Nat} {acc : List (T Srt)} {p q : P} {ts : List (T Srt)},
    coeffs cfg n acc p = .ok (ts, q) → p.depth = 0 → ∀ b, ∃ b', coeffs cfg n acc (p.reb b) = .ok (ts, q.reb b')
  | 0, _, _, _, _, h, _, _ => by cases h
  | n + 1, acc, p, q, ts, h, hd, b => by
    rw [coeffs] at h ⊢
    rw [show (p.reb b).cur = p.cur from rfl]
    split at h
    · rename_i hc
      rw [if_pos hc]
      injection h with h; injection h with e1 e2; subst e1 e2; exact ⟨b, rfl⟩
    · rename_i hc
      rw [if_neg hc]
      obtain ⟨⟨s, p1⟩, h1, h⟩ := bind_ok h
      obtain ⟨b1, i1⟩ := expr_reb hpr h1 hd b
      rw [i1]; simp only [Res.ok_bind]
      exact coeffs_reb hpr h ((expr_keeps h1).depth.trans hd) b1
theorem algebraic_reb {cfg : Cfg} (hpr : cfg.pres = true) : ∀ {n : Nat} {p q : P} {ts : List (T Srt)}, algebraic cfg n p = .ok (ts, q) →
    p.depth = 0 → ∀ b, ∃ b', algebraic cfg n (p.reb b) = .ok (ts, q.reb b')
  | 0, _, _, _, h, _, _ => by cases h
  | n + 1, p, q, ts, h, hd, b => by
    have comma : ∀ (x : P) (c : Char) (b : List (List Char)), (if (x.reb b).cur = some c then skip (advance (x.reb b)) else x.reb b) =
        (if x.cur = some c then skip (advance x) else x).reb b := fun x c b => by
      rw [show (x.reb b).cur = x.cur from rfl]; split <;> rfl
    have commad : ∀ (x : P) (c : Char), (if x.cur = some c then skip (advance x) else x).depth = x.depth := fun x c => by split <;> rfl
    have last : ∀ (x : P) (c : Char) (b : List (List Char)), (if (x.reb b).cur = some c then advance (x.reb b) else x.reb b) =
        (if x.cur = some c then advance x else x).reb b := fun x c b => by
      rw [show (x.reb b).cur = x.cur from rfl]; split <;> rfl
    have sk : ∀ (x : P) (b : List (List Char)), skip (x.reb b) = (skip x).reb b := fun _ _ => rfl
    rw [algebraic] at h ⊢
    rw [show (p.reb b).cur = p.cur from rfl]
    split at h
    · rename_i hc
      rw [if_pos hc]
      obtain ⟨⟨s, p1⟩, h1, h⟩ := bind_ok h
      obtain ⟨b1, i1⟩ := expr_reb hpr h1 hd b
      rw [show skip (advance (p.reb b)) = (skip (advance p)).reb b from rfl, i1]; simp only [Res.ok_bind, sk, comma] at h ⊢
      have d1 : (if (skip p1).cur = some ',' then skip (advance (skip p1)) else skip p1).depth = 0 := by
        rw [commad]; exact (expr_keeps h1).depth.trans hd
      generalize (if (skip p1).cur = some ',' then skip (advance (skip p1)) else skip p1) = p2 at h d1
      rw [show (p2.reb b1).cur = p2.cur from rfl]
      split at h
      · rename_i hc
        rw [if_pos hc]
        obtain ⟨p3, h2, h⟩ := bind_ok h
        obtain ⟨⟨s, p4⟩, h3, h⟩ := bind_ok h
        obtain ⟨⟨s, p5⟩, h4, h⟩ := bind_ok h
        obtain ⟨p6, h5, h⟩ := bind_ok h
        injection h with h; injection h with e1 e2; subst e1 e2
        rw [lpar_reb h2]; simp only [Res.ok_bind]
        have d3 := (lpar_quiet h2).depth.trans d1
        obtain ⟨b2, i2⟩ := expr_reb hpr h3 d3 b1
        rw [i2]; simp only [Res.ok_bind, sk, comma]
        obtain ⟨b3, i3⟩ := expr_reb hpr h4 (by rw [commad]; exact (expr_keeps h3).depth.trans d3) b2
        rw [i3]; simp only [Res.ok_bind]
        rw [rpar_reb h5]; simp only [Res.ok_bind, sk, last]; exact ⟨b3, rfl⟩
      · rename_i hc
        rw [if_neg hc]
        obtain ⟨⟨s, p4⟩, h3, h⟩ := bind_ok h
        obtain ⟨⟨s, p5⟩, h4, h⟩ := bind_ok h
        injection h with h; injection h with e1 e2; subst e1 e2
        obtain ⟨b2, i2⟩ := expr_reb hpr h3 d1 b1
        rw [i2]; simp only [Res.ok_bind]
        obtain ⟨b3, i3⟩ := expr_reb hpr h4 ((expr_keeps h3).depth.trans d1) b2
        rw [i3]; simp only [Res.ok_bind, sk, last]; exact ⟨b3, rfl⟩
    · rename_i hc
      rw [if_neg hc]
      obtain ⟨⟨s, p2⟩, h2, h⟩ := bind_ok h
      obtain ⟨⟨s, p3⟩, h3, h⟩ := bind_ok h
      obtain ⟨⟨s, p4⟩, h4, h⟩ := bind_ok h
      injection h with h; injection h with e1 e2; subst e1 e2
      have d2 := (expr_keeps h2).depth.trans hd
      obtain ⟨b1, i1⟩ := expr_reb hpr h2 hd b
      rw [i1]; simp only [Res.ok_bind]
      obtain ⟨b2, i2⟩ := expr_reb hpr h3 d2 b1
      rw [i2]; simp only [Res.ok_bind]
      obtain ⟨b3, i3⟩ := expr_reb hpr h4 ((expr_keeps h3).depth.trans d2) b2
      rw [i3]; exact ⟨b3, rfl⟩
end

/-- **C52, scopes are closed.**  For every text: if reading an expression succeeds, the let depth is what it was before; and, when lets are
expanded, so is the table of let names. -/
theorem scopes_closed {cfg : Cfg} {n : Nat} {p q : P} {t : T Srt} (h : expr cfg n p = .ok (t, q)) :
    q.depth = p.depth ∧ (cfg.pres = false → q.bound = p.bound) := ⟨(expr_keeps h).depth, (expr_keeps h).bound⟩

/-- **C52, when lets are preserved, names of earlier expressions do not disturb**: outside of all lets an expression is read the same,
whatever names the table has. -/
theorem earlier_names_irrelevant {cfg : Cfg} (hpr : cfg.pres = true) {n : Nat} {p q : P} {t : T Srt} (h : expr cfg n p = .ok (t, q))
    (hd : p.depth = 0) (b : List (List Char)) : ∃ b', expr cfg n { p with bound := b } = .ok (t, { q with bound := b' }) := expr_reb hpr h hd b

end SMT.Parse
