import Verif.Script.Viol

/-! # C56: scripts that are rejected -/

namespace SMT.Script
open SMT SMT.Text SMT.Lex SMT.Sorts SMT.Parse

set_option linter.unusedSimpArgs false
set_option linter.unusedVariables false

/-- the commands there are -/
def commandNames : List (List Char) := [
  cs!"assert", cs!"assert-soft", cs!"check-sat", cs!"check-sat-assuming", cs!"declare-const", cs!"declare-fun", cs!"declare-sort",
  cs!"define-const", cs!"define-fun", cs!"define-fun-rec", cs!"define-funs-rec", cs!"define-sort", cs!"exit", cs!"get-model", cs!"set-logic",
  cs!"exists", cs!"forall", cs!"get-objectives", cs!"maximize", cs!"minimize", cs!"define-objective", cs!"lex-optimize", cs!"pareto-optimize",
  cs!"box-optimize", cs!"minmax", cs!"maxmin", cs!"maxsat", cs!"minsat", cs!"optimize", cs!"echo", cs!"get-assertions", cs!"get-assignment",
  cs!"get-info", cs!"get-option", cs!"get-proof", cs!"get-unsat-assumptions", cs!"get-unsat-core", cs!"get-value", cs!"pop", cs!"push",
  cs!"reset", cs!"reset-assertions", cs!"set-info", cs!"set-option"]

/-- the logics that are accepted: `knownLogics` and these -/
def moreLogics : List (List Char) := [
  cs!"QF_ABVFPLRA", cs!"QF_AUFBVFP", cs!"QF_BVFPLRA", cs!"QF_SNIA", cs!"QF_UFBVDT", cs!"QF_UFDT", cs!"QF_UFDTLIA", cs!"QF_UFDTLIRA",
  cs!"QF_UFDTNIA", cs!"QF_UFFP", cs!"QF_UFFPDTNIRA"]

/-- a command that is wrong after the commands `cs` -/
inductive Bad (cs : List Cmd) : Sexp → Prop where
  /-- a logic that is not known, with anything behind it -/
  | logic {l xs} : l ∉ knownLogics → l ∉ moreLogics → Bad cs (.list (.atom cs!"set-logic" :: .atom l :: xs))
  /-- the second definition of a function that is defined, with anything behind its name -/
  | again {h n xs ps d e} : h ∈ [cs!"define-const", cs!"define-fun", cs!"define-fun-rec"] → (functions cs).lookup n = some (.defn ps d e) →
      Bad cs (.list (.atom h :: .atom n :: xs))
  /-- a command that is not known -/
  | unknown {h xs} : h ∉ commandNames → Bad cs (.list (.atom h :: xs))

/-- a script up to a wrong command, and anything behind it -/
inductive Broken (file : Bool) : (before : List Cmd) → (text : List Char) → Prop where
  | cmd {cs c g x tx r} : Skip g → Lay file x tx → Writes cs x c → Broken file (cs ++ [c]) r → Broken file cs (g ++ (tx ++ r))
  | bad {cs g x tx r} : Skip g → Lay file x tx → Bad cs x → Broken file cs (g ++ (tx ++ r))

theorem logics_all : ∀ l ∈ logics, l ∈ knownLogics ∨ l ∈ moreLogics := by decide +kernel

theorem funs_some {cs : List Cmd} {s : S} (h : Represents cs s) {n : List Char} {ps : List (List Char × D)} {d : D} {e : T D}
    (hn : (functions cs).lookup n = some (.defn ps d e)) : ∃ ps' d' e', s.funs.lookup n = some (.defn ps' d' e') := by
  have gen : ∀ {α β γ : Type} (f : α → γ) (g : β → γ) (as : List (List Char × α)) (bs : List (List Char × β)),
      as.map (fun x => (x.1, f x.2)) = bs.map (fun x => (x.1, g x.2)) → ∀ y, bs.lookup n = some y → ∃ x, as.lookup n = some x ∧ f x = g y := by
    intro α β γ f g as
    induction as with
    | nil => intro bs hb y hy; cases bs with
      | nil => simp at hy
      | cons b bs => simp at hb
    | cons a as ih => intro bs hb y hy; cases bs with
      | nil => simp at hb
      | cons b bs =>
        obtain ⟨a1, a2⟩ := a
        obtain ⟨b1, b2⟩ := b
        simp only [List.map_cons, List.cons.injEq, Prod.mk.injEq] at hb
        obtain ⟨⟨rfl, h2⟩, h3⟩ := hb
        rw [List.lookup_cons] at hy ⊢
        split at hy
        · cases hy; exact ⟨_, rfl, h2⟩
        · exact ih bs h3 y hy
  obtain ⟨x, h1, h2⟩ := gen (Fn.map sortOf) (Fn.map some) s.funs (functions cs) h.funs _ hn
  cases x with
  | defn ps' d' e' => exact ⟨_, _, _, h1⟩
  | dec _ _ => simp [Fn.map] at h2
  | recu _ _ _ => simp [Fn.map] at h2

theorem dispatch_unknown (cfg : Cfg) (m : Nat) {h : List Char} (hh : h ∉ commandNames) (s : S) : dispatch cfg m h s = .abort := by
  simp only [commandNames, List.mem_cons, List.not_mem_nil, or_false, not_or] at hh
  simp [dispatch, skipped, hh]

/-- C56: a wrong command ends the process -/
theorem bad_aborts {cfg : Cfg} {cs : List Cmd} {x : Sexp} {tx r : List Char} {l : Nat} {s : S} (hl : Lay cfg.file x tx) (hs : State cfg cs s)
    (hb : Bad cs x) (m : Nat) : loop cfg (m + 1) { s with p := s.p.at l (tx ++ r) } = .abort := by
  cases hb with
  | @logic w xs h1 h2 =>
    obtain ⟨b, g, k1, k2, k3, k4⟩ := open_at hl s.p l r
    obtain ⟨b', l', e1, e2, e3, _, _⟩ := word_at k1 s.p (l + nls g) r
    obtain ⟨b2, l2, f1, f2, f3, _, _⟩ := word_at e1 s.p l' r
    rw [loop, if_neg (by rw [k2]; simp)]
    have : dispatch cfg m cs!"set-logic" { s with p := s.p.at l' (b' ++ ')' :: r) } =
      (do let s ← cmdLogic cfg { s with p := s.p.at l' (b' ++ ')' :: r) }; return (false, s)) := rfl
    have hn : w ∉ logics := fun hc => (logics_all w hc).elim h1 h2
    simp only [k3, Res.ok_bind, command, e2, this, cmdLogic, f2, if_neg hn]
    rfl
  | @again h n xs ps d e hh hd =>
    obtain ⟨b, g, k1, k2, k3, k4⟩ := open_at hl s.p l r
    obtain ⟨b', l', e1, e2, e3, _, _⟩ := word_at k1 s.p (l + nls g) r
    obtain ⟨b2, l2, f1, f2, f3, _, _⟩ := word_at e1 s.p l' r
    obtain ⟨ps', d', e', hf⟩ := funs_some hs.rep hd
    have hk : known { s with p := s.p.at l' (b' ++ ')' :: r) } n = .abort := by
      unfold known
      rw [show ({ s with p := s.p.at l' (b' ++ ')' :: r) } : S).funs = s.funs from rfl, hf]
    rw [loop, if_neg (by rw [k2]; simp)]
    simp only [k3, Res.ok_bind, command, e2]
    simp only [List.mem_cons, List.not_mem_nil, or_false] at hh
    rcases hh with rfl | rfl | rfl
    · have : dispatch cfg m cs!"define-const" { s with p := s.p.at l' (b' ++ ')' :: r) } =
        (do let s ← cmdDefConst cfg m { s with p := s.p.at l' (b' ++ ')' :: r) }; return (false, s)) := rfl
      simp only [this, cmdDefConst, f2, Res.ok_bind, hk]
      rfl
    · have : dispatch cfg m cs!"define-fun" { s with p := s.p.at l' (b' ++ ')' :: r) } =
        (do let s ← cmdDefFun cfg m { s with p := s.p.at l' (b' ++ ')' :: r) }; return (false, s)) := rfl
      simp only [this, cmdDefFun, f2, Res.ok_bind, hk]
      rfl
    · have : dispatch cfg m cs!"define-fun-rec" { s with p := s.p.at l' (b' ++ ')' :: r) } =
        (do let s ← cmdDefRec cfg m { s with p := s.p.at l' (b' ++ ')' :: r) }; return (false, s)) := rfl
      simp only [this, cmdDefRec, f2, Res.ok_bind, hk]
      rfl
  | @unknown h xs hh =>
    obtain ⟨b, g, k1, k2, k3, k4⟩ := open_at hl s.p l r
    obtain ⟨b', l', e1, e2, e3, _, _⟩ := word_at k1 s.p (l + nls g) r
    rw [loop, if_neg (by rw [k2]; simp)]
    simp only [k3, Res.ok_bind, command, e2, dispatch_unknown cfg m hh]
    rfl

theorem broken_from {cfg : Cfg} {cs : List Cmd} {text : List Char} (h : Broken cfg.file cs text) : ∀ {s : S}, State cfg cs s →
    ∀ l : Nat, ∃ k : Nat, ∀ m, k ≤ m → loop cfg m { s with p := s.p.at l text } = .abort := by
  induction h with
  | cmd hg hl hw _ ih =>
    intro s hs l
    rename_i cs c g x tx r _
    obtain ⟨s1, k1, h1, h2⟩ := does hw tx r (l + nls g) s hl hs
    obtain ⟨k2, h4⟩ := ih h1 (l + nls g + nls tx)
    refine ⟨k1 + k2 + 1, fun m hm => ?_⟩
    obtain ⟨m, rfl⟩ : ∃ n, m = n + 1 := ⟨m - 1, by omega⟩
    rw [at_gap _ _ _ hg, h2 m (by omega), h4 m (by omega)]
  | bad hg hl hb =>
    intro s hs l
    refine ⟨1, fun m hm => ?_⟩
    obtain ⟨m, rfl⟩ : ∃ n, m = n + 1 := ⟨m - 1, by omega⟩
    rw [at_gap _ _ _ hg]
    exact bad_aborts hl hs hb m

/-- **C56, wrong commands are rejected**: a script whose commands are right up to one with an unknown name, an unknown logic or a second
definition of a defined function ends the process, whatever stands behind it, in a file or a text. -/
theorem broken_rejected_partial (pres : Bool) {text : List Char} :
    (Broken true [] text → ∃ k : Nat, ∀ m, k ≤ m → parseFile pres m fresh text = .abort) ∧
    (text ≠ [] → Broken false [] text → ∃ k : Nat, ∀ m, k ≤ m → parseStr ⟨false, pres⟩ m fresh text = .abort) := by
  constructor
  · intro h
    exact broken_from (cfg := ⟨true, pres⟩) h (fresh_state _) (if text = [] then fresh.p.lex.line else 1)
  · intro hne h
    obtain ⟨k, h2⟩ := broken_from (cfg := ⟨false, pres⟩) h (fresh_state _) 1
    exact ⟨k, fun m hm => by rw [parseStr, if_neg hne]; exact h2 m hm⟩

theorem broken_lines {file : Bool} {cs ds : List Cmd} {xs : List Sexp} (h : WritesL cs xs ds) : ∀ {y : Sexp}, plains y = true → Bad (cs ++ ds) y →
    ∀ r : List Char, Broken file cs (lines xs ++ '\n' :: (flat y ++ r)) := by
  induction h with
  | nil =>
    intro y hy hb r
    rw [List.append_nil] at hb
    exact .bad (g := ['\n']) (.ws (.inr rfl) .nil) (lay_flat file (plains_toks hy)) hb
  | cons hp hw _ ih =>
    intro y hy hb r
    have := ih hy (by rw [List.append_assoc]; exact hb) r
    have := Broken.cmd (g := ['\n']) (.ws (.inr rfl) .nil) (lay_flat file (plains_toks hp)) hw this
    simpa [lines, List.append_assoc] using this

/-- the script of `Verif.Script.Viol`, and then its function `g` is defined again, with anything behind it -/
example (r : List Char) : ∃ k : Nat, ∀ m, k ≤ m →
    parseStr ⟨false, true⟩ m fresh (lines exScript ++ '\n' :: (flat (.list [w cs!"define-fun", w cs!"g"]) ++ r)) = .abort := by
  refine (broken_rejected_partial true).2 (by simp) (broken_lines ex_writes (by decide) ?_ r)
  exact .again (by simp) (by rfl)

end SMT.Script
