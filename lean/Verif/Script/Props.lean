import Verif.Script.Objs

/-!
# Scripts are recorded (C56, C57)

`Script file before text cs` (`Verif.Script.Spec`) says that the text is a script with the commands `cs`, in any layout and with any
comments.  The theorems say that the parser accepts it and has recorded exactly these commands, in their order, and that a script may
be given in pieces.
-/

namespace SMT.Script
open SMT SMT.Text SMT.Lex SMT.Sorts SMT.Parse

set_option linter.unusedSimpArgs false
set_option linter.unusedVariables false

/-- every command is read and recorded -/
theorem does {cfg : Cfg} {cs : List Cmd} {x : Sexp} {c : Cmd} (h : Writes cs x c) : Does cfg cs c x := by
  cases h with
  | assert h1 h2 h3 => exact does_tail (tail_assert h1 h2 h3)
  | soft h1 h2 h3 h4 h5 => exact does_tail (tail_soft h1 h2 h3 h4 h5)
  | const h1 h2 => exact does_tail (tail_const h1 h2)
  | fun0 h1 h2 => exact does_tail (tail_fun0 h1 h2)
  | func h1 h2 h3 h4 => exact does_tail (tail_fun h1 h2 h3 h4)
  | sort h1 h2 => exact does_tail (tail_sort h1 h2)
  | defSort h1 h2 h3 => exact does_tail (tail_defSort h1 h2 h3)
  | defConst h1 h2 h3 => exact does_tail (tail_defConst h1 h2 h3)
  | defFun h1 h2 h3 h4 h5 => exact does_tail (tail_defFun h1 h2 h3 h4 h5)
  | defRec h1 h2 h3 h4 h5 => exact does_tail (tail_defRec h1 h2 h3 h4 h5)
  | defRecs h1 h2 h3 => exact does_tail (tail_defRecs h1 h2 h3)
  | logic h => exact does_tail (tail_logic cfg cs h)
  | checkSat => exact does_tail (tail_checkSat cfg cs [])
  | getModel => exact does_tail (tail_getModel cfg cs [])
  | getObjectives => exact does_tail (tail_getObjectives cfg cs [])
  | nothing h => exact does_tail (tail_nothing cfg cs _ h)
  | goal h => exact does_goal h
  | define h1 h2 => exact does_tail (tail_define h1 h2)
  | multi h1 h2 => exact does_tail (tail_multi h1 h2)

theorem scan_end {g : List Char} (h : Gap g []) (l : Nat) : (scan l g).rest = [] := by
  rcases h with h | ⟨_, p, b, rfl, h1, h2⟩
  · have := scan_skip h l []
    rw [List.append_nil] at this
    rw [this]; rfl
  · rw [scan_skip h1]
    rcases scan_comment (l + nls p) b with ⟨b', c, t, rfl, _, h4, _⟩ | ⟨_, h4⟩
    · have := h2 c (by simp)
      rw [this] at h4
      cases h4
    · have : scan (l + nls p) (';' :: b) = scanGo .comment (l + nls p) b := by simp [scan, scanGo, isBlank, isNl]
      rw [this, h4]

/-- C56: the text of a script is read from a state that has recorded the commands before it -/
theorem script_recorded {cfg : Cfg} {cs ds : List Cmd} {text : List Char} (h : Script cfg.file cs text ds) : ∀ {s : S}, State cfg cs s →
    ∀ l : Nat, ∃ (s' : S) (k : Nat), State cfg (cs ++ ds) s' ∧ ∀ m, k ≤ m → loop cfg m { s with p := s.p.at l text } = .ok s' := by
  induction h with
  | done hg =>
    intro s hs l
    rename_i cs g
    refine ⟨{ s with p := s.p.at l g }, 1, ?_, fun m hm => ?_⟩
    · rw [List.append_nil]
      exact ⟨hs.rep.setP _, ⟨hs.clean.good, hs.clean.keys, hs.clean.depth, hs.clean.ph, hs.clean.bound⟩⟩
    · obtain ⟨m, rfl⟩ : ∃ n, m = n + 1 := ⟨m - 1, by omega⟩
      rw [loop, if_pos]
      unfold P.cur P.at
      simp only
      rw [scan_end hg l]
      rfl
  | cmd hg hl hw _ ih =>
    intro s hs l
    rename_i cs c g x tx r ds _
    obtain ⟨s1, k1, h1, h2⟩ := does hw tx r (l + nls g) s hl hs
    obtain ⟨s2, k2, h3, h4⟩ := ih h1 (l + nls g + nls tx)
    refine ⟨s2, k1 + k2 + 1, by rw [List.append_assoc] at h3; exact h3, fun m hm => ?_⟩
    obtain ⟨m, rfl⟩ : ∃ n, m = n + 1 := ⟨m - 1, by omega⟩
    rw [at_gap _ _ _ hg, h2 m (by omega), h4 m (by omega)]
  | exit hg hl =>
    intro s hs l
    rename_i cs g tx r
    obtain ⟨b, g', h1, h2, h3, h4⟩ := open_at hl s.p (l + nls g) r
    obtain ⟨b', l', e1, e2, e3, _, _⟩ := word_at h1 s.p (l + nls g + nls g') r
    refine ⟨{ s with p := skipTo (s.p.at l' (b' ++ ')' :: r)) }, 1, ?_, fun m hm => ?_⟩
    · rw [List.append_nil]
      exact ⟨hs.rep.setP _, ⟨hs.clean.good, hs.clean.keys, hs.clean.depth, hs.clean.ph, hs.clean.bound⟩⟩
    · obtain ⟨m, rfl⟩ : ∃ n, m = n + 1 := ⟨m - 1, by omega⟩
      rw [at_gap _ _ _ hg, loop, if_neg (by rw [h2]; simp)]
      simp only [h3, Res.ok_bind, command, e2]
      have : dispatch cfg m cs!"exit" { s with p := s.p.at l' (b' ++ ')' :: r) } =
        .ok (true, { s with p := skipTo (s.p.at l' (b' ++ ')' :: r)) }) := rfl
      rw [this]
      rfl

/-- a parser that was just made -/
def fresh : S := { p := ⟨⟨[], .common, 0⟩, [], [], 0, false⟩ }

theorem fresh_state (cfg : Cfg) : State cfg [] fresh where
  rep := {
    asserts := rfl
    groups := by intro g i; simp [fresh, assertions]
    named := rfl
    assumptions := rfl
    soft := rfl
    weights := rfl
    softGroups := by intro g i; simp [fresh, softs]
    vars := rfl
    funs := rfl
    fnames := rfl
    objs := .nil
    objNames := rfl
    objMap := by intro n g h; simp [defined] at h
    checkSat := rfl
    getModel := rfl
    getObjectives := rfl
    logic := rfl }
  clean := {
    good := goodDecl (by simp [sorts, declNames]) (by simp [sorts])
    keys := ⟨by simp [sorts], by intro k s h; simp [fresh] at h⟩
    depth := rfl
    ph := rfl
    bound := fun _ => rfl }

/-- what is left of the text and the line do not matter for what was recorded -/
theorem State.lex {cfg : Cfg} {cs : List Cmd} {s : S} (h : State cfg cs s) (x : St) : State cfg cs { s with p := { s.p with lex := x } } :=
  ⟨h.rep.setP _, ⟨h.clean.good, h.clean.keys, h.clean.depth, h.clean.ph, h.clean.bound⟩⟩

/-- **C56, a file with a script is accepted and recorded**: a new parser that reads it has recorded its commands. -/
theorem file_recorded_partial (pres : Bool) {text : List Char} {cs : List Cmd} (h : Script true [] text cs) :
    ∃ (s : S) (k : Nat), Represents cs s ∧ ∀ m, k ≤ m → parseFile pres m fresh text = .ok s := by
  obtain ⟨s, k, h1, h2⟩ := script_recorded (cfg := ⟨true, pres⟩) h (fresh_state _) (if text = [] then fresh.p.lex.line else 1)
  exact ⟨s, k, h1.rep, h2⟩

/-- **C56, the same for a text.** -/
theorem str_recorded_partial (pres : Bool) {text : List Char} {cs : List Cmd} (hne : text ≠ []) (h : Script false [] text cs) :
    ∃ (s : S) (k : Nat), Represents cs s ∧ ∀ m, k ≤ m → parseStr ⟨false, pres⟩ m fresh text = .ok s := by
  obtain ⟨s, k, h1, h2⟩ := script_recorded (cfg := ⟨false, pres⟩) h (fresh_state _) 1
  exact ⟨s, k, h1.rep, fun m hm => by rw [parseStr, if_neg hne]; exact h2 m hm⟩

/-- texts given one after the other; each is a script after the commands of those before it -/
inductive Scripts (file : Bool) : List Cmd → List (List Char) → List Cmd → Prop where
  | nil {cs} : Scripts file cs [] []
  | cons {cs t ts ds es} : t ≠ [] → Script file cs t ds → Scripts file (cs ++ ds) ts es → Scripts file cs (t :: ts) (ds ++ es)

/-- `parseStr` for several texts -/
def parseAll (cfg : Cfg) (n : Nat) (s : S) : List (List Char) → Res S
  | [] => .ok s
  | t :: ts => do
    let s ← parseStr cfg n s t
    parseAll cfg n s ts

theorem pieces_from {cfg : Cfg} {cs ds : List Cmd} {ts : List (List Char)} (h : Scripts cfg.file cs ts ds) : ∀ {s : S}, State cfg cs s →
    ∃ (s' : S) (k : Nat), State cfg (cs ++ ds) s' ∧ ∀ m, k ≤ m → parseAll cfg m s ts = .ok s' := by
  induction h with
  | nil => exact fun {s} hs => ⟨s, 0, by rw [List.append_nil]; exact hs, fun _ _ => rfl⟩
  | cons hne h1 _ ih =>
    intro s hs
    obtain ⟨s1, k1, i1, i2⟩ := script_recorded h1 hs 1
    obtain ⟨s2, k2, j1, j2⟩ := ih i1
    refine ⟨s2, k1 + k2, by rw [← List.append_assoc]; exact j1, fun m hm => ?_⟩
    rw [parseAll, parseStr, if_neg hne, show ({ s with p := { s.p with lex := scan 1 _ } } : S) = { s with p := s.p.at 1 _ } from rfl,
      i2 m (by omega)]
    exact j2 m (by omega)

/-- **C56, a script may be given in pieces**: what is recorded is the same, however it is cut between commands. -/
theorem pieces_recorded_partial (pres : Bool) {ts : List (List Char)} {cs : List Cmd} (h : Scripts false [] ts cs) :
    ∃ (s : S) (k : Nat), Represents cs s ∧ ∀ m, k ≤ m → parseAll ⟨false, pres⟩ m fresh ts = .ok s := by
  obtain ⟨s, k, h1, h2⟩ := pieces_from (cfg := ⟨false, pres⟩) h (fresh_state _)
  exact ⟨s, k, h1.rep, h2⟩

/-- **C57, the objectives of a script are those that were written**, in their order, and a name stands for the objective that was
defined with it. -/
theorem objectives_recorded_partial (pres : Bool) {text : List Char} {cs : List Cmd} (hne : text ≠ []) (h : Script false [] text cs) :
    ∃ (s : S) (k : Nat), IsObjs (s.objs.map some) (goals cs) ∧ s.soft.map (T.map sortOf) = (softs cs).map (fun a => a.1.map some) ∧
      s.weights = (softs cs).map (fun a => a.2.1) ∧
      (∀ n g, (defined cs).lookup n = some g → ∃ o, s.objMap.lookup n = some (some o) ∧ IsObj o g) ∧
      ∀ m, k ≤ m → parseStr ⟨false, pres⟩ m fresh text = .ok s := by
  obtain ⟨s, k, h1, h2⟩ := str_recorded_partial pres hne h
  exact ⟨s, k, h1.objs, h1.soft, h1.weights, h1.objMap, h2⟩

end SMT.Script
