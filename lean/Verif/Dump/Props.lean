import Verif.Dump.Model
import Verif.Script.Reject
import Verif.Parse.RoundLet

/-!
# The written problem is read back as the same problem (C67)
-/

namespace SMT.Dump
open SMT SMT.Text SMT.Lex SMT.Kinds SMT.Sorts SMT.Print SMT.Parse SMT.Script

set_option linter.unusedSimpArgs false
set_option linter.unusedVariables false

/-! ## Specification -/

/-- the widths of a sort fit into an `int` -/
def Fits : D → Prop
  | .bv w => w < 2 ^ 31
  | .fp e s => e < 2 ^ 31 ∧ s < 2 ^ 31
  | .array i e => Fits i ∧ Fits e
  | _ => True

/-- the names of declared sorts -/
def sortNames (P : Prog) : List (List Char) := (P.sorts.filter fun x => x.2.kind = .DEC).map fun x => x.1

/-- the declared sorts -/
def declOf (P : Prog) : Decl := (sortNames P).map fun n => (n, .named n)

/-- the sort object stands for a sort that can be written -/
def SortOk (P : Prog) (s : Srt) : Prop := ∃ d, Denotes s d ∧ Over (declOf P) d ∧ Fits d

/-- the names and the sorts of variables -/
def sig (vs : List N) : List (List Char × Option D) := vs.map fun v => (v.name, sortOf v.sort)

/-- the names in scope in the body of a function -/
def scope (vs : List N) : Names := vs.reverse.map fun v => (v.name, .var (sortOf v.sort))

/-- the constructors, in each state of the parser: with the functions that are known, and the recursive function whose body is being read -/
abbrev Family := List (List Char) → Option (List Char) → Ctors

/-- How expressions are made while reading: with the lets expanded, or with the lets kept.  `Ok` is the class of expressions that are written and
read back, `read` carries out the calls of a tree; both change the state, which is `start` in a new parser. -/
structure Mode where
  State : Type
  start : State
  Ok : Ctors → Decl → Names → State → N → State → Prop
  read : Ctors → Names → State → T (Option D) → Res (N × State)
  back : ∀ {I : Ctors} {decl : Decl} {sc : Names} {st st' : State} {n : N}, Lawful I → Ok I decl sc st n st' →
    ∃ (x : Sexp) (t : T D), flat x = flat (sexpr n) ∧ Toks x ∧ Reads decl false x t ∧ t.names.Nodup ∧ read I sc st (t.map some) = .ok (n, st')

/-- an expression that can be written and read back: each node is what its constructor returns for its parts -/
structure ExprOk (M : Mode) (I : Ctors) (P : Prog) (sc : Names) (st : M.State) (n : N) (st' : M.State) : Prop where
  wf : WF n
  made : M.Ok I (declOf P) sc st n st'
  notKw : (flat (sexpr n)).head? ≠ some ':'

/-- a function, after the functions `before` -/
inductive FunOk (M : Mode) (J : Family) (P : Prog) (before : List (List Char)) : M.State → N → M.State → Prop where
  | dec {st name s c ps} : Tok name → name ∉ before → SortOk P s → (∀ p ∈ ps, SortOk P p.sort) → ps ≠ [] →
      FunOk M J P before st (.mk .FUNC_DEC name s (c :: ps)) st
  | defn {st st' name s b ps} : Tok name → name ∉ before → SortOk P s → (∀ p ∈ ps, Tok p.name ∧ SortOk P p.sort) →
      (ps.map N.name).Nodup → ExprOk M (J before none) P (scope ps) st b st' → FunOk M J P before st (.mk .FUNC_DEF name s (b :: ps)) st'
  | recu {st st' name s b ps} : Tok name → name ∉ before → SortOk P s → (∀ p ∈ ps, Tok p.name ∧ SortOk P p.sort) →
      (ps.map N.name).Nodup → ExprOk M (J before (some name)) P (scope ps) st b st' → FunOk M J P before st (.mk .FUNC_REC name s (b :: ps)) st'

/-- the functions, in their order: a body uses only the functions before it, and itself if it is recursive -/
inductive FunsOk (M : Mode) (J : Family) (P : Prog) : List (List Char) → M.State → List N → M.State → Prop where
  | nil {before st} : FunsOk M J P before st [] st
  | cons {before st st1 st' f fs} : FunOk M J P before st f st1 → FunsOk M J P (before ++ [f.name]) st1 fs st' →
      FunsOk M J P before st (f :: fs) st'

/-- the assertions, in their order -/
inductive AssertsOk (M : Mode) (I : Ctors) (P : Prog) : M.State → List N → M.State → Prop where
  | nil {st} : AssertsOk M I P st [] st
  | cons {st st1 st' a as} : ExprOk M I P [] st a st1 → AssertsOk M I P st1 as st' → AssertsOk M I P st (a :: as) st'

/-- a problem that can be written and read back -/
structure ProgOk (M : Mode) (J : Family) (P : Prog) : Prop where
  lawful : ∀ fs o, Lawful (J fs o)
  logic : P.logic ∈ knownLogics
  sortArity : ∀ x ∈ P.sorts, x.2.kind = .DEC → x.2.arity = 0
  sortNodup : (sortNames P).Nodup
  sortTok : ∀ n ∈ sortNames P, Tok n
  good : GoodDecl (declOf P)
  varTok : ∀ v ∈ P.vars, Tok v.name ∧ SortOk P v.sort
  varNodup : (P.vars.map N.name).Nodup
  exprs : ∃ st st', FunsOk M J P [] M.start P.funs st ∧ AssertsOk M (J (P.funs.map N.name) none) P st P.asserts st'

/-- the function recorded is the function written: same kind, name, parameters and result, and the constructors called while reading the body
make the same body -/
inductive SameFn (M : Mode) (J : Family) (before : List (List Char)) : M.State → List Char × Fn Srt → N → M.State → Prop where
  | dec {st name ds d s c ps} : ds.map sortOf = ps.map (fun p => sortOf p.sort) → sortOf d = sortOf s →
      SameFn M J before st (name, .dec ds d) (.mk .FUNC_DEC name s (c :: ps)) st
  | defn {st st' name vs d s b e ps} : vs.map (fun v => (v.1, sortOf v.2)) = sig ps → sortOf d = sortOf s →
      M.read (J before none) (scope ps) st (e.map sortOf) = .ok (b, st') →
      SameFn M J before st (name, .defn vs d e) (.mk .FUNC_DEF name s (b :: ps)) st'
  | recu {st st' name vs d s b e ps} : vs.map (fun v => (v.1, sortOf v.2)) = sig ps → sortOf d = sortOf s →
      M.read (J before (some name)) (scope ps) st (e.map sortOf) = .ok (b, st') →
      SameFn M J before st (name, .recu vs d e) (.mk .FUNC_REC name s (b :: ps)) st'

/-- the functions recorded are the functions written, in their order -/
inductive SameFns (M : Mode) (J : Family) : List (List Char) → M.State → List (List Char × Fn Srt) → List N → M.State → Prop where
  | nil {before st} : SameFns M J before st [] [] st
  | cons {before st st1 st' f fs n ns} : SameFn M J before st f n st1 → SameFns M J (before ++ [n.name]) st1 fs ns st' →
      SameFns M J before st (f :: fs) (n :: ns) st'

/-- the constructors called while reading make the expressions, one after the other -/
inductive Rebuilt (M : Mode) (I : Ctors) : M.State → List (T (Option D)) → List N → M.State → Prop where
  | nil {st} : Rebuilt M I st [] [] st
  | cons {st st1 st' t ts n ns} : M.read I [] st t = .ok (n, st1) → Rebuilt M I st1 ts ns st' → Rebuilt M I st (t :: ts) (n :: ns) st'

/-- the parser has read the problem -/
structure Same (M : Mode) (J : Family) (P : Prog) (s : S) : Prop where
  logic : s.logic = P.logic
  vars : s.vars.map (fun v => (v.1, sortOf v.2)) = sig P.vars
  fnames : s.fnames = P.funs.map N.name
  exprs : ∃ st st', SameFns M J [] M.start s.funs P.funs st ∧
    Rebuilt M (J (P.funs.map N.name) none) st (s.asserts.map fun t => t.map sortOf) P.asserts st'
  soft : s.soft = []
  objs : s.objs = []

/-! ## Sorts -/

theorem fits31 {w : Nat} (h : w < 2 ^ 31) : Num31 (dec w) := ⟨dec_ne_nil w, dec_isDigit w, by rw [undec_dec]; exact h⟩

theorem dec_tok (w : Nat) : Tok (dec w) :=
  .plain (dec_ne_nil w) (fun c hc => digit_notDelim (dec_isDigit w c hc)) (digits_noSci (dec_isDigit w))

theorem sort_written {decl : Decl} {s : Srt} {d : D} (h : Denotes s d) (ho : Over decl d) (hf : Fits d) : SortOf decl (sortSexp s) d := by
  induction h with
  | array _ _ ih1 ih2 => exact .array (ih1 ho.1 hf.1) (ih2 ho.2 hf.2)
  | bool => exact .bool
  | int => exact .int
  | real => exact .real
  | str => exact .str
  | reg => exact .regOf .str
  | rm => exact .rm
  | bv w => have := SortOf.bv (decl := decl) (fits31 hf); rw [undec_dec] at this; exact this
  | fp n e s => have := SortOf.fp (decl := decl) (fits31 hf.1) (fits31 hf.2); rw [undec_dec, undec_dec] at this; exact this
  | named n => exact .named ho

theorem sort_toks {decl : Decl} (hn : ∀ x ∈ decl, Tok x.1) {s : Srt} {d : D} (h : Denotes s d) (ho : Over decl d) : Toks (sortSexp s) := by
  induction h with
  | array _ _ ih1 ih2 => exact ⟨plainB_tok (by decide +kernel), ih1 ho.1, ih2 ho.2, trivial⟩
  | bool => exact plainB_tok (by decide +kernel)
  | int => exact plainB_tok (by decide +kernel)
  | real => exact plainB_tok (by decide +kernel)
  | str => exact plainB_tok (by decide +kernel)
  | reg => exact ⟨plainB_tok (by decide +kernel), plainB_tok (by decide +kernel), trivial⟩
  | rm => exact plainB_tok (by decide +kernel)
  | bv w => exact ⟨plainB_tok (by decide +kernel), plainB_tok (by decide +kernel), dec_tok w, trivial⟩
  | fp n e s => exact ⟨plainB_tok (by decide +kernel), plainB_tok (by decide +kernel), dec_tok e, dec_tok s, trivial⟩
  | named n => exact hn _ ho


/-! ## Commands one after the other -/

/-- commands, each on a line of its own -/
def after : List Sexp → List Char
  | [] => []
  | x :: xs => flat x ++ '\n' :: after xs

theorem after_append : ∀ xs ys : List Sexp, after (xs ++ ys) = after xs ++ after ys
  | [], _ => rfl
  | x :: xs, ys => by simp only [List.cons_append, after, after_append xs ys, List.append_assoc]

/-- the S-expressions write the commands -/
inductive WritesT : List Cmd → List Sexp → List Cmd → Prop where
  | nil {cs} : WritesT cs [] []
  | cons {cs x c xs ds} : Toks x → Writes cs x c → WritesT (cs ++ [c]) xs ds → WritesT cs (x :: xs) (c :: ds)

theorem WritesT.append {cs ds es : List Cmd} {xs ys : List Sexp} (h : WritesT cs xs ds) (g : WritesT (cs ++ ds) ys es) :
    WritesT cs (xs ++ ys) (ds ++ es) := by
  induction h with
  | nil => simpa using g
  | cons h1 h2 _ ih => exact .cons h1 h2 (ih (by simpa using g))

theorem exit_toks : Toks (.list [.atom cs!"exit"]) := ⟨plainB_tok (by decide +kernel), trivial⟩

theorem script_after {file : Bool} {cs ds : List Cmd} {xs : List Sexp} (h : WritesT cs xs ds) :
    ∀ {g : List Char}, Skip g → Script file cs (g ++ (after xs ++ cs!"(exit)\n")) ds := by
  induction h with
  | nil =>
    intro g hg
    have := Script.exit (file := file) (cs := ‹_›) (r := cs!"\n") hg (lay_flat file exit_toks)
    exact this
  | cons h1 h2 _ ih =>
    intro g hg
    have := Script.cmd hg (lay_flat file h1) h2 (ih (g := ['\n']) (.ws (.inr rfl) .nil))
    simpa [after] using this

/-! ## The parts of a problem -/

variable {M : Mode} {J : Family} {P : Prog}

theorem decl_toks (h : ProgOk M J P) : ∀ x ∈ declOf P, Tok x.1 := by
  intro x hx
  simp only [declOf, List.mem_map] at hx
  obtain ⟨n, hn, rfl⟩ := hx
  exact h.sortTok n hn

theorem sort_ok (h : ProgOk M J P) {s : Srt} (hs : SortOk P s) :
    ∃ d, SortOf (declOf P) (sortSexp s) d ∧ Toks (sortSexp s) ∧ sortOf s = some d := by
  obtain ⟨d, h1, h2, h3⟩ := hs
  exact ⟨d, sort_written h1 h2 h3, sort_toks (decl_toks h) h1 h2, sortOf_denotes h1⟩

/-- a sublist of self-named sorts is good -/
theorem good_prefix {ns ms : List (List Char)} (h : GoodDecl ((ns ++ ms).map fun n => (n, D.named n))) :
    GoodDecl (ns.map fun n => (n, D.named n)) := by
  have hs : ∀ x ∈ (ns.map fun n => (n, D.named n)), x ∈ ((ns ++ ms).map fun n => (n, D.named n)) := by
    intro x hx; rw [List.map_append]; exact List.mem_append_left _ hx
  have hn : ∀ x ∈ declNames (ns.map fun n => (n, D.named n)), x ∈ declNames ((ns ++ ms).map fun n => (n, D.named n)) := by
    intro x hx
    simp only [declNames, List.mem_map] at hx ⊢
    obtain ⟨y, hy, rfl⟩ := hx
    obtain ⟨z, hz, rfl⟩ := hy
    exact ⟨_, ⟨z, List.mem_append_left _ hz, rfl⟩, rfl⟩
  have ho : ∀ d, Over (ns.map fun n => (n, D.named n)) d → Over ((ns ++ ms).map fun n => (n, D.named n)) d := by
    intro d
    induction d with
    | array i e ih1 ih2 => exact fun h => ⟨ih1 h.1, ih2 h.2⟩
    | named n => exact fun h => hs _ h
    | _ => exact fun _ => trivial
  refine ⟨fun n hx => h.notBasic n (hn n hx), fun n hx => h.notKey n (hn n hx), ?_, ?_⟩
  · intro i e i' e' h1 h2 h3 h4
    exact h.unamb i e i' e' (ho _ h1) (ho _ h2) (ho _ h3) (ho _ h4)
  · intro n d hd
    simp only [List.mem_map] at hd
    obtain ⟨m, hm, he⟩ := hd
    injection he with e1 e2
    subst e2
    exact List.mem_map.mpr ⟨m, hm, rfl⟩

/-- the command of a sort -/
def sortX (n : List Char) : Sexp := .list [.atom cs!"declare-sort", .atom n, .atom cs!"0"]

theorem sorts_write : ∀ (ns ms : List (List Char)) (cs : List Cmd), sorts cs = (ns.map fun n => (n, D.named n)) → (ns ++ ms).Nodup →
    (∀ n ∈ ms, Tok n) → GoodDecl ((ns ++ ms).map fun n => (n, D.named n)) →
    WritesT cs (ms.map sortX) (ms.map fun n => .sort n (.named n))
  | ns, [], cs, _, _, _, _ => .nil
  | ns, m :: ms, cs, hc, hd, ht, hg => by
    have hc' : sorts (cs ++ [.sort m (.named m)]) = ((ns ++ [m]).map fun n => (n, D.named n)) := by
      simp [sorts, Cmd.sorts, List.filterMap_append] at hc ⊢
      exact hc
    refine .cons ⟨plainB_tok (by decide +kernel), ht m List.mem_cons_self, plainB_tok (by decide +kernel), trivial⟩ (.sort ?_ ?_) ?_
    · rw [hc]
      intro hm
      simp only [declNames, List.mem_map] at hm
      obtain ⟨_, ⟨z, hz, rfl⟩, rfl⟩ := hm
      rw [List.nodup_append] at hd
      exact hd.2.2 _ hz _ List.mem_cons_self rfl
    · rw [hc, show (ns.map fun n => (n, D.named n)) ++ [(m, D.named m)] = ((ns ++ [m]).map fun n => (n, D.named n)) by simp]
      exact good_prefix (ms := ms) (by simpa using hg)
    · exact sorts_write (ns ++ [m]) ms _ hc' (by simpa using hd) (fun n hn => ht n (List.mem_cons_of_mem _ hn)) (by simpa using hg)

/-- the command of a variable -/
def varX (v : N) : Sexp := .list [.atom cs!"declare-fun", .atom v.name, .list [], sortSexp v.sort]

theorem sorts_var (cs : List Cmd) (n : List Char) (d : D) : sorts (cs ++ [.var n d]) = sorts cs := by
  simp [sorts, Cmd.sorts, List.filterMap_append]

theorem vars_write (h : ProgOk M J P) : ∀ (us vs : List N) (cs : List Cmd), sorts cs = declOf P → (vars cs).map (fun v => v.1) = us.map N.name →
    ((us ++ vs).map N.name).Nodup → (∀ v ∈ vs, Tok v.name ∧ SortOk P v.sort) →
    ∃ ds, WritesT cs (vs.map varX) ds ∧ (∀ c ∈ ds, ∃ n d, c = .var n d) ∧ (vars ds).map (fun v => (v.1, some v.2)) = sig vs
  | us, [], cs, _, _, _, _ => ⟨[], .nil, by simp, rfl⟩
  | us, v :: vs, cs, hc, hu, hd, hv => by
    obtain ⟨d, h1, h2, h3⟩ := sort_ok h (hv v List.mem_cons_self).2
    obtain ⟨ds, k1, k2, k3⟩ := vars_write h (us ++ [v]) vs (cs ++ [.var v.name d]) (by rw [sorts_var, hc])
      (by simp only [vars, List.filterMap_append, List.map_append, Cmd.vars, List.filterMap_cons, List.filterMap_nil] at hu ⊢; rw [hu]; rfl)
      (by simpa using hd) (fun w hw => hv w (List.mem_cons_of_mem _ hw))
    refine ⟨.var v.name d :: ds, .cons ⟨plainB_tok (by decide +kernel), (hv v List.mem_cons_self).1, trivial, h2, trivial⟩ (.fun0 ?_ ?_) k1, ?_, ?_⟩
    · rw [hc]; exact h1
    · intro w hw he
      have hm : w.1 ∈ us.map N.name := by rw [← hu]; exact List.mem_map_of_mem hw
      rw [List.map_append, List.nodup_append] at hd
      exact hd.2.2 _ hm v.name (by simp) he
    · intro c hc
      rcases List.mem_cons.mp hc with rfl | hc
      · exact ⟨_, _, rfl⟩
      · exact k2 c hc
    · simp only [vars, Cmd.vars, List.filterMap_cons, List.map_cons, sig, h3] at k3 ⊢
      rw [k3]


/-! ## Expressions and functions -/

theorem expr_ok {I : Ctors} (hI : Lawful I) {sc : Names} {st st' : M.State} {n : N} (h : ExprOk M I P sc st n st') :
    ∃ (x : Sexp) (t : T D), flat x = flat (sexpr n) ∧ Toks x ∧ Script.Term (declOf P) x t ∧ M.read I sc st (t.map some) = .ok (n, st') := by
  obtain ⟨x, t, h1, h2, h3, h4, h5⟩ := M.back hI h.made
  refine ⟨x, t, h1, h2, ⟨h3, h4, ?_⟩, h5⟩
  intro a ha
  subst ha
  have := h.notKw
  rw [← h1] at this
  exact this

/-- what is written of a function -/
inductive Wrote (M : Mode) (J : Family) (before : List (List Char)) : M.State → List Char × Fn D → N → M.State → Prop where
  | dec {st name ds d s c ps} : ds.map some = ps.map (fun p => sortOf p.sort) → some d = sortOf s →
      Wrote M J before st (name, .dec ds d) (.mk .FUNC_DEC name s (c :: ps)) st
  | defn {st st' name vs d s b e ps} : vs.map (fun v => (v.1, some v.2)) = sig ps → some d = sortOf s →
      M.read (J before none) (scope ps) st (e.map some) = .ok (b, st') →
      Wrote M J before st (name, .defn vs d e) (.mk .FUNC_DEF name s (b :: ps)) st'
  | recu {st st' name vs d s b e ps} : vs.map (fun v => (v.1, some v.2)) = sig ps → some d = sortOf s →
      M.read (J before (some name)) (scope ps) st (e.map some) = .ok (b, st') →
      Wrote M J before st (name, .recu vs d e) (.mk .FUNC_REC name s (b :: ps)) st'

/-- the same for lists -/
inductive Wrotes (M : Mode) (J : Family) : List (List Char) → M.State → List (List Char × Fn D) → List N → M.State → Prop where
  | nil {before st} : Wrotes M J before st [] [] st
  | cons {before st st1 st' f fs n ns} : Wrote M J before st f n st1 → Wrotes M J (before ++ [n.name]) st1 fs ns st' →
      Wrotes M J before st (f :: fs) (n :: ns) st'

theorem same_of_wrote {before : List (List Char)} {st st' : M.State} {f : List Char × Fn Srt} {g : List Char × Fn D} {n : N}
    (h : Wrote M J before st g n st') (e : (f.1, f.2.map sortOf) = (g.1, g.2.map some)) : SameFn M J before st f n st' := by
  obtain ⟨f1, f2⟩ := f
  cases h with
  | dec h1 h2 =>
    cases f2 with
    | dec ds d =>
      simp only [Fn.map, Prod.mk.injEq, Fn.dec.injEq] at e
      obtain ⟨rfl, e1, e2⟩ := e
      exact .dec (e1.trans h1) (e2.trans h2)
    | defn _ _ _ => simp [Fn.map] at e
    | recu _ _ _ => simp [Fn.map] at e
  | defn h1 h2 h3 =>
    cases f2 with
    | defn vs d b =>
      simp only [Fn.map, Prod.mk.injEq, Fn.defn.injEq] at e
      obtain ⟨rfl, e1, e2, e3⟩ := e
      exact .defn (e1.trans h1) (e2.trans h2) (e3 ▸ h3)
    | dec _ _ => simp [Fn.map] at e
    | recu _ _ _ => simp [Fn.map] at e
  | recu h1 h2 h3 =>
    cases f2 with
    | recu vs d b =>
      simp only [Fn.map, Prod.mk.injEq, Fn.recu.injEq] at e
      obtain ⟨rfl, e1, e2, e3⟩ := e
      exact .recu (e1.trans h1) (e2.trans h2) (e3 ▸ h3)
    | dec _ _ => simp [Fn.map] at e
    | defn _ _ _ => simp [Fn.map] at e

theorem sames_of_wrotes {before : List (List Char)} {st st' : M.State} {gs : List (List Char × Fn D)} {ns : List N}
    (h : Wrotes M J before st gs ns st') :
    ∀ {fs : List (List Char × Fn Srt)}, fs.map (fun f => (f.1, f.2.map sortOf)) = gs.map (fun g => (g.1, g.2.map some)) →
      SameFns M J before st fs ns st' := by
  induction h with
  | nil => intro fs e; cases fs with
    | nil => exact .nil
    | cons _ _ => simp at e
  | cons h1 _ ih => intro fs e; cases fs with
    | nil => simp at e
    | cons f fs =>
      simp only [List.map_cons, List.cons.injEq] at e
      exact .cons (same_of_wrote h1 e.1) (ih e.2)

theorem params_ok (h : ProgOk M J P) : ∀ {ps : List N}, (∀ p ∈ ps, Tok p.name ∧ SortOk P p.sort) →
    ∃ vs, Vars (declOf P) (ps.map varSexp) vs ∧ ToksL (ps.map varSexp) ∧ vs.map (fun v => (v.1, some v.2)) = sig ps ∧
      vs.map (fun v => v.1) = ps.map N.name
  | [], _ => ⟨[], .nil, trivial, rfl, rfl⟩
  | p :: ps, hp => by
    obtain ⟨d, h1, h2, h3⟩ := sort_ok h (hp p List.mem_cons_self).2
    obtain ⟨vs, k1, k2, k3, k4⟩ := params_ok h fun q hq => hp q (List.mem_cons_of_mem _ hq)
    refine ⟨(p.name, d) :: vs, .cons h1 k1, ⟨⟨(hp p List.mem_cons_self).1, h2, trivial⟩, k2⟩, ?_, ?_⟩
    · simp only [List.map_cons, sig, h3] at k3 ⊢; rw [k3]
    · simp only [List.map_cons, k4]

theorem psorts_ok (h : ProgOk M J P) : ∀ {ps : List N}, (∀ p ∈ ps, SortOk P p.sort) →
    ∃ ds, SortsOf (declOf P) (ps.map fun v => sortSexp v.sort) ds ∧ ToksL (ps.map fun v => sortSexp v.sort) ∧
      ds.map some = ps.map (fun p => sortOf p.sort)
  | [], _ => ⟨[], .nil, trivial, rfl⟩
  | p :: ps, hp => by
    obtain ⟨d, h1, h2, h3⟩ := sort_ok h (hp p List.mem_cons_self)
    obtain ⟨ds, k1, k2, k3⟩ := psorts_ok h fun q hq => hp q (List.mem_cons_of_mem _ hq)
    exact ⟨d :: ds, .cons h1 k1, ⟨h2, k2⟩, by simp only [List.map_cons, h3, k3]⟩

theorem funLines_cons (fuel : Nat) (f : N) (fs : List N) :
    funLines fuel (f :: fs) = (funText fuel f >>= fun t => funLines fuel fs >>= fun r => pure (t ++ cs!"\n" ++ r)) := rfl

theorem fun_write (h : ProgOk M J P) {before : List (List Char)} {st st' : M.State} {f : N} (hf : FunOk M J P before st f st') {cs : List Cmd} (hc : sorts cs = declOf P)
    (hb : fnNames (functions cs) = before) :
    ∃ x g, Toks x ∧ Writes cs x (.fns [g]) ∧ g.1 = f.name ∧ Wrote M J before st g f st' ∧ ∃ k, ∀ m, k ≤ m → funText m f = .ok (flat x) := by
  cases hf with
  | @dec name s c ps h1 h2 h3 h4 h5 =>
    obtain ⟨d, s1, s2, s3⟩ := sort_ok h h3
    obtain ⟨ds, k1, k2, k3⟩ := psorts_ok h h4
    refine ⟨.list [.atom cs!"declare-fun", .atom name, .list (ps.map fun (v : N) => sortSexp v.sort), sortSexp s], (name, .dec ds d),
      ⟨plainB_tok (by decide +kernel), h1, k2, s2, trivial⟩, .func (by rw [hc]; exact k1) ?_ (by rw [hc]; exact s1) (by rw [hb]; exact h2), rfl,
      .dec k3 s3.symm, 0, fun m _ => ?_⟩
    · cases ps with
      | nil => exact absurd rfl h5
      | cons => simp
    · rw [← printDec_exact .FUNC_DEC name s c ps]; rfl
  | @defn _ name s b ps h1 h2 h3 h4 h5 h6 =>
    obtain ⟨d, s1, s2, s3⟩ := sort_ok h h3
    obtain ⟨vs, k1, k2, k3, k4⟩ := params_ok h h4
    obtain ⟨x, t, e1, e2, e3, e4⟩ := expr_ok (h.lawful _ _) h6
    obtain ⟨k, hk⟩ := printFun_exact_partial (kw := cs!"define-fun") (name := name) (k := .FUNC_DEF) (s := s) (ps := ps) h6.wf
    refine ⟨.list [.atom cs!"define-fun", .atom name, .list (ps.map varSexp), sortSexp s, x], (name, .defn vs d t),
      ⟨plainB_tok (by decide +kernel), h1, k2, s2, e2, trivial⟩,
      .defFun (by rw [hc]; exact k1) (by rw [k4]; exact h5) (by rw [hc]; exact s1) (by rw [hc]; exact e3) (by rw [hb]; exact h2), rfl,
      .defn k3 s3.symm e4, k, fun m hm => ?_⟩
    have : flat (.list [.atom cs!"define-fun", .atom name, .list (ps.map varSexp), sortSexp s, x]) =
        flat (.list [.atom cs!"define-fun", .atom name, .list (ps.map varSexp), sortSexp s, sexpr b]) := flat_congr (by simp only [List.map_cons, e1])
    rw [this, ← hk m hm]; rfl
  | @recu _ name s b ps h1 h2 h3 h4 h5 h6 =>
    obtain ⟨d, s1, s2, s3⟩ := sort_ok h h3
    obtain ⟨vs, k1, k2, k3, k4⟩ := params_ok h h4
    obtain ⟨x, t, e1, e2, e3, e4⟩ := expr_ok (h.lawful _ _) h6
    obtain ⟨k, hk⟩ := printFun_exact_partial (kw := cs!"define-fun-rec") (name := name) (k := .FUNC_REC) (s := s) (ps := ps) h6.wf
    refine ⟨.list [.atom cs!"define-fun-rec", .atom name, .list (ps.map varSexp), sortSexp s, x], (name, .recu vs d t),
      ⟨plainB_tok (by decide +kernel), h1, k2, s2, e2, trivial⟩,
      .defRec (by rw [hc]; exact k1) (by rw [k4]; exact h5) (by rw [hc]; exact s1) (by rw [hc]; exact e3) (by rw [hb]; exact h2), rfl,
      .recu k3 s3.symm e4, k, fun m hm => ?_⟩
    have : flat (.list [.atom cs!"define-fun-rec", .atom name, .list (ps.map varSexp), sortSexp s, x]) =
        flat (.list [.atom cs!"define-fun-rec", .atom name, .list (ps.map varSexp), sortSexp s, sexpr b]) := flat_congr (by simp only [List.map_cons, e1])
    rw [this, ← hk m hm]; rfl

theorem sorts_fns (cs : List Cmd) (fs : List (List Char × Fn D)) : sorts (cs ++ [.fns fs]) = sorts cs := by
  simp [sorts, Cmd.sorts, List.filterMap_append]

theorem funs_write (h : ProgOk M J P) {before : List (List Char)} {st st' : M.State} {fs : List N} (hf : FunsOk M J P before st fs st') : ∀ {cs : List Cmd},
    sorts cs = declOf P → fnNames (functions cs) = before →
    ∃ (xs : List Sexp) (gs : List (List Char × Fn D)), WritesT cs xs (gs.map fun g => .fns [g]) ∧ Wrotes M J before st gs fs st' ∧
      ∃ k, ∀ m, k ≤ m → funLines m fs = .ok (after xs) := by
  induction hf with
  | nil => exact fun _ _ => ⟨[], [], .nil, .nil, 0, fun _ _ => rfl⟩
  | @cons before st st1 st' f fs h1 _ ih =>
    intro cs hc hb
    obtain ⟨x, g, e1, e2, e3, e4, k, e5⟩ := fun_write h h1 hc hb
    obtain ⟨xs, gs, j1, j2, k', j3⟩ := ih (cs := cs ++ [.fns [g]]) (by rw [sorts_fns, hc])
      (by rw [← hb, ← e3]; simp [functions, Cmd.fn, fnNames])
    refine ⟨x :: xs, g :: gs, .cons e1 e2 j1, .cons e4 j2, max k k', fun m hm => ?_⟩
    rw [funLines_cons, e5 m (by omega), j3 m (by omega)]
    simp [after]

/-- the assertions -/
theorem asserts_write (h : ProgOk M J P) {I : Ctors} (hI : Lawful I) {st st' : M.State} {as : List N} (ha : AssertsOk M I P st as st') :
    ∀ {cs : List Cmd}, sorts cs = declOf P →
    ∃ (xs : List Sexp) (ts : List (T D)), WritesT cs xs (ts.map fun t => .assert t none none) ∧
      Rebuilt M I st (ts.map fun t => t.map some) as st' ∧ ∃ k, ∀ m, k ≤ m → assertLines m as = .ok (after xs) := by
  induction ha with
  | nil => exact fun _ => ⟨[], [], .nil, .nil, 0, fun _ _ => rfl⟩
  | @cons st st1 st' a as ha _ ih =>
    intro cs hc
    obtain ⟨x, t, e1, e2, e3, e4⟩ := expr_ok hI ha
    obtain ⟨k, hk⟩ := print_exact_partial ha.wf
    obtain ⟨xs, ts, j1, j2, k', j3⟩ := ih (cs := cs ++ [.assert t none none])
      (by simp only [sorts, List.filterMap_append, Cmd.sorts, List.filterMap_cons, List.filterMap_nil, List.append_nil] at hc ⊢; exact hc)
    refine ⟨.list [.atom cs!"assert", x] :: xs, t :: ts, .cons ⟨plainB_tok (by decide +kernel), e2, trivial⟩
      (.assert (g1 := none) (g2 := none) (a := none) (by rw [hc]; exact e3) (.inl rfl) (.inl rfl)) j1, ?_, max k k', fun m hm => ?_⟩
    · exact .cons e4 j2
    · have : flat (.list [.atom cs!"assert", x]) = flat (.list [.atom cs!"assert", sexpr a]) := flat_congr (by simp only [List.map_cons, e1])
      have hk := hk m (by omega)
      have j3 := j3 m (by omega)
      simp only [assertLines, hk, j3, Res.ok_bind, Res.pure_eq, after, this]
      simp [flat, flats, tails]

theorem sortLines_after (h : ProgOk M J P) : ∀ {xs : List (List Char × Srt)}, (∀ x ∈ xs, x.2.kind = .DEC → x.2.arity = 0) →
    sortLines xs = after (((xs.filter fun x => x.2.kind = .DEC).map fun x => x.1).map sortX)
  | [], _ => rfl
  | x :: xs, hx => by
    have ih := sortLines_after h fun y hy => hx y (List.mem_cons_of_mem _ hy)
    by_cases hk : x.2.kind = .DEC
    · have := hx x List.mem_cons_self hk
      simp only [sortLines, hk, if_true, List.filter_cons, decide_true, List.map_cons, after, ih, sortX, this]
      have hd : dec 0 = cs!"0" := by decide +kernel
      simp [flat, flats, tails, hd]
    · simp only [sortLines, hk, if_false, List.filter_cons, decide_false, ih, List.nil_append, Bool.false_eq_true]

theorem varLines_after : ∀ vs : List N, varLines vs = after (vs.map varX)
  | [] => rfl
  | v :: vs => by
    simp only [varLines, varLines_after vs, List.map_cons, after, varX]
    simp [flat, flats, tails, flat_sort]


/-! ## The whole problem -/

theorem fm_nil {α β : Type} {f : α → Option β} {l : List α} (h : ∀ x ∈ l, f x = none) : l.filterMap f = [] :=
  List.filterMap_eq_nil_iff.mpr h

theorem fm_map {α β γ : Type} (g : α → β) (f : β → Option γ) (k : α → γ) (h : ∀ x, f (g x) = some (k x)) : ∀ l : List α,
    (l.map g).filterMap f = l.map k
  | [] => rfl
  | x :: l => by rw [List.map_cons, List.filterMap_cons, h, fm_map g f k h l]; rfl

/-- the commands: the logic, the sorts, the variables, the functions, the assertions, `check-sat` -/
def cmdsOf (P : Prog) (vs : List (List Char × D)) (gs : List (List Char × Fn D)) (ts : List (T D)) : List Cmd :=
  [.logic P.logic] ++ ((sortNames P).map fun n => .sort n (.named n)) ++ (vs.map fun v => .var v.1 v.2) ++ (gs.map fun g => .fns [g]) ++
    (ts.map fun t => .assert t none none) ++ [.checkSat]

/-- **C67, the commands of a problem**: the text of `dumpSMT2` is a script that sets the logic and declares, defines and asserts what the
parser has. -/
theorem dump_script (file : Bool) (h : ProgOk M J P) : ∃ (text : List Char) (vs : List (List Char × D)) (gs : List (List Char × Fn D)) (ts : List (T D)) (k : Nat),
    (∀ m, k ≤ m → dumpSMT2 m P = .ok text) ∧ text ≠ [] ∧
    Script file [] text (cmdsOf P vs gs ts) ∧
    vs.map (fun v => (v.1, some v.2)) = sig P.vars ∧
    ∃ st st', Wrotes M J [] M.start gs P.funs st ∧ Rebuilt M (J (P.funs.map N.name) none) st (ts.map fun t => t.map some) P.asserts st' := by
  obtain ⟨st, st', hfuns, hasserts⟩ := h.exprs
  have w1 : WritesT [] [.list [.atom cs!"set-logic", .atom P.logic]] [.logic P.logic] := by
    refine .cons ⟨plainB_tok (by decide +kernel), ?_, trivial⟩ (.logic h.logic) .nil
    exact plainB_tok ((by decide +kernel : ∀ l ∈ knownLogics, plainB l = true) _ h.logic)
  have w2 := sorts_write [] (sortNames P) [.logic P.logic] rfl (by simpa using h.sortNodup) h.sortTok (by simpa [declOf] using h.good)
  have s2 : sorts ([.logic P.logic] ++ ((sortNames P).map fun n => .sort n (.named n))) = declOf P := by
    show List.filterMap _ _ = _
    rw [List.filterMap_append, fm_map (f := Cmd.sorts) _ (fun n => (n, D.named n)) (fun _ => rfl)]
    rfl
  have v2 : vars ([.logic P.logic] ++ ((sortNames P).map fun n => .sort n (.named n))) = [] := by
    refine fm_nil fun c hc => ?_
    simp only [List.mem_append, List.mem_singleton, List.mem_map] at hc
    rcases hc with rfl | ⟨n, _, rfl⟩ <;> rfl
  obtain ⟨ds, w3, d1, d2⟩ := vars_write h [] P.vars _ s2 (by rw [v2]; rfl) (by simpa using h.varNodup) h.varTok
  have d3 : ds = (vars ds).map fun v => .var v.1 v.2 := by
    clear d2 w3
    induction ds with
    | nil => rfl
    | cons c ds ih =>
      obtain ⟨n, d, rfl⟩ := d1 c List.mem_cons_self
      have := ih fun c hc => d1 c (List.mem_cons_of_mem _ hc)
      simp only [vars, List.filterMap_cons, Cmd.vars, List.map_cons] at this ⊢
      rw [← this]
  generalize vars ds = vs at d2 d3
  subst d3
  have f3 : functions (([.logic P.logic] ++ ((sortNames P).map fun n => .sort n (.named n))) ++ vs.map fun v => .var v.1 v.2) = [] := by
    unfold functions
    rw [List.flatMap_eq_nil_iff]
    intro c hc
    simp only [List.mem_append, List.mem_singleton, List.mem_map] at hc
    rcases hc with (rfl | ⟨n, _, rfl⟩) | ⟨v, _, rfl⟩ <;> rfl
  have s3 : sorts (([.logic P.logic] ++ ((sortNames P).map fun n => .sort n (.named n))) ++ vs.map fun v => .var v.1 v.2) = declOf P := by
    have : sorts (vs.map fun v => .var v.1 v.2) = [] := by
      refine fm_nil fun c hc => ?_
      simp only [List.mem_map] at hc
      obtain ⟨v, _, rfl⟩ := hc
      rfl
    unfold sorts at this s2 ⊢
    rw [List.filterMap_append, s2, this, List.append_nil]
  obtain ⟨xs, gs, w4, g1, k1, g2⟩ := funs_write h hfuns s3 (by rw [f3]; rfl)
  have s4 : sorts ((([.logic P.logic] ++ ((sortNames P).map fun n => .sort n (.named n))) ++ vs.map fun v => .var v.1 v.2) ++ gs.map fun g => .fns [g]) = declOf P := by
    have : sorts (gs.map fun g => .fns [g]) = [] := by
      refine fm_nil fun c hc => ?_
      simp only [List.mem_map] at hc
      obtain ⟨v, _, rfl⟩ := hc
      rfl
    unfold sorts at this s3 ⊢
    rw [List.filterMap_append, s3, this, List.append_nil]
  obtain ⟨ys, ts, w5, a1, k2, a2⟩ := asserts_write h (h.lawful (P.funs.map N.name) none) hasserts s4
  have w6 : WritesT (((([.logic P.logic] ++ ((sortNames P).map fun n => .sort n (.named n))) ++ vs.map fun v => .var v.1 v.2) ++ gs.map fun g => .fns [g]) ++
      ts.map fun t => .assert t none none) [.list [.atom cs!"check-sat"]] [.checkSat] :=
    .cons ⟨plainB_tok (by decide +kernel), trivial⟩ .checkSat .nil
  have w := WritesT.append (WritesT.append (WritesT.append (WritesT.append (WritesT.append w1 w2) w3) w4) w5) w6
  have sc := script_after (file := file) w (g := []) .nil
  refine ⟨_, vs, gs, ts, max k1 k2, fun m hm => ?_, ?_, sc, d2, st, st', g1, a1⟩
  · simp only [dumpSMT2, g2 m (by omega), a2 m (by omega), Res.ok_bind, Res.pure_eq, after_append, varLines_after,
      sortLines_after h h.sortArity]
    simp [after, flat, flats, tails, sortNames]
  · simp

/-- the problem that is written is the problem that is read back, in each mode -/
theorem dump_round_trip_mode (pres : Bool) (h : ProgOk M J P) : ∃ (text : List Char) (s s' : S) (k : Nat),
    (∀ m, k ≤ m → dumpSMT2 m P = .ok text) ∧
    (∀ m, k ≤ m → parseStr ⟨false, pres⟩ m fresh text = .ok s) ∧ Same M J P s ∧
    (∀ m, k ≤ m → parseFile pres m fresh text = .ok s') ∧ Same M J P s' := by
  have key : ∀ {s : S} {vs : List (List Char × D)} {gs : List (List Char × Fn D)} {ts : List (T D)},
      Represents (cmdsOf P vs gs ts) s →
      vs.map (fun v => (v.1, some v.2)) = sig P.vars → ∀ {st st' : M.State}, Wrotes M J [] M.start gs P.funs st →
      Rebuilt M (J (P.funs.map N.name) none) st (ts.map fun t => t.map some) P.asserts st' → Same M J P s := by
    intro s vs gs ts hr hv st st' hg ht
    have e1 : ∀ {β : Type} (f : Cmd → Option β), (∀ n, f (.sort n (.named n)) = none) → (∀ n d, f (.var n d) = none) → (∀ g, f (.fns [g]) = none) →
        (∀ t, f (.assert t none none) = none) → (cmdsOf P vs gs ts).filterMap f = ([Cmd.logic P.logic].filterMap f) ++ [Cmd.checkSat].filterMap f := by
      intro β f h1 h2 h3 h4
      rw [cmdsOf, List.filterMap_append, List.filterMap_append, List.filterMap_append, List.filterMap_append, List.filterMap_append,
        fm_nil (f := f) (l := (sortNames P).map _) (by intro c hc; simp only [List.mem_map] at hc; obtain ⟨_, _, rfl⟩ := hc; exact h1 _),
        fm_nil (f := f) (l := vs.map _) (by intro c hc; simp only [List.mem_map] at hc; obtain ⟨_, _, rfl⟩ := hc; exact h2 _ _),
        fm_nil (f := f) (l := gs.map _) (by intro c hc; simp only [List.mem_map] at hc; obtain ⟨_, _, rfl⟩ := hc; exact h3 _),
        fm_nil (f := f) (l := ts.map _) (by intro c hc; simp only [List.mem_map] at hc; obtain ⟨_, _, rfl⟩ := hc; exact h4 _)]
      simp
    have ev : vars (cmdsOf P vs gs ts) = vs := by
      unfold vars
      rw [cmdsOf, List.filterMap_append, List.filterMap_append, List.filterMap_append, List.filterMap_append, List.filterMap_append,
        fm_nil (f := Cmd.vars) (l := (sortNames P).map _) (by intro c hc; simp only [List.mem_map] at hc; obtain ⟨_, _, rfl⟩ := hc; rfl),
        fm_map (f := Cmd.vars) (fun v : List Char × D => Cmd.var v.1 v.2) id (fun _ => rfl),
        fm_nil (f := Cmd.vars) (l := gs.map _) (by intro c hc; simp only [List.mem_map] at hc; obtain ⟨_, _, rfl⟩ := hc; rfl),
        fm_nil (f := Cmd.vars) (l := ts.map _) (by intro c hc; simp only [List.mem_map] at hc; obtain ⟨_, _, rfl⟩ := hc; rfl)]
      simp [Cmd.vars, List.filterMap_cons]
    have ea : assertions (cmdsOf P vs gs ts) = ts.map fun t => (t, none, none) := by
      unfold assertions
      rw [cmdsOf, List.filterMap_append, List.filterMap_append, List.filterMap_append, List.filterMap_append, List.filterMap_append,
        fm_nil (f := Cmd.assertion) (l := (sortNames P).map _) (by intro c hc; simp only [List.mem_map] at hc; obtain ⟨_, _, rfl⟩ := hc; rfl),
        fm_nil (f := Cmd.assertion) (l := vs.map _) (by intro c hc; simp only [List.mem_map] at hc; obtain ⟨_, _, rfl⟩ := hc; rfl),
        fm_nil (f := Cmd.assertion) (l := gs.map _) (by intro c hc; simp only [List.mem_map] at hc; obtain ⟨_, _, rfl⟩ := hc; rfl),
        fm_map (f := Cmd.assertion) (fun t : T D => Cmd.assert t none none) (fun t => (t, none, none)) (fun _ => rfl)]
      simp [Cmd.assertion, List.filterMap_cons]
    have ef : functions (cmdsOf P vs gs ts) = gs := by
      unfold functions
      simp only [cmdsOf, List.flatMap_append]
      have n1 : ((sortNames P).map fun n => Cmd.sort n (.named n)).flatMap Cmd.fn = [] := by
        rw [List.flatMap_eq_nil_iff]; intro c hc; simp only [List.mem_map] at hc; obtain ⟨_, _, rfl⟩ := hc; rfl
      have n2 : (vs.map fun v => Cmd.var v.1 v.2).flatMap Cmd.fn = [] := by
        rw [List.flatMap_eq_nil_iff]; intro c hc; simp only [List.mem_map] at hc; obtain ⟨_, _, rfl⟩ := hc; rfl
      have n3 : (ts.map fun t => Cmd.assert t none none).flatMap Cmd.fn = [] := by
        rw [List.flatMap_eq_nil_iff]; intro c hc; simp only [List.mem_map] at hc; obtain ⟨_, _, rfl⟩ := hc; rfl
      have n4 : (gs.map fun g => Cmd.fns [g]).flatMap Cmd.fn = gs := by
        clear hg hr e1 ev ea n1 n2 n3
        induction gs with
        | nil => rfl
        | cons g gs ih => rw [List.map_cons, List.flatMap_cons, ih]; rfl
      rw [n1, n2, n3, n4]
      simp [Cmd.fn]
    have names : ∀ {before : List (List Char)} {st st' : M.State} {gs : List (List Char × Fn D)} {ns : List N}, Wrotes M J before st gs ns st' →
        fnNames gs = ns.map N.name := by
      intro before st st' gs ns hw
      induction hw with
      | nil => rfl
      | cons h1 _ ih =>
        simp only [fnNames, List.map_cons] at ih ⊢
        rw [ih]
        cases h1 <;> rfl
    constructor
    · rw [hr.logic]
      unfold logicOf
      rw [e1 Cmd.logics (fun _ => rfl) (fun _ _ => rfl) (fun _ => rfl) (fun _ => rfl)]
      rfl
    · rw [hr.vars, ev, hv]
    · rw [hr.fnames, ef, names hg]
    · refine ⟨st, st', sames_of_wrotes hg ?_, ?_⟩
      · have := hr.funs
        rw [ef] at this
        exact this
      · have := hr.asserts
        rw [ea] at this
        have e : (s.asserts.map fun t => t.map sortOf) = ts.map fun t => t.map some := by simpa [List.map_map, Function.comp_def] using this
        rw [e]
        exact ht
    · have := hr.soft
      unfold softs at this
      rw [e1 Cmd.softs (fun _ => rfl) (fun _ _ => rfl) (fun _ => rfl) (fun _ => rfl)] at this
      simpa [Cmd.softs, List.filterMap_cons] using this
    · have := hr.objs
      unfold goals at this
      rw [e1 Cmd.goals (fun _ => rfl) (fun _ _ => rfl) (fun _ => rfl) (fun _ => rfl)] at this
      simp only [Cmd.goals, List.filterMap_cons, List.filterMap_nil, List.append_nil] at this
      cases ho : s.objs with
      | nil => rfl
      | cons o os => rw [ho] at this; cases this
  obtain ⟨text, vs, gs, ts, k, h1, h2, h3, h4, st, st', h5, h6⟩ := dump_script false h
  obtain ⟨text', vs', gs', ts', k', h1', h2', h3', h4', st2, st2', h5', h6'⟩ := dump_script true h
  have ht : text' = text := by
    have a := h1 (max k k') (by omega)
    rw [h1' (max k k') (by omega)] at a
    injection a
  subst ht
  obtain ⟨s, k1, r1, r2⟩ := str_recorded_partial pres h2 h3
  obtain ⟨s', k2, q1, q2⟩ := file_recorded_partial pres h3'
  exact ⟨text', s, s', max k (max k1 k2), fun m hm => h1 m (by omega), fun m hm => r2 m (by omega), key r1 h4 h5 h6, fun m hm => q2 m (by omega),
    key q1 h4' h5' h6'⟩

/-! ## The two modes -/

/-- lets are expanded (`parsing_preserve_let` off), or there are none -/
def plainMode : Mode where
  State := Unit
  start := ()
  Ok I decl sc _ n _ := Made I decl sc n
  read I sc _ t := (build I sc t).bind fun n => .ok (n, ())
  back := by
    intro I decl sc st st' n hI h
    obtain ⟨x, t, h1, h2, h3, h4, h5⟩ := view_made hI h
    exact ⟨x, t, h1, h2, h3, by rw [h4]; exact List.nodup_nil, by rw [h5]; rfl⟩

/-- lets are kept (`parsing_preserve_let`, the default); a new parser has read no let (`src/base_parser.cpp:42`) -/
def keepMode : Mode where
  State := LSt
  start := ⟨0, []⟩
  Ok I decl sc st n st' := ∃ xs : List (List Char), xs.Nodup ∧ MadeP I decl false sc st n st' xs
  read I sc st t := buildP I false sc st t
  back := by
    intro I decl sc st st' n hI h
    obtain ⟨xs, hx, h⟩ := h
    obtain ⟨x, t, pr, h1, h2, h3, h4, h5, h6, _⟩ := viewP_made hI h
    refine ⟨x, t, h1, h2, h3, by rw [h4]; exact hx, ?_⟩
    unfold buildP
    rw [h5]
    simp only [Res.ok_bind, Res.pure_eq, h6]

/-- **C67, the problem that is written is the problem that is read back.**  For every problem, with any number of sorts, variables, functions
and assertions of any size: `dumpSMT2` ends, a new parser accepts its text, from a string or from a file, and has the same logic, the same
variables with their sorts, the same functions with their parameters, results and bodies, and the same assertions, in their order. -/
theorem dump_round_trip_partial (pres : Bool) (h : ProgOk plainMode J P) : ∃ (text : List Char) (s s' : S) (k : Nat),
    (∀ m, k ≤ m → dumpSMT2 m P = .ok text) ∧
    (∀ m, k ≤ m → parseStr ⟨false, pres⟩ m fresh text = .ok s) ∧ Same plainMode J P s ∧
    (∀ m, k ≤ m → parseFile pres m fresh text = .ok s') ∧ Same plainMode J P s' := dump_round_trip_mode pres h

/-- **C67, with lets**: in the default mode, a problem with lets in its functions and assertions, the names bound in each expression being
pairwise different, is written and read back by a new parser as the same problem: the same nodes, with the same let variables, when the lets of the
problem are numbered in the order of the text. -/
theorem dump_lets_partial (h : ProgOk keepMode J P) : ∃ (text : List Char) (s s' : S) (k : Nat),
    (∀ m, k ≤ m → dumpSMT2 m P = .ok text) ∧
    (∀ m, k ≤ m → parseStr ⟨false, true⟩ m fresh text = .ok s) ∧ Same keepMode J P s ∧
    (∀ m, k ≤ m → parseFile true m fresh text = .ok s') ∧ Same keepMode J P s' := dump_round_trip_mode true h

end SMT.Dump
