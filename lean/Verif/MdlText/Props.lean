import Verif.MdlText.Model
import Verif.Script.Reject
import Verif.Parse.Round

/-!
# The text of a model is read as the model (C68)
-/

namespace SMT.MdlText
open SMT SMT.Text SMT.Lex SMT.Sorts SMT.Parse SMT.Script

set_option linter.unusedSimpArgs false
set_option linter.unusedVariables false

/-! ## Specification -/

/-- what a text defines -/
inductive Defn where
  /-- the value of a variable -/
  | var (n : List Char) (d : D) (e : T D)
  /-- a function with parameters, whose body is not looked at -/
  | fn (n : List Char) (ps : List D) (d : D)
  /-- something else -/
  | other

/-- the name that is read: a symbol that starts with a digit is put in bars -/
def nameOf (a : List Char) : List Char :=
  match a.head? with
  | some c => if '0' ≤ c ∧ c ≤ '9' then '|' :: (a ++ ['|']) else a
  | none => a

/-- the S-expression is the definition -/
inductive IsDef (decl : Decl) : Sexp → Defn → Prop where
  /-- `(define-fun n () S e)` -/
  | var {n y d x e} : SortOf decl y d → Script.Term decl x e →
      IsDef decl (.list [.atom cs!"define-fun", .atom n, .list [], y, x]) (.var (nameOf n) d e)
  /-- `(define-fun n ((x S) ...) S ...)` -/
  | fn {n ps vs y d xs} : Vars decl ps vs → vs ≠ [] → SortOf decl y d →
      IsDef decl (.list (.atom cs!"define-fun" :: .atom n :: .list ps :: y :: xs)) (.fn (nameOf n) (vs.map fun v => v.2) d)
  /-- `(declare-fun ...)` and the like -/
  | other {h xs} : h ≠ cs!"define-fun" → IsDef decl (.list (.atom h :: xs)) .other

/-- a list of definitions -/
inductive AreDefs (decl : Decl) : List Sexp → List Defn → Prop where
  | nil : AreDefs decl [] []
  | cons {x xs d ds} : IsDef decl x d → AreDefs decl xs ds → AreDefs decl (x :: xs) (d :: ds)

/-- the text is the S-expressions in parentheses, with or without `model`; anything may follow -/
inductive Wrapped (xs : List Sexp) : List Char → Prop where
  | plain {g tx r} : Skip g → Lay false (.list xs) tx → Wrapped xs (g ++ (tx ++ r))
  | model {g w g' b r} : Skip g → (∀ c ∈ w, c = ' ' ∨ c = '\t' ∨ c = '\n' ∨ c = '\r') → Skip g' → LayL false xs b →
      (∃ c, (g' ++ b).head? = some c ∧ (c = ' ' ∨ c = '\t' ∨ c = '\n' ∨ c = '\r' ∨ c = '(')) →
      Wrapped xs (g ++ ('(' :: (w ++ (cs!"model" ++ (g' ++ (b ++ ')' :: r))))))

/-- the functions of the definitions -/
def Defn.fns : Defn → List (List Char × Fn D)
  | .fn n ps d => [(n, .dec ps d)]
  | _ => []

/-- the values that count: with `only` those of variables that are declared -/
def Defn.value (only : Bool) (known : List (List Char)) : Defn → Option (List Char × D × T D)
  | .var n d e => if only = true ∧ n ∉ known then none else some (n, d, e)
  | _ => none

/-- all of them -/
def values (only : Bool) (known : List (List Char)) (ds : List Defn) : List (List Char × D × T D) := ds.filterMap (Defn.value only known)

/-- the variables that are new, with the sort of their first definition -/
def newVars (known : List (List Char)) : List (List Char × D × T D) → List (List Char × D)
  | [] => []
  | (n, d, _) :: vs => if n ∈ known then newVars known vs else (n, d) :: newVars (known ++ [n]) vs

/-- the variables of a parser -/
def varNames (s : S) : List (List Char) := s.vars.map fun v => v.1

/-- the model has these values: its variables are in the order of their first definition, and the last definition of a variable counts -/
structure Has (m : M) (vs : List (List Char × D × T D)) : Prop where
  names : m.map (fun v => v.1) = (vs.map fun v => v.1).eraseDups
  value : ∀ x, (m.lookup x).map (fun v => v.2.map sortOf) = (vs.reverse.lookup x).map (fun v => v.2.map some)

/-- the parser is left as it was, except for the functions and variables that were declared, and the names given by annotations -/
structure Left (s s' : S) (fs : List (List Char × Fn D)) (vs : List (List Char × D)) : Prop where
  asserts : s'.asserts = s.asserts
  groups : s'.groups = s.groups
  assumptions : s'.assumptions = s.assumptions
  soft : s'.soft = s.soft
  weights : s'.weights = s.weights
  softGroups : s'.softGroups = s.softGroups
  objs : s'.objs = s.objs
  objMap : s'.objMap = s.objMap
  checkSat : s'.checkSat = s.checkSat
  getModel : s'.getModel = s.getModel
  getObjectives : s'.getObjectives = s.getObjectives
  logic : s'.logic = s.logic
  rest : s'.p.lex.rest = s.p.lex.rest
  funs : ∃ gs, s'.funs = s.funs ++ gs ∧ gs.map (fun f => (f.1, f.2.map sortOf)) = fs.map fun f => (f.1, f.2.map some)
  fnames : s'.fnames = s.fnames ++ fs.map fun f => f.1
  vars : ∃ us, s'.vars = s.vars ++ us ∧ us.map (fun v => (v.1, sortOf v.2)) = vs.map fun v => (v.1, some v.2)

/-! ## Names and parentheses -/

theorem symName_at {cfg : Cfg} {a : List Char} {xs : List Sexp} {b : List Char} (h : LayL cfg.file (.atom a :: xs) b) (p : P) (l : Nat)
    (r : List Char) : ∃ b' l', LayL cfg.file xs b' ∧ symName cfg (p.at l (b ++ ')' :: r)) = .ok (nameOf a, p.at l' (b' ++ ')' :: r)) ∧
      l' + nls b' = l + nls b := by
  obtain ⟨b', l', h1, h2, h3, ht, h5⟩ := word_at h p l r
  obtain ⟨c, w, rfl, hc, n1, n2⟩ := ht.head
  refine ⟨b', l', h1, ?_, h3⟩
  simp only [P.cur, List.head?_cons] at h5
  unfold symName
  split
  · rename_i s e
    rw [e] at h5
    simp only [List.head?_cons, Option.some.injEq] at h5
    exact absurd h5.symm n1
  · rw [h2]
    have e1 : c ≠ ';' := hc.2.2
    simp only [Res.ok_bind, Res.pure_eq, oddStart, nameOf, List.head?_cons, n2, e1]
    simp

theorem blanks_at (p : P) (l : Nat) {c : Char} (s : List Char) (h : Start c) : blanks (p.at l (c :: s)) = p.at l (c :: s) := by
  have hw : isWs4 c = false := by
    obtain ⟨h1, h2, _⟩ := h
    simp only [isBlank, isNl, Bool.or_eq_false_iff, beq_eq_false_iff_ne] at h1 h2
    simp [isWs4, h1, h2]
  unfold blanks
  have := at_rest p l s h
  have e : wsGo (p.at l (c :: s)).lex.line (p.at l (c :: s)).lex.rest = (c :: s, l) := by
    rw [this]
    simp [wsGo, hw]
  rw [e]
  unfold P.at
  rw [scan_word l s h.1 h.2.1 h.2.2]

/-! ## The first pass -/

theorem lookup_none {α : Type} {n : List Char} {fs : List (List Char × α)} (h : n ∉ fs.map fun f => f.1) : fs.lookup n = none := by
  rw [List.lookup_eq_none_iff]
  intro p hp
  have : n ≠ p.1 := by
    rintro rfl
    exact h (List.mem_map_of_mem hp)
  simpa using this

theorem item1_reads {pres : Bool} {cs : List Cmd} {x : Sexp} {d : Defn} (hd : IsDef (sorts cs) x d) {xs : List Sexp} {b : List Char}
    (hl : LayL false (x :: xs) b) {s : S} (hc : Clean ⟨false, pres⟩ cs s.p) (hn : ∀ f ∈ d.fns, f.1 ∉ s.funs.map (fun f => f.1) ∧ f.1 ∉ s.fnames)
    (l : Nat) (r : List Char) : ∃ (q : P) (gs : List (List Char × Fn Srt)) (k : Nat) (b' : List Char) (l' : Nat), Clean ⟨false, pres⟩ cs q ∧
      gs.map (fun f => (f.1, f.2.map sortOf)) = d.fns.map (fun f => (f.1, f.2.map some)) ∧ LayL false xs b' ∧
      ∀ m, k ≤ m → item1 ⟨false, pres⟩ m { s with p := s.p.at l (b ++ ')' :: r) } =
        .ok { s with p := q.at l' (b' ++ ')' :: r), funs := s.funs ++ gs, fnames := s.fnames ++ d.fns.map fun f => f.1 } := by
  cases hd with
  | @other h ys hne =>
    obtain ⟨b1, l1, r1, b2, l2, e1, e2, e3, e4, e5, _⟩ := list_at (cfg := ⟨false, pres⟩) hl s.p l r
    obtain ⟨b3, l3, f1, f2, f3, _, _⟩ := word_at (cfg := ⟨false, pres⟩) e1 s.p l1 r1
    refine ⟨s.p, [], 0, b2, l2, hc, rfl, e2, fun m _ => ?_⟩
    have h4 := skip_rest (cfg := ⟨false, pres⟩) f1 s.p l3 r1
    rw [f3, e4] at h4
    unfold item1
    simp only [e3, f2, Res.ok_bind, hne, ne_eq, not_false_eq_true, if_true, leave, h4, Res.pure_eq]
    simp [Defn.fns]
  | @var n y d x e hy hx =>
    obtain ⟨b1, l1, r1, b2, l2, e1, e2, e3, e4, e5, _⟩ := list_at (cfg := ⟨false, pres⟩) hl s.p l r
    obtain ⟨b3, l3, f1, f2, f3, _, _⟩ := word_at (cfg := ⟨false, pres⟩) e1 s.p l1 r1
    obtain ⟨b4, l4, g1, g2, g3⟩ := symName_at (cfg := ⟨false, pres⟩) f1 s.p l3 r1
    obtain ⟨b5, l5, r5, b6, l6, i1, i2, i3, i4, i5, _⟩ := list_at (cfg := ⟨false, pres⟩) g1 s.p l4 r1
    obtain ⟨us, q0, k0, v1, v2, v3⟩ := vars_at .nil hc i1 l5 r5
    obtain ⟨so, q1, k1, b7, l7, _, j1, j2, j3, j4, j5⟩ := sort_at v2 hy i2 l6 r1
    have hu : us = [] := by simpa using v1
    subst hu
    refine ⟨q1, [], k0 + k1, b2, l2, j2, rfl, e2, fun m hm => ?_⟩
    have h4 := skip_rest (cfg := ⟨false, pres⟩) j3 q1 l7 r1
    rw [show l7 + nls b7 = l1 + nls b1 by omega, e4] at h4
    unfold item1
    simp only [e3, f2, Res.ok_bind, ne_eq, not_true_eq_false, if_false, g2, i3, v3 m (by omega), rpar_at, i4, j5 m (by omega), declare, if_true,
      leave, h4, Res.pure_eq]
    simp [Defn.fns]
  | @fn n ps vs y d ys hv hne hy =>
    obtain ⟨b1, l1, r1, b2, l2, e1, e2, e3, e4, e5, _⟩ := list_at (cfg := ⟨false, pres⟩) hl s.p l r
    obtain ⟨b3, l3, f1, f2, f3, _, _⟩ := word_at (cfg := ⟨false, pres⟩) e1 s.p l1 r1
    obtain ⟨b4, l4, g1, g2, g3⟩ := symName_at (cfg := ⟨false, pres⟩) f1 s.p l3 r1
    obtain ⟨b5, l5, r5, b6, l6, i1, i2, i3, i4, i5, _⟩ := list_at (cfg := ⟨false, pres⟩) g1 s.p l4 r1
    obtain ⟨us, q0, k0, v1, v2, v3⟩ := vars_at hv hc i1 l5 r5
    obtain ⟨so, q1, k1, b7, l7, _, j1, j2, j3, j4, j5⟩ := sort_at v2 hy i2 l6 r1
    have hu : us ≠ [] := by
      rintro rfl
      have : vs = [] := by simpa using v1.symm
      exact hne this
    obtain ⟨n1, n2⟩ := hn (nameOf n, .dec (vs.map fun v => v.2) d) (by simp [Defn.fns])
    refine ⟨q1, [(nameOf n, .dec (us.map fun v => v.2) so)], k0 + k1, b2, l2, j2, ?_, e2, fun m hm => ?_⟩
    · have := congrArg (List.map fun v => v.2) v1
      simp only [List.map_map, Function.comp_def] at this
      simp only [Defn.fns, List.map_cons, List.map_nil, Fn.map, List.map_map, Function.comp_def, j1, this]
    have h4 := skip_rest (cfg := ⟨false, pres⟩) j3 q1 l7 r1
    rw [show l7 + nls b7 = l1 + nls b1 by omega, e4] at h4
    unfold item1
    simp only [e3, f2, Res.ok_bind, ne_eq, not_true_eq_false, if_false, g2, i3, v3 m (by omega), rpar_at, i4, j5 m (by omega), declare, hu,
      leave, h4, Res.pure_eq, mkFuncDec, lookup_none n1, n2]
    simp [Defn.fns]

/-- the functions of a list of definitions -/
def fnsOf (ds : List Defn) : List (List Char × Fn D) := ds.flatMap Defn.fns

/-- the functions have names that are new and all different -/
def NewFns (s : S) (ds : List Defn) : Prop :=
  ((fnsOf ds).map fun f => f.1).Nodup ∧ ∀ f ∈ fnsOf ds, f.1 ∉ s.funs.map (fun f => f.1) ∧ f.1 ∉ s.fnames

theorem defs_cur {pres : Bool} {decl : Decl} {x : Sexp} {d : Defn} (hd : IsDef decl x d) {xs : List Sexp} {b : List Char}
    (hl : LayL false (x :: xs) b) (p : P) (l : Nat) (r : List Char) :
    blanks (p.at l (b ++ ')' :: r)) = p.at l (b ++ ')' :: r) ∧ (p.at l (b ++ ')' :: r)).cur = some '(' := by
  obtain ⟨tx, b', g, h1, h2, h3, _, h5, _, _, h8, _⟩ := part_at (cfg := ⟨false, pres⟩) hl p l r
  have hx : ∃ ys, x = .list ys := by cases hd <;> exact ⟨_, rfl⟩
  refine ⟨?_, h8.2 hx⟩
  rw [h5]
  obtain ⟨c, w, rfl, hc, _⟩ := h1.head
  exact blanks_at p l _ hc

theorem pass1_reads {pres : Bool} {cs : List Cmd} {xs : List Sexp} {ds : List Defn} (hd : AreDefs (sorts cs) xs ds) : ∀ {b : List Char} {s : S},
    LayL false xs b → Clean ⟨false, pres⟩ cs s.p → NewFns s ds → ∀ (l : Nat) (r : List Char),
    ∃ (q : P) (gs : List (List Char × Fn Srt)) (k : Nat), Clean ⟨false, pres⟩ cs q ∧ q.lex.mode = .symbol ∧
      gs.map (fun f => (f.1, f.2.map sortOf)) = (fnsOf ds).map (fun f => (f.1, f.2.map some)) ∧
      ∀ m, k ≤ m → pass1 ⟨false, pres⟩ m { s with p := s.p.at l (b ++ ')' :: r) } =
        .ok (false, { s with p := q, funs := s.funs ++ gs, fnames := s.fnames ++ (fnsOf ds).map fun f => f.1 }) := by
  induction hd with
  | nil =>
    intro b s hl hc hn l r
    refine ⟨s.p.at l (b ++ ')' :: r), [], 1, ⟨hc.good, hc.keys, hc.depth, hc.ph, hc.bound⟩, ?_, rfl, fun m hm => ?_⟩
    · cases hl.nil_inv
      rw [List.nil_append, at_rest s.p l r start_rp]
      rfl
    obtain ⟨m, rfl⟩ : ∃ n, m = n + 1 := ⟨m - 1, by omega⟩
    cases hl.nil_inv
    rw [pass1]
    simp only [List.nil_append, blanks_at s.p l r start_rp, cur_at s.p l r start_rp]
    simp [fnsOf]
  | @cons x xs d ds hx _ ih =>
    intro b s hl hc hn l r
    obtain ⟨q, gs, k, b', l', i1, i2, i3, i4⟩ := item1_reads hx hl hc (fun f hf => hn.2 f (by simp [fnsOf, hf])) l r
    have hgn : gs.map (fun f => f.1) = d.fns.map fun f => f.1 := by
      have := congrArg (List.map fun v => v.1) i2
      simpa only [List.map_map, Function.comp_def] using this
    have hn' : NewFns { s with p := q, funs := s.funs ++ gs, fnames := s.fnames ++ d.fns.map fun f => f.1 } ds := by
      obtain ⟨h1, h2⟩ := hn
      simp only [fnsOf, List.flatMap_cons, List.map_append] at h1 h2
      rw [List.nodup_append] at h1
      refine ⟨h1.2.1, fun f hf => ?_⟩
      have h3 : f.1 ∉ d.fns.map fun f => f.1 := fun hm => h1.2.2 _ hm _ (List.mem_map_of_mem hf) rfl
      have h4 := h2 f (List.mem_append.2 (.inr hf))
      simp only [List.map_append, List.mem_append, not_or, hgn]
      exact ⟨⟨h4.1, h3⟩, h4.2, h3⟩
    obtain ⟨q2, gs2, k2, j1, j0, j2, j3⟩ := ih (s := { s with p := q, funs := s.funs ++ gs, fnames := s.fnames ++ d.fns.map fun f => f.1 }) i3 i1 hn' l' r
    refine ⟨q2, gs ++ gs2, k + k2 + 1, j1, j0, ?_, fun m hm => ?_⟩
    · simpa [fnsOf, i2] using j2
    · obtain ⟨m, rfl⟩ : ∃ n, m = n + 1 := ⟨m - 1, by omega⟩
      obtain ⟨e1, e2⟩ := defs_cur (pres := pres) hx hl s.p l r
      rw [pass1]
      simp only [e1, e2, ne_eq, not_true_eq_false, if_false, i4 m (by omega)]
      rw [j3 m (by omega)]
      simp [fnsOf]

/-! ## The second pass -/

/-- what one value does -/
def after (s : S × M) (v : List Char × Srt × T Srt) : S × M :=
  ((s.1.var v.1 v.2.1).note v.2.2, put v.1 (((s.1.var v.1 v.2.1).vars.lookup v.1).getD v.2.1) v.2.2 s.2)

/-- what is read is what is meant -/
def Match (vs : List (List Char × Srt × T Srt)) (us : List (List Char × D × T D)) : Prop :=
  vs.map (fun v => (v.1, sortOf v.2.1, v.2.2.map sortOf)) = us.map fun v => (v.1, some v.2.1, v.2.2.map some)

theorem known_iff (s : S) (n : List Char) : s.vars.lookup n = none ↔ n ∉ varNames s := by
  constructor
  · intro h hm
    obtain ⟨v, hv, rfl⟩ := List.mem_map.1 hm
    have := List.lookup_eq_none_iff.1 h v hv
    simp at this
  · exact lookup_none

theorem var_p (s : S) (q : P) (n : List Char) (so : Srt) : ({ s with p := q } : S).var n so = { s.var n so with p := q } := by
  unfold S.var
  simp only
  split <;> rfl

theorem item2_reads {pres only : Bool} {cs : List Cmd} {x : Sexp} {d : Defn} (hd : IsDef (sorts cs) x d) {xs : List Sexp} {b : List Char}
    (hl : LayL false (x :: xs) b) {s : S} (hc : Clean ⟨false, pres⟩ cs s.p) (mm : M)
    (l : Nat) (r : List Char) : ∃ (q : P) (vs : List (List Char × Srt × T Srt)) (k : Nat) (b' : List Char) (l' : Nat), Clean ⟨false, pres⟩ cs q ∧
      Match vs (values only (varNames s) [d]) ∧ LayL false xs b' ∧
      ∀ m, k ≤ m → item2 ⟨false, pres⟩ m only { s with p := s.p.at l (b ++ ')' :: r) } mm =
        .ok (false, { (vs.foldl after (s, mm)).1 with p := q.at l' (b' ++ ')' :: r) }, (vs.foldl after (s, mm)).2) := by
  cases hd with
  | @other h ys hne =>
    obtain ⟨b1, l1, r1, b2, l2, e1, e2, e3, e4, e5, _⟩ := list_at (cfg := ⟨false, pres⟩) hl s.p l r
    obtain ⟨b3, l3, f1, f2, f3, _, _⟩ := word_at (cfg := ⟨false, pres⟩) e1 s.p l1 r1
    refine ⟨s.p, [], 0, b2, l2, hc, rfl, e2, fun m _ => ?_⟩
    have h4 := skip_rest (cfg := ⟨false, pres⟩) f1 s.p l3 r1
    rw [f3, e4] at h4
    unfold item2
    simp only [e3, f2, Res.ok_bind, hne, ne_eq, not_false_eq_true, if_true, leave, h4, Res.pure_eq]
    simp
  | @var n y d x e hy hx =>
    obtain ⟨b1, l1, r1, b2, l2, e1, e2, e3, e4, e5, _⟩ := list_at (cfg := ⟨false, pres⟩) hl s.p l r
    obtain ⟨b3, l3, f1, f2, f3, _, _⟩ := word_at (cfg := ⟨false, pres⟩) e1 s.p l1 r1
    obtain ⟨b4, l4, g1, g2, g3⟩ := symName_at (cfg := ⟨false, pres⟩) f1 s.p l3 r1
    obtain ⟨b5, l5, r5, b6, l6, i1, i2, i3, i4, i5, _⟩ := list_at (cfg := ⟨false, pres⟩) g1 s.p l4 r1
    obtain ⟨us, q0, k0, v1, v2, v3⟩ := vars_at .nil hc i1 l5 r5
    obtain ⟨so, q1, k1, b7, l7, _, j1, j2, j3, j4, j5⟩ := sort_at v2 hy i2 l6 r1
    have hu : us = [] := by simpa using v1
    subst hu
    by_cases ho : only = true ∧ nameOf n ∉ varNames s
    · refine ⟨q1, [], k0 + k1, b2, l2, j2, ?_, e2, fun m hm => ?_⟩
      · simp [Match, values, Defn.value, ho]
      have h4 := skip_rest (cfg := ⟨false, pres⟩) j3 q1 l7 r1
      rw [show l7 + nls b7 = l1 + nls b1 by omega, e4] at h4
      unfold item2
      simp only [e3, f2, Res.ok_bind, ne_eq, not_true_eq_false, if_false, g2, i3, v3 m (by omega), rpar_at, i4, j5 m (by omega), known_iff, ho,
        not_false_eq_true, and_self, if_true, leave, h4, Res.pure_eq]
      simp
    · obtain ⟨t, q2, k2, b8, l8, t1, t2, t3, t4, t5⟩ := term_at j2 hx j3 l7 r1
      refine ⟨q2, [(nameOf n, so, t)], k0 + k1 + k2, b2, l2, t2, ?_, e2, fun m hm => ?_⟩
      · have hv : values only (varNames s) [.var (nameOf n) d e] = [(nameOf n, d, e)] := by
          simp only [values, List.filterMap_cons, List.filterMap_nil, Defn.value, if_neg ho]
        rw [hv]
        simp only [Match, List.map_cons, List.map_nil, j1]
        simp only [Same] at t1
        rw [t1]
      cases t3.nil_inv
      unfold item2
      simp only [e3, f2, Res.ok_bind, ne_eq, not_true_eq_false, if_false, g2, i3, v3 m (by omega), rpar_at, i4, j5 m (by omega), known_iff, ho,
        t5 m (by omega), Res.pure_eq, List.nil_append]
      have h5 : q2.at l8 r1 = q2.at l2 (b2 ++ ')' :: r) := by
        have := e4 q2
        rwa [show l1 + nls b1 = l8 by simp at t4; omega] at this
      rw [h5, var_p]
      rfl
  | @fn n ps vs y d ys hv hne hy =>
    obtain ⟨b1, l1, r1, b2, l2, e1, e2, e3, e4, e5, _⟩ := list_at (cfg := ⟨false, pres⟩) hl s.p l r
    obtain ⟨b3, l3, f1, f2, f3, _, _⟩ := word_at (cfg := ⟨false, pres⟩) e1 s.p l1 r1
    obtain ⟨b4, l4, g1, g2, g3⟩ := symName_at (cfg := ⟨false, pres⟩) f1 s.p l3 r1
    obtain ⟨b5, l5, r5, b6, l6, i1, i2, i3, i4, i5, _⟩ := list_at (cfg := ⟨false, pres⟩) g1 s.p l4 r1
    obtain ⟨us, q0, k0, v1, v2, v3⟩ := vars_at hv hc i1 l5 r5
    have hu : us ≠ [] := by
      rintro rfl
      have : vs = [] := by simpa using v1.symm
      exact hne this
    refine ⟨q0, [], k0, b2, l2, v2, rfl, e2, fun m hm => ?_⟩
    have h4 := skip_rest (cfg := ⟨false, pres⟩) i2 q0 l6 r1
    rw [show l6 + nls b6 = l1 + nls b1 by omega, e4] at h4
    unfold item2
    simp only [e3, f2, Res.ok_bind, ne_eq, not_true_eq_false, if_false, g2, i3, v3 m (by omega), rpar_at, i4, hu, not_false_eq_true, if_true,
      leave, h4, Res.pure_eq]
    simp

theorem var_names (s : S) (n : List Char) (so : Srt) : varNames (s.var n so) = if n ∈ varNames s then varNames s else varNames s ++ [n] := by
  unfold S.var
  by_cases h : n ∈ varNames s
  · cases h2 : s.vars.lookup n with
    | none => exact absurd h ((known_iff s n).1 h2)
    | some _ => simp [h]
  · rw [(known_iff s n).2 h, if_neg h]
    simp [varNames]

theorem values_known (only : Bool) {a b : List (List Char)} (h : only = true → a = b) (ds : List Defn) : values only a ds = values only b ds := by
  cases only with
  | true => rw [h rfl]
  | false =>
    have : Defn.value false a = Defn.value false b := by
      funext d
      cases d <;> simp [Defn.value]
    simp only [values, this]

theorem after_names (vs : List (List Char × Srt × T Srt)) : ∀ (s : S) (mm : M), (∀ v ∈ vs, v.1 ∈ varNames s) →
    varNames (vs.foldl after (s, mm)).1 = varNames s := by
  induction vs with
  | nil => intros; rfl
  | cons v vs ih =>
    intro s mm h
    have h1 : varNames (after (s, mm) v).1 = varNames s := by
      have : varNames ((s.var v.1 v.2.1).note v.2.2) = varNames (s.var v.1 v.2.1) := rfl
      show varNames ((s.var v.1 v.2.1).note v.2.2) = _
      rw [this, var_names, if_pos (h v (by simp))]
    simp only [List.foldl_cons]
    have := ih (after (s, mm) v).1 (after (s, mm) v).2 (by rw [h1]; exact fun w hw => h w (by simp [hw]))
    rw [h1] at this
    exact this

theorem Match.names {vs : List (List Char × Srt × T Srt)} {us : List (List Char × D × T D)} (h : Match vs us) :
    vs.map (fun v => v.1) = us.map fun v => v.1 := by
  have := congrArg (List.map fun v => v.1) h
  simpa only [List.map_map, Function.comp_def] using this

theorem value_known {only : Bool} {a : List (List Char)} {ds : List Defn} (h : only = true) : ∀ v ∈ values only a ds, v.1 ∈ a := by
  intro v hv
  obtain ⟨d, _, h2⟩ := List.mem_filterMap.1 hv
  subst h
  cases d with
  | var n d e =>
    simp only [Defn.value, true_and] at h2
    split at h2
    · cases h2
    · rename_i h3
      injection h2 with h2
      subst h2
      exact Classical.not_not.1 h3
  | fn _ _ _ => cases h2
  | other => cases h2

theorem pass2_reads {pres only : Bool} {cs : List Cmd} {xs : List Sexp} {ds : List Defn} (hd : AreDefs (sorts cs) xs ds) : ∀ {b : List Char} {s : S}
    (mm : M), LayL false xs b → Clean ⟨false, pres⟩ cs s.p → ∀ (l : Nat) (r : List Char),
    ∃ (q : P) (vs : List (List Char × Srt × T Srt)) (k : Nat), Clean ⟨false, pres⟩ cs q ∧ Match vs (values only (varNames s) ds) ∧
      ∀ m, k ≤ m → pass2 ⟨false, pres⟩ only m { s with p := s.p.at l (b ++ ')' :: r) } mm =
        .ok ({ (vs.foldl after (s, mm)).1 with p := q }, (vs.foldl after (s, mm)).2) := by
  induction hd with
  | nil =>
    intro b s mm hl hc l r
    refine ⟨s.p.at l (b ++ ')' :: r), [], 1, ⟨hc.good, hc.keys, hc.depth, hc.ph, hc.bound⟩, rfl, fun m hm => ?_⟩
    obtain ⟨m, rfl⟩ : ∃ n, m = n + 1 := ⟨m - 1, by omega⟩
    cases hl.nil_inv
    rw [pass2]
    simp only [List.nil_append, blanks_at s.p l r start_rp, cur_at s.p l r start_rp]
    simp
  | @cons x xs d ds hx _ ih =>
    intro b s mm hl hc l r
    obtain ⟨q, vs, k, b', l', i1, i2, i3, i4⟩ := item2_reads (only := only) hx hl hc mm l r
    obtain ⟨q2, vs2, k2, j1, j2, j3⟩ := ih (s := { (vs.foldl after (s, mm)).1 with p := q }) (vs.foldl after (s, mm)).2 i3 i1 l' r
    have hk : only = true → varNames ({ (vs.foldl after (s, mm)).1 with p := q } : S) = varNames s := by
      intro ho
      refine after_names vs s mm fun v hv => ?_
      have h1 : v.1 ∈ (values only (varNames s) [d]).map fun v => v.1 := by
        rw [← i2.names]
        exact List.mem_map_of_mem hv
      obtain ⟨w, hw, e⟩ := List.mem_map.1 h1
      exact e ▸ value_known ho w hw
    rw [values_known only hk] at j2
    refine ⟨q2, vs ++ vs2, k + k2 + 1, j1, ?_, fun m hm => ?_⟩
    · have : values only (varNames s) (d :: ds) = values only (varNames s) [d] ++ values only (varNames s) ds := by
        rw [values, values, values, ← List.filterMap_append]
        rfl
      rw [this]
      simp only [Match, List.map_append] at i2 j2 ⊢
      rw [i2, j2]
    · obtain ⟨m, rfl⟩ : ∃ n, m = n + 1 := ⟨m - 1, by omega⟩
      obtain ⟨e1, e2⟩ := defs_cur (pres := pres) hx hl s.p l r
      rw [pass2]
      simp only [e1, e2, ne_eq, not_true_eq_false, if_false, i4 m (by omega)]
      have hf : ∀ (vs : List (List Char × Srt × T Srt)) (s : S) (mm : M) (q q2 : P),
          ({ (vs.foldl after ({ s with p := q }, mm)).1 with p := q2 } : S) = { (vs.foldl after (s, mm)).1 with p := q2 } ∧
          (vs.foldl after ({ s with p := q }, mm)).2 = (vs.foldl after (s, mm)).2 := by
        intro vs
        induction vs with
        | nil => intros; exact ⟨rfl, rfl⟩
        | cons v vs ih =>
          intro s mm q q2
          have h1 : after ({ s with p := q }, mm) v = ({ (after (s, mm) v).1 with p := q }, (after (s, mm) v).2) := by
            unfold after S.var
            simp only
            split <;> rfl
          simp only [List.foldl_cons, h1]
          exact ih _ _ _ _
      rw [j3 m (by omega)]
      have h2 := hf vs2 (vs.foldl after (s, mm)).1 (vs.foldl after (s, mm)).2 q q2
      rw [h2.1, h2.2, List.foldl_append]

/-! ## The model and the variables -/

theorem put_names (x : List Char) (so : Srt) (t : T Srt) : ∀ m : M,
    (put x so t m).map (fun v => v.1) = if x ∈ m.map (fun v => v.1) then m.map (fun v => v.1) else m.map (fun v => v.1) ++ [x]
  | [] => by simp [put]
  | (y, s', t') :: m => by
    unfold put
    by_cases h : y = x
    · simp [h]
    · have hx : x ≠ y := fun e => h e.symm
      simp only [if_neg h, List.map_cons, put_names x so t m, List.mem_cons, hx, false_or]
      split <;> rfl

theorem put_lookup (x : List Char) (so : Srt) (t : T Srt) (y : List Char) : ∀ m : M,
    ((put x so t m).lookup y).map (fun v => v.2) = if y = x then some t else (m.lookup y).map fun v => v.2
  | [] => by
    by_cases h : y = x
    · simp [put, h]
    · have : (y == x) = false := by simpa using h
      simp [put, List.lookup_cons, this, h]
  | (z, s', t') :: m => by
    unfold put
    by_cases h : z = x
    · subst h
      by_cases h2 : y = z
      · simp [h2]
      · have : (y == z) = false := by simpa using h2
        simp [List.lookup_cons, this, h2]
    · rw [if_neg h, List.lookup_cons, List.lookup_cons]
      by_cases h2 : y = z
      · subst h2
        simp [h]
      · have : (y == z) = false := by simpa using h2
        simp only [this]
        exact put_lookup x so t y m

theorem has_snoc {m : M} {us : List (List Char × D × T D)} (h : Has m us) {t : T Srt} {e : T D} (ht : t.map sortOf = e.map some) (n : List Char)
    (so : Srt) (d : D) : Has (put n so t m) (us ++ [(n, d, e)]) := by
  constructor
  · rw [put_names, h.names, List.map_append, List.eraseDups_append]
    simp only [List.map_cons, List.map_nil, List.mem_eraseDups]
    by_cases hn : n ∈ us.map fun v => v.1
    · have : [n].removeAll (us.map fun v => v.1) = [] := by simp [List.removeAll, hn]
      rw [if_pos hn, this]
      simp
    · have : [n].removeAll (us.map fun v => v.1) = [n] := by simp [List.removeAll, hn]
      rw [if_neg hn, this]
      simp [List.eraseDups_cons]
  · intro x
    have h1 := put_lookup n so t x m
    have h2 : ((put n so t m).lookup x).map (fun v => v.2.map sortOf) = (((put n so t m).lookup x).map fun v => v.2).map (T.map sortOf) := by
      simp [Function.comp_def]
    rw [h2, h1, List.reverse_append, List.reverse_singleton, List.singleton_append, List.lookup_cons]
    by_cases hx : x = n
    · subst hx
      simp [ht]
    · have : (x == n) = false := by simpa using hx
      simp only [this, if_neg hx]
      have := h.value x
      simpa [Function.comp_def] using this

theorem fold_has : ∀ (vs : List (List Char × Srt × T Srt)) (us us0 : List (List Char × D × T D)) (s : S) (m : M), Match vs us → Has m us0 →
    Has (vs.foldl after (s, m)).2 (us0 ++ us)
  | [], us, us0, s, m, h, h0 => by
    have : us = [] := by simpa [Match] using h
    subst this
    simpa using h0
  | (n, so, t) :: vs, us, us0, s, m, h, h0 => by
    cases us with
    | nil => simp [Match] at h
    | cons u us =>
      obtain ⟨n', d, e⟩ := u
      simp only [Match, List.map_cons, List.cons.injEq, Prod.mk.injEq] at h
      obtain ⟨⟨rfl, h1, h2⟩, h3⟩ := h
      have := fold_has vs us (us0 ++ [(n, d, e)]) (after (s, m) (n, so, t)).1 (after (s, m) (n, so, t)).2 h3 (has_snoc h0 h2 n _ d)
      simpa using this

theorem fold_vars : ∀ (vs : List (List Char × Srt × T Srt)) (us : List (List Char × D × T D)) (s : S) (m : M), Match vs us →
    ∃ ws, (vs.foldl after (s, m)).1.vars = s.vars ++ ws ∧
      ws.map (fun v => (v.1, sortOf v.2)) = (newVars (varNames s) us).map fun v => (v.1, some v.2)
  | [], us, s, m, h => by
    have : us = [] := by simpa [Match] using h
    subst this
    exact ⟨[], by simp, rfl⟩
  | (n, so, t) :: vs, us, s, m, h => by
    cases us with
    | nil => simp [Match] at h
    | cons u us =>
      obtain ⟨n', d, e⟩ := u
      simp only [Match, List.map_cons, List.cons.injEq, Prod.mk.injEq] at h
      obtain ⟨⟨rfl, h1, h2⟩, h3⟩ := h
      obtain ⟨ws, e1, e2⟩ := fold_vars vs us (after (s, m) (n, so, t)).1 (after (s, m) (n, so, t)).2 h3
      have hv : varNames (after (s, m) (n, so, t)).1 = if n ∈ varNames s then varNames s else varNames s ++ [n] := var_names s n so
      rw [hv] at e2
      by_cases hn : n ∈ varNames s
      · refine ⟨ws, ?_, ?_⟩
        · simp only [List.foldl_cons]
          have h5 : s.var n so = s := by
            unfold S.var
            cases h6 : s.vars.lookup n with
            | none => exact absurd hn ((known_iff s n).1 h6)
            | some _ => rfl
          have h4 : (after (s, m) (n, so, t)).1.vars = s.vars := by
            show (s.var n so).vars = _
            rw [h5]
          rw [h4] at e1
          exact e1
        · rw [if_pos hn] at e2
          simp only [newVars, if_pos hn]
          exact e2
      · refine ⟨(n, so) :: ws, ?_, ?_⟩
        · simp only [List.foldl_cons]
          have h4 : (after (s, m) (n, so, t)).1.vars = s.vars ++ [(n, so)] := by
            show (s.var n so).vars = _
            unfold S.var
            rw [(known_iff s n).2 hn]
          rw [h4] at e1
          simpa using e1
        · rw [if_neg hn] at e2
          simp only [newVars, if_neg hn, List.map_cons, h1, e2]

/-- the fields that are not changed -/
theorem fold_same : ∀ (vs : List (List Char × Srt × T Srt)) (s : S) (m : M), ∃ ns us p, (vs.foldl after (s, m)).1 =
    { s with named := ns, vars := us, p := p }
  | [], s, m => ⟨_, _, _, rfl⟩
  | v :: vs, s, m => by
    obtain ⟨ns, us, p, h⟩ := fold_same vs (after (s, m) v).1 (after (s, m) v).2
    refine ⟨ns, us, p, ?_⟩
    simp only [List.foldl_cons]
    rw [show vs.foldl after (after (s, m) v) = vs.foldl after ((after (s, m) v).1, (after (s, m) v).2) from rfl, h]
    unfold after S.var S.note
    simp only
    split <;> rfl

/-! ## The theorem -/

theorem isWs4_iff (c : Char) : isWs4 c = true ↔ c = ' ' ∨ c = '\t' ∨ c = '\n' ∨ c = '\r' := by
  simp [isWs4, or_assoc]

theorem dropWs {w : List Char} (h : ∀ c ∈ w, c = ' ' ∨ c = '\t' ∨ c = '\n' ∨ c = '\r') (s : List Char) :
    (w ++ s).dropWhile isWs4 = s.dropWhile isWs4 := by
  induction w with
  | nil => rfl
  | cons c w ih =>
    have := (isWs4_iff c).2 (h c (by simp))
    simp only [List.cons_append, List.dropWhile_cons, this, if_true]
    exact ih fun d hd => h d (by simp [hd])

theorem ws_skip {w : List Char} (h : ∀ c ∈ w, c = ' ' ∨ c = '\t' ∨ c = '\n' ∨ c = '\r') : Skip w := by
  induction w with
  | nil => exact .nil
  | cons c w ih =>
    refine .ws ?_ (ih fun d hd => h d (by simp [hd]))
    rcases h c (by simp) with rfl | rfl | rfl | rfl
    · exact .inl (by decide)
    · exact .inl (by decide)
    · exact .inr (by decide)
    · exact .inr (by decide)

/-- the beginning of the text is read -/
theorem header_reads {pres : Bool} {decl : Decl} {xs : List Sexp} {ds : List Defn} (hd : AreDefs decl xs ds) {text : List Char}
    (h : Wrapped xs text) (p : P) : ∃ b l r, LayL false xs b ∧ header ⟨false, pres⟩ { p with lex := scan 1 text } = .ok (p.at l (b ++ ')' :: r)) := by
  cases h with
  | @plain g tx r hg ht =>
    obtain ⟨b, g', h1, h2, h3, h4⟩ := open_at (cfg := ⟨false, pres⟩) ht p (1 + nls g) r
    refine ⟨b, 1 + nls g + nls g', r, h1, ?_⟩
    have e : ({ p with lex := scan 1 (g ++ (tx ++ r)) } : P) = p.at (1 + nls g) (tx ++ r) := by rw [← at_gap p 1 _ hg]; rfl
    rw [e]
    obtain ⟨g2, b2, rfl, k1, k2⟩ := ht.list_inv
    have hne : isModelHead (g2 ++ (b2 ++ [')']) ++ r) = false := by
      have key : ∀ {g : List Char}, Skip g → ∀ (c : Char) (s : List Char), c = '(' ∨ c = ')' → isModelHead (g ++ c :: s) = false := by
        intro g hg
        induction hg with
        | nil =>
          intro c s hc
          rcases hc with rfl | rfl <;> simp [isModelHead, List.dropWhile_cons, isWs4]
        | @ws c g hc _ ih =>
          intro d s hd
          by_cases h4 : isWs4 c = true
          · have := ih d s hd
            unfold isModelHead at this ⊢
            simp only [List.cons_append, List.dropWhile_cons, h4, if_true]
            exact this
          · unfold isModelHead
            simp only [List.cons_append, List.dropWhile_cons, h4]
            have : c ≠ 'm' := by
              rintro rfl
              rcases hc with hc | hc <;> revert hc <;> decide
            simp only [Bool.false_eq_true, if_false]
            split
            · rename_i e
              injection e with e _
              exact absurd e this
            · rfl
        | comment _ _ _ _ =>
          intro d s hd
          unfold isModelHead
          simp [List.dropWhile_cons, isWs4]
      cases hd with
      | nil =>
        cases k2.nil_inv
        simpa using key k1 ')' r (.inr rfl)
      | cons hx _ =>
        obtain ⟨tx, g3, b3, rfl, m1, _, _, _⟩ := k2.cons_inv
        have : ∃ w, tx = '(' :: w := by
          cases hx <;> (obtain ⟨_, _, e, _⟩ := m1.list_inv; exact ⟨_, e⟩)
        obtain ⟨w, rfl⟩ := this
        simpa using key k1 '(' (w ++ (g3 ++ (b3 ++ (')' :: r)))) (.inl rfl)
    have hr := at_rest p (1 + nls g) (g2 ++ (b2 ++ [')']) ++ r) start_lp
    simp only [List.cons_append] at h3 hr ⊢
    unfold header
    rw [hr]
    simp only [hne]
    exact h3
  | @model g w g' b r hg hw hg' hb hc =>
    refine ⟨b, 1 + nls g + nls w + nls g', r, hb, ?_⟩
    have e : ({ p with lex := scan 1 (g ++ ('(' :: (w ++ (cs!"model" ++ (g' ++ (b ++ ')' :: r)))))) } : P) =
      p.at (1 + nls g) ('(' :: (w ++ (cs!"model" ++ (g' ++ (b ++ ')' :: r))))) := by rw [← at_gap p 1 _ hg]; rfl
    rw [e]
    obtain ⟨c, c1, c2⟩ := hc
    have hm : isModelHead (w ++ (cs!"model" ++ (g' ++ (b ++ ')' :: r)))) = true := by
      unfold isModelHead
      rw [dropWs hw]
      have : ∃ u, g' ++ (b ++ ')' :: r) = c :: u := by
        cases hgb : g' ++ b with
        | nil => rw [hgb] at c1; cases c1
        | cons a u =>
          rw [hgb] at c1
          injection c1 with c1
          subst c1
          exact ⟨u ++ ')' :: r, by rw [← List.append_assoc, hgb]; rfl⟩
      obtain ⟨u, hu⟩ := this
      rw [hu]
      have h5 : isWs4 'm' = false := by decide
      simp only [List.cons_append, List.nil_append, List.dropWhile_cons, h5, Bool.false_eq_true, if_false]
      rcases c2 with h | h | h | h | h <;> subst h <;> decide
    have hr := at_rest p (1 + nls g) (w ++ (cs!"model" ++ (g' ++ (b ++ ')' :: r)))) start_lp
    have hs : sym ⟨false, pres⟩ (p.at (1 + nls g + nls w) (cs!"model" ++ (g' ++ (b ++ ')' :: r)))) =
        .ok (cs!"model", p.at (1 + nls g + nls w) (g' ++ (b ++ ')' :: r))) := by
      have h7 : Tok cs!"model" := plainB_tok (by decide +kernel)
      have := sym_at ⟨false, pres⟩ p (1 + nls g + nls w) (g' ++ (b ++ ')' :: r)) h7 (by
        show SepPlain false _
        cases hgb : g' ++ b with
        | nil => rw [hgb] at c1; cases c1
        | cons a u =>
          rw [hgb] at c1
          injection c1 with c1
          subst c1
          rw [← List.append_assoc, hgb]
          rcases c2 with h | h | h | h | h <;> subst h <;> simp [SepPlain, isBlank, isNl])
      rw [show nls cs!"model" = 0 by decide, Nat.add_zero] at this
      exact this
    unfold header
    rw [hr]
    simp only [hm, if_true, lpar_at, Res.ok_bind]
    rw [at_gap _ _ _ (ws_skip hw), hs]
    simp only [Res.ok_bind, Res.pure_eq]
    rw [at_gap _ _ _ hg']

/-- **C68, a model is read**: for every text that consists of definitions in parentheses, with or without `model`, laid out in any way, the
model that is returned has the values of the text: its variables are in the order of their first definitions, the last definition of a variable
counts, and with `only_declared` only declared variables are in it.  Functions with parameters are declared; the parser is otherwise
left as it was, except that the variables that were not known are declared. -/
theorem model_read {pres only : Bool} {cs : List Cmd} {s : S} (hc : Clean ⟨false, pres⟩ cs s.p) {xs : List Sexp} {ds : List Defn}
    (hd : AreDefs (sorts cs) xs ds) (hn : NewFns s ds) {text : List Char} (hw : Wrapped xs text) :
    ∃ (m : M) (s' : S) (k : Nat), (∀ n, k ≤ n → parseModel pres n only s text = .ok (m, s')) ∧ Has m (values only (varNames s) ds) ∧
      Left s s' (fnsOf ds) (newVars (varNames s) (values only (varNames s) ds)) ∧ Clean ⟨false, pres⟩ cs s'.p := by
  obtain ⟨b, l, r, hb, hh⟩ := header_reads (pres := pres) hd hw s.p
  obtain ⟨q1, gs, k1, a1, a0, a2, a3⟩ := pass1_reads hd hb hc hn l r
  have hlex : ∀ (p : P) (l : Nat), (p.at l (b ++ ')' :: r)).lex = ⟨b ++ ')' :: r, .symbol, l⟩ := by
    intro p l
    have : ∃ w, b ++ ')' :: r = '(' :: w ∨ b ++ ')' :: r = ')' :: w := by
      cases hd with
      | nil =>
        cases hb.nil_inv
        exact ⟨_, .inr rfl⟩
      | cons hx _ =>
        obtain ⟨tx, g3, b3, rfl, m1, _, _, _⟩ := hb.cons_inv
        have : ∃ w, tx = '(' :: w := by
          cases hx <;> (obtain ⟨_, _, e, _⟩ := m1.list_inv; exact ⟨_, e⟩)
        obtain ⟨w, rfl⟩ := this
        exact ⟨_, .inl rfl⟩
    obtain ⟨w, e | e⟩ := this
    · rw [e, at_rest p l w start_lp]; rfl
    · rw [e, at_rest p l w start_rp]; rfl
  generalize hs1 : ({ s with p := q1, funs := s.funs ++ gs, fnames := s.fnames ++ (fnsOf ds).map fun f => f.1 } : S) = s1 at a3
  have hn1 : varNames s1 = varNames s := by subst hs1; rfl
  have hp1 : s1.p = q1 := by subst hs1; rfl
  obtain ⟨q2, vs, k2, b1, b2, b3⟩ := pass2_reads (pres := pres) (only := only) hd (s := s1) [] hb (by rw [hp1]; exact a1) 1 r
  rw [hn1] at b2
  refine ⟨(vs.foldl after (s1, [])).2, restore s.p { (vs.foldl after (s1, [])).1 with p := q2 }, k1 + k2, fun n hk => ?_, ?_, ?_, ?_⟩
  · unfold parseModel
    simp only [hh, Res.ok_bind, a3 n (by omega)]
    have e : ({ s1.p with lex := { s1.p.lex with rest := (s.p.at l (b ++ ')' :: r)).lex.rest, line := 1 } } : P) = s1.p.at 1 (b ++ ')' :: r) := by
      have h1 := hlex s.p l
      have h2 := hlex s1.p 1
      rw [h1]
      unfold P.at at h2 ⊢
      simp only at h2
      rw [h2, hp1, ← a0]
    rw [e, b3 n (by omega)]
    simp
  · have := fold_has vs _ [] s1 [] b2 ⟨rfl, fun x => rfl⟩
    simpa using this
  · obtain ⟨ns, us, p, hf⟩ := fold_same vs s1 []
    obtain ⟨ws, w1, w2⟩ := fold_vars vs _ s1 [] b2
    rw [hn1] at w2
    subst hs1
    refine ⟨?_, ?_, ?_, ?_, ?_, ?_, ?_, ?_, ?_, ?_, ?_, ?_, rfl, ⟨gs, ?_, a2⟩, ?_, ⟨ws, w1, w2⟩⟩ <;> simp [restore, hf]
  · exact ⟨b1.good, b1.keys, b1.depth, b1.ph, b1.bound⟩

/-! ## Names that are not symbols -/

theorem ws_gap {w : List Char} (h : ∀ c ∈ w, isWs c = true) : Skip w := by
  induction w with
  | nil => exact .nil
  | cons c w ih =>
    refine .ws ?_ (ih fun d hd => h d (by simp [hd]))
    have := h c (by simp)
    unfold isWs at this
    rcases Bool.or_eq_true_iff.1 this with h | h
    · exact .inl h
    · exact .inr h

theorem dropGap {w r : List Char} {d : Char} (h : ∀ c ∈ w, isWs c = true) (hd : isWs d = false) :
    (w ++ d :: r).dropWhile isWs = d :: r := by
  induction w with
  | nil => simp [hd]
  | cons c w ih => simp [h c (by simp), ih fun e he => h e (by simp [he])]

theorem rawName_exact {w r : List Char} {d : Char} (hw : ∀ c ∈ w, isWs c = true) (hne : w ≠ []) (hd : d = '(' ∨ d = ')') :
    ∀ {n : List Char}, (∀ c ∈ n, isWs c = false) → rawName (n ++ (w ++ d :: r)) = (n, w ++ d :: r)
  | [], _ => by
    cases w with
    | nil => exact absurd rfl hne
    | cons c w =>
      have hd' : isWs d = false := by rcases hd with rfl | rfl <;> decide
      have := dropGap (r := r) (fun e he => hw e (by simp [he]) : ∀ e ∈ w, isWs e = true) hd'
      simp only [List.nil_append, List.cons_append]
      rw [rawName, if_pos]
      refine ⟨hw c (by simp), ?_⟩
      rw [this]
      rcases hd with rfl | rfl <;> simp
  | c :: n, h => by
    have ih := rawName_exact (r := r) hw hne hd (n := n) fun e he => h e (by simp [he])
    simp only [List.cons_append]
    rw [rawName, if_neg (by rw [h c (by simp)]; simp)]
    exact Prod.ext (by rw [ih]) (by rw [ih])

/-- **C68, a name in parentheses**: where a solver writes a name that begins with a parenthesis, the whole text up to the white space in
front of the parameter list is the name, between bars, and reading goes on at the parameter list. -/
theorem paren_name_read {cfg : Cfg} (p : P) (l : Nat) {n w r : List Char} {d : Char} (hn : ∀ c ∈ n, isWs c = false)
    (h0 : n.head? ≠ some '(' ∧ n.head? ≠ some ')' ∧ n ≠ []) (hw : ∀ c ∈ w, isWs c = true) (hne : w ≠ []) (hd : d = '(' ∨ d = ')') :
    symName cfg (p.at l ('(' :: (n ++ (w ++ d :: r)))) = .ok ('|' :: ('(' :: n ++ ['|']), p.at (l + nls w) (d :: r)) := by
  have e := at_rest p l (n ++ (w ++ d :: r)) start_lp
  have hraw := rawName_exact (r := r) hw hne hd (n := '(' :: n) (by
    intro c hc
    rcases List.mem_cons.1 hc with rfl | hc
    · decide
    · exact hn c hc)
  have hdr : ((n ++ (w ++ d :: r)).dropWhile isWs).head? = n.head? := by
    cases n with
    | nil => exact absurd rfl h0.2.2
    | cons c n => simp [hn c (by simp)]
  unfold symName
  rw [e]
  simp only
  rw [if_neg (by rw [hdr]; exact fun h => h.elim h0.2.1 h0.1)]
  simp only [List.cons_append] at hraw
  rw [hraw]
  simp only
  have := at_gap p l (d :: r) (ws_gap hw)
  rw [← this]
  simp [P.at]

example (p : P) : symName ⟨false, true⟩ (p.at 1 cs!"(a+b)*c \n\t () Int 5)") =
    .ok (cs!"|(a+b)*c|", p.at 2 cs!"() Int 5)") :=
  paren_name_read (cfg := ⟨false, true⟩) p 1 (n := cs!"a+b)*c") (w := cs!" \n\t ") (r := cs!") Int 5)") (d := '(')
    (by decide) (by decide) (by decide) (by decide) (.inl rfl)

end SMT.MdlText
