import Verif.Script.Props
import Verif.Parse.Bound

/-!
# What the parser keeps, whatever it reads (C71)

For every text that is read to its end, whether or not it is a script of the standard, and for every sequence of texts, declarations and
removals: the tables stay consistent and nothing recorded earlier is lost.
-/

namespace SMT.Script
open SMT SMT.Text SMT.Lex SMT.Sorts SMT.Parse

/-! ## The remaining operations -/

/-- one name of `Parser::removeFuns` (`src/base_parser.cpp:2878-2891`) -/
def removeFun (s : S) (name : List Char) : Nat × S :=
  match s.funs.lookup name with
  | some _ => (1, { s with funs := s.funs.filter fun e => e.1 != name, fnames := s.fnames.erase name })
  | none => (0, s)

/-- `Parser::removeFuns(funcNames)` (`src/base_parser.cpp:2875-2895`) -/
def removeFuns (s : S) : List (List Char) → Nat × S
  | [] => (0, s)
  | x :: xs => let r := removeFun s x; let q := removeFuns r.2 xs; (r.1 + q.1, q.2)

/-- `Parser::getFunctions()` (`src/base_parser.cpp:276-282`): `at` throws for a name without an entry -/
def getFunctions (s : S) : List (List Char) → Res (List (Fn Srt))
  | [] => .ok []
  | x :: xs =>
    match s.funs.lookup x with
    | none => .throw
    | some f => do let r ← getFunctions s xs; return f :: r

/-- `Parser::isDeclaredFunction(name)` (`src/base_parser.cpp:2627-2629`) -/
def isDeclaredFunction (s : S) (x : List Char) : Bool := (s.funs.lookup x).isSome

/-! ## The specification -/

/-- index `i` is in group `g` -/
def InGroup (g : List Char) (i : Nat) (l : List (List Char × List Nat)) : Prop := ∃ is, l.lookup g = some is ∧ i ∈ is

/-- the tables fit together -/
structure Consistent (s : S) : Prop where
  /-- there is one weight for every soft assertion -/
  weights : s.weights.length = s.soft.length
  /-- groups hold indices of assertions -/
  groups : ∀ g i, InGroup g i s.groups → i < s.asserts.length
  softGroups : ∀ g i, InGroup g i s.softGroups → i < s.soft.length
  /-- one entry for a name -/
  vars : (s.vars.map Prod.fst).Nodup
  funs : (s.funs.map Prod.fst).Nodup
  /-- the functions that are listed have entries, and are listed once -/
  fnames : s.fnames.Nodup
  listed : ∀ x ∈ s.fnames, x ∈ s.funs.map Prod.fst

/-- all functions are listed -/
def AllListed (s : S) : Prop := ∀ x ∈ s.funs.map Prod.fst, x ∈ s.fnames

/-- what is in `s` is in `s'`, in the same order and before anything new -/
structure Extends (s s' : S) : Prop where
  asserts : s.asserts <+: s'.asserts
  groups : ∀ g i, InGroup g i s.groups → InGroup g i s'.groups
  assumptions : s.assumptions <+: s'.assumptions
  soft : s.soft <+: s'.soft
  weights : s.weights <+: s'.weights
  softGroups : ∀ g i, InGroup g i s.softGroups → InGroup g i s'.softGroups
  vars : s.vars <+: s'.vars
  funs : s.funs <+: s'.funs
  fnames : s.fnames <+: s'.fnames
  objs : s.objs <+: s'.objs
  objMap : s.objMap <+: s'.objMap
  checkSat : s.checkSat = true → s'.checkSat = true
  getModel : s.getModel = true → s'.getModel = true
  getObjectives : s.getObjectives = true → s'.getObjectives = true

/-! ## Proofs -/

/-- what every command does -/
structure Grows (s s' : S) : Prop where
  ext : Extends s s'
  con : Consistent s → Consistent s'
  all : AllListed s → AllListed s'

theorem Extends.rfl {s : S} : Extends s s :=
  ⟨List.prefix_refl _, fun _ _ h => h, List.prefix_refl _, List.prefix_refl _, List.prefix_refl _, fun _ _ h => h, List.prefix_refl _,
    List.prefix_refl _, List.prefix_refl _, List.prefix_refl _, List.prefix_refl _, id, id, id⟩

theorem Extends.trans {a b c : S} (h : Extends a b) (h' : Extends b c) : Extends a c :=
  ⟨h.asserts.trans h'.asserts, fun g i x => h'.groups g i (h.groups g i x), h.assumptions.trans h'.assumptions, h.soft.trans h'.soft,
    h.weights.trans h'.weights, fun g i x => h'.softGroups g i (h.softGroups g i x), h.vars.trans h'.vars, h.funs.trans h'.funs,
    h.fnames.trans h'.fnames, h.objs.trans h'.objs, h.objMap.trans h'.objMap, fun x => h'.checkSat (h.checkSat x),
    fun x => h'.getModel (h.getModel x), fun x => h'.getObjectives (h.getObjectives x)⟩

theorem Grows.rfl {s : S} : Grows s s := ⟨.rfl, id, id⟩
theorem Grows.trans {a b c : S} (h : Grows a b) (h' : Grows b c) : Grows a c :=
  ⟨h.ext.trans h'.ext, fun x => h'.con (h.con x), fun x => h'.all (h.all x)⟩

/-- only fields that are not looked at here change -/
theorem grows_frame {s s' : S} (h1 : s'.asserts = s.asserts) (h2 : s'.groups = s.groups) (h3 : s.assumptions <+: s'.assumptions)
    (h4 : s'.soft = s.soft) (h5 : s'.weights = s.weights) (h6 : s'.softGroups = s.softGroups) (h7 : s'.vars = s.vars)
    (h8 : s'.funs = s.funs) (h9 : s'.fnames = s.fnames) (h10 : s.objs <+: s'.objs) (h11 : s.objMap <+: s'.objMap)
    (h12 : s.checkSat = true → s'.checkSat = true) (h13 : s.getModel = true → s'.getModel = true)
    (h14 : s.getObjectives = true → s'.getObjectives = true) : Grows s s' := by
  constructor
  · constructor <;> first | assumption | (simp only [h1, h2, h4, h5, h6, h7, h8, h9]; first | exact List.prefix_refl _ | exact fun _ _ h => h)
  · intro c
    constructor
    · rw [h5, h4]; exact c.weights
    · rw [h2, h1]; exact c.groups
    · rw [h6, h4]; exact c.softGroups
    · rw [h7]; exact c.vars
    · rw [h8]; exact c.funs
    · rw [h9]; exact c.fnames
    · rw [h9, h8]; exact c.listed
  · intro a; unfold AllListed; rw [h8, h9]; exact a

theorem addTo_lookup (g : List Char) (i : Nat) (l : List (List Char × List Nat)) (g' : List Char) (j : Nat) :
    InGroup g' j (addTo g i l) ↔ InGroup g' j l ∨ (g' = g ∧ j = i) := by
  unfold InGroup
  induction l with
  | nil =>
    by_cases h : g' = g
    · subst h; simp [addTo, List.lookup]
    · have : (g' == g) = false := by simpa using h
      simp [addTo, List.lookup, this, h]
  | cons e l ih =>
    obtain ⟨k, is⟩ := e
    simp only [addTo]
    by_cases hk : k = g
    · subst hk
      rw [if_pos rfl]
      by_cases h : g' = k
      · subst h
        simp [List.lookup_cons]
      · have : (g' == k) = false := by simpa using h
        simp [List.lookup_cons, this, h]
    · rw [if_neg hk]
      by_cases h : g' = k
      · subst h
        simp [List.lookup_cons, hk]
      · have : (g' == k) = false := by simpa using h
        simp only [List.lookup_cons, this]
        exact ih

theorem lookup_none_iff {β : Type} (l : List (List Char × β)) (x : List Char) : l.lookup x = none ↔ x ∉ l.map Prod.fst := by
  induction l with
  | nil => simp
  | cons e l ih =>
    obtain ⟨k, v⟩ := e
    rw [List.lookup_cons]
    by_cases h : x = k
    · subst h; simp
    · have : (x == k) = false := by simpa using h
      rw [this]
      simp only [List.map_cons, List.mem_cons, not_or]
      rw [ih]
      exact ⟨fun h' => ⟨h, h'⟩, fun h' => h'.2⟩

/-- only fields that are not looked at here change -/
macro "quiet" : term => `(grows_frame rfl rfl (List.prefix_refl _) rfl rfl rfl rfl rfl rfl (List.prefix_refl _) (List.prefix_refl _) id id id)

theorem ite_ok {α : Type} {q : Prop} [Decidable q] {a b : Res α} {x : α} (h : (if q then a else b) = .ok x) : a = .ok x ∨ b = .ok x := by
  by_cases hq : q
  · rw [if_pos hq] at h; exact .inl h
  · rw [if_neg hq] at h; exact .inr h

theorem note_grows (s : S) (t : T Srt) : Grows s (s.note t) := quiet

theorem p_grows (s : S) (p : P) : Grows s { s with p := p } := quiet

theorem notes_grows (ts : List (T Srt)) : ∀ s : S, Grows s (ts.foldl S.note s) := by
  induction ts with
  | nil => intro s; exact .rfl
  | cons t ts ih => intro s; exact (note_grows s t).trans (ih _)

theorem addAssert_grows (s : S) (t : T Srt) (g : List Char) : Grows s { s with
    asserts := s.asserts ++ [t]
    groups := if g = [] then s.groups else addTo g s.asserts.length s.groups } := by
  refine ⟨{ Extends.rfl (s := s) with asserts := List.prefix_append _ _, groups := ?_ }, fun c => { c with groups := ?_ }, id⟩
  · intro g' i h
    dsimp only
    split
    · exact h
    · exact (addTo_lookup _ _ _ _ _).2 (.inl h)
  · intro g' i h
    dsimp only at h ⊢
    rw [List.length_append, List.length_singleton]
    split at h
    · have := c.groups _ _ h; omega
    · rcases (addTo_lookup _ _ _ _ _).1 h with h | ⟨_, h⟩
      · have := c.groups _ _ h; omega
      · omega

theorem addSoft_grows (s : S) (t : T Srt) (w : Weight) (g : List Char) : Grows s { s with
    soft := s.soft ++ [t]
    weights := s.weights ++ [w]
    softGroups := if g = [] then s.softGroups else addTo g s.soft.length s.softGroups } := by
  refine ⟨{ Extends.rfl (s := s) with soft := List.prefix_append _ _, weights := List.prefix_append _ _, softGroups := ?_ },
    fun c => { c with softGroups := ?_, weights := ?_ }, id⟩
  · intro g' i h
    dsimp only
    split
    · exact h
    · exact (addTo_lookup _ _ _ _ _).2 (.inl h)
  · simp [c.weights]
  · intro g' i h
    dsimp only at h ⊢
    rw [List.length_append, List.length_singleton]
    split at h
    · have := c.softGroups _ _ h; omega
    · rcases (addTo_lookup _ _ _ _ _).1 h with h | ⟨_, h⟩
      · have := c.softGroups _ _ h; omega
      · omega

theorem nodup_snoc {α : Type} {l : List α} {x : α} (h : l.Nodup) (hx : x ∉ l) : (l ++ [x]).Nodup := by
  rw [List.nodup_append]
  refine ⟨h, by simp, ?_⟩
  intro a ha b hb e
  rw [List.mem_singleton.mp hb] at e
  exact hx (e ▸ ha)

theorem var_grows (s : S) (name : List Char) (so : Srt) : Grows s (s.var name so) := by
  unfold S.var
  split
  · exact .rfl
  · rename_i h
    refine ⟨{ Extends.rfl (s := s) with vars := List.prefix_append _ _ }, fun c => { c with vars := ?_ }, id⟩
    rw [lookup_none_iff] at h
    simpa using nodup_snoc c.vars h

theorem addFun_grows (s : S) (name : List Char) (f : Fn Srt) (h : s.funs.lookup name = none) : Grows s { s with
    funs := s.funs ++ [(name, f)]
    fnames := s.fnames ++ [name] } := by
  rw [lookup_none_iff] at h
  refine ⟨{ Extends.rfl (s := s) with funs := List.prefix_append _ _, fnames := List.prefix_append _ _ },
    fun c => { c with funs := ?_, fnames := ?_, listed := ?_ }, fun a => ?_⟩
  · simpa using nodup_snoc c.funs h
  · exact nodup_snoc c.fnames fun hx => h (c.listed _ hx)
  · intro x hx
    rw [List.map_append]
    rcases List.mem_append.mp hx with hx | hx
    · exact List.mem_append_left _ (c.listed _ hx)
    · exact List.mem_append_right _ (by simpa using hx)
  · intro x hx
    simp only [List.map_append] at hx
    rcases List.mem_append.mp hx with hx | hx
    · exact List.mem_append_left _ (a _ hx)
    · exact List.mem_append_right _ (by simpa using hx)

set_option hygiene false in
/-- take binds apart -/
macro "unbind" : tactic =>
  `(tactic| (repeat (obtain ⟨⟨_, _⟩, _, h⟩ := bind_ok h; try dsimp only at h)))

theorem assert_grows {cfg : Cfg} {n : Nat} {s s' : S} (h : cmdAssert cfg n s = .ok s') : Grows s s' := by
  unfold cmdAssert at h
  unbind
  injection h with h
  subst h
  exact (note_grows s _).trans ((addAssert_grows (s.note _) _ _).trans quiet)

theorem soft_grows {cfg : Cfg} {n : Nat} {s s' : S} (h : cmdSoft cfg n s = .ok s') : Grows s s' := by
  unfold cmdSoft at h
  obtain ⟨⟨_, _⟩, _, h⟩ := bind_ok h
  obtain ⟨⟨_, _⟩, _, h⟩ := bind_ok h
  obtain ⟨⟨_, _⟩, _, h⟩ := bind_ok h
  obtain ⟨_, _, h⟩ := bind_ok h
  injection h with h
  subst h
  exact (note_grows s _).trans ((addSoft_grows (s.note _) _ _ _).trans quiet)

theorem assuming_grows {cfg : Cfg} {n : Nat} {s s' : S} (h : cmdAssuming cfg n s = .ok s') : Grows s s' := by
  unfold cmdAssuming at h
  unbind
  injection h with h
  subst h
  exact (notes_grows _ s).trans (grows_frame rfl rfl (List.prefix_append _ _) rfl rfl rfl rfl rfl rfl (List.prefix_refl _)
    (List.prefix_refl _) id id id)

theorem const_grows {cfg : Cfg} {n : Nat} {s s' : S} (h : cmdConst cfg n s = .ok s') : Grows s s' := by
  unfold cmdConst at h
  unbind
  injection h with h
  subst h
  exact (var_grows s _ _).trans quiet

theorem mkFuncDec_ok {funs fs : List (List Char × Fn Srt)} {name : List Char} {ps : List Srt} {out : Srt}
    (h : mkFuncDec funs name ps out = .ok fs) : funs.lookup name = none ∧ fs = funs ++ [(name, .dec ps out)] := by
  unfold mkFuncDec at h
  split at h
  · cases h
  · injection h with h; exact ⟨by assumption, h.symm⟩

theorem fun_grows {cfg : Cfg} {n : Nat} {s s' : S} (h : cmdFun cfg n s = .ok s') : Grows s s' := by
  unfold cmdFun at h
  obtain ⟨⟨_, _⟩, _, h⟩ := bind_ok h
  obtain ⟨_, _, h⟩ := bind_ok h
  split at h
  · unbind
    injection h with h
    subst h
    exact (var_grows s _ _).trans quiet
  · obtain ⟨⟨_, _⟩, _, h⟩ := bind_ok h
    obtain ⟨_, _, h⟩ := bind_ok h
    obtain ⟨⟨_, _⟩, _, h⟩ := bind_ok h
    obtain ⟨fs, hf, h⟩ := bind_ok h
    injection h with h
    subst h
    obtain ⟨h1, rfl⟩ := mkFuncDec_ok hf
    exact (addFun_grows s _ _ h1).trans quiet

theorem sort_grows {cfg : Cfg} {s s' : S} (h : cmdSort cfg s = .ok s') : Grows s s' := by
  unfold cmdSort at h
  obtain ⟨⟨_, _⟩, _, h⟩ := bind_ok h
  obtain ⟨⟨_, _⟩, _, h⟩ := bind_ok h
  obtain ⟨_, _, h⟩ := bind_ok h
  injection h with h
  subst h
  exact quiet

theorem defSort_grows {cfg : Cfg} {n : Nat} {s s' : S} (h : cmdDefSort cfg n s = .ok s') : Grows s s' := by
  unfold cmdDefSort at h
  unbind
  split at h <;> (injection h with h; subst h; exact quiet)

theorem known_ok {s : S} {name : List Char} (h : known s name = .ok false) : s.funs.lookup name = none := by
  unfold known at h
  split at h
  · cases h
  · cases h
  · assumption

theorem mkFuncBody_new {funs fs : List (List Char × Fn Srt)} {name : List Char} {f : Fn Srt} (h1 : funs.lookup name = none)
    (h : mkFuncBody funs name f = .ok fs) : fs = funs ++ [(name, f)] := by
  unfold mkFuncBody at h
  rw [h1] at h
  injection h with h; exact h.symm

theorem setFn_snoc (name : List Char) (f g : Fn Srt) (funs : List (List Char × Fn Srt)) (h : name ∉ funs.map Prod.fst) :
    setFn name f (funs ++ [(name, g)]) = funs ++ [(name, f)] := by
  induction funs with
  | nil => simp [setFn]
  | cons e l ih =>
    obtain ⟨k, v⟩ := e
    simp only [List.map_cons, List.mem_cons, not_or] at h
    simp only [List.cons_append, setFn]
    rw [if_neg fun e => h.1 e.symm, ih h.2]

theorem defConst_grows {cfg : Cfg} {n : Nat} {s s' : S} (h : cmdDefConst cfg n s = .ok s') : Grows s s' := by
  unfold cmdDefConst at h
  obtain ⟨⟨_, _⟩, _, h⟩ := bind_ok h
  obtain ⟨b, hk, h⟩ := bind_ok h
  cases b with
  | true => injection h with h; subst h; exact quiet
  | false =>
    have h1 := known_ok hk
    obtain ⟨⟨_, _⟩, _, h⟩ := bind_ok h
    obtain ⟨⟨_, _⟩, _, h⟩ := bind_ok h
    obtain ⟨fs, hf, h⟩ := bind_ok h
    injection h with h
    subst h
    have := mkFuncBody_new h1 hf
    subst this
    exact (note_grows s _).trans ((addFun_grows (s.note _) _ _ h1).trans quiet)

theorem defFun_grows {cfg : Cfg} {n : Nat} {s s' : S} (h : cmdDefFun cfg n s = .ok s') : Grows s s' := by
  unfold cmdDefFun at h
  obtain ⟨⟨_, _⟩, _, h⟩ := bind_ok h
  obtain ⟨b, hk, h⟩ := bind_ok h
  cases b with
  | true => injection h with h; subst h; exact quiet
  | false =>
    have h1 := known_ok hk
    obtain ⟨_, _, h⟩ := bind_ok h
    obtain ⟨⟨_, _⟩, _, h⟩ := bind_ok h
    obtain ⟨_, _, h⟩ := bind_ok h
    obtain ⟨⟨_, _⟩, _, h⟩ := bind_ok h
    obtain ⟨⟨_, _⟩, _, h⟩ := bind_ok h
    obtain ⟨fs, hf, h⟩ := bind_ok h
    injection h with h
    subst h
    have := mkFuncBody_new h1 hf
    subst this
    exact (note_grows s _).trans ((addFun_grows (s.note _) _ _ h1).trans quiet)

theorem defRec_grows {cfg : Cfg} {n : Nat} {s s' : S} (h : cmdDefRec cfg n s = .ok s') : Grows s s' := by
  unfold cmdDefRec at h
  obtain ⟨⟨_, _⟩, _, h⟩ := bind_ok h
  obtain ⟨b, hk, h⟩ := bind_ok h
  cases b with
  | true => injection h with h; subst h; exact quiet
  | false =>
    have h1 := known_ok hk
    obtain ⟨_, _, h⟩ := bind_ok h
    obtain ⟨⟨_, _⟩, _, h⟩ := bind_ok h
    obtain ⟨_, _, h⟩ := bind_ok h
    obtain ⟨⟨_, _⟩, _, h⟩ := bind_ok h
    obtain ⟨fs, hf, h⟩ := bind_ok h
    obtain ⟨⟨_, _⟩, _, h⟩ := bind_ok h
    obtain ⟨fs', hf', h⟩ := bind_ok h
    injection h with h
    subst h
    obtain ⟨_, rfl⟩ := mkFuncDec_ok hf
    unfold mkFuncBody at hf'
    rw [lookup_snoc h1] at hf'
    injection hf' with hf'
    rw [setFn_snoc _ _ _ _ ((lookup_none_iff _ _).1 h1)] at hf'
    subst hf'
    exact (note_grows s _).trans ((addFun_grows (s.note _) _ _ h1).trans quiet)

theorem recHeads_ok {cfg : Cfg} {s : S} : ∀ (n : Nat) (acc hs : List (List Char × List (List Char × Srt) × Srt)) (p p' : P),
    recHeads cfg n s acc p = .ok (hs, p') → (∀ h ∈ acc, s.funs.lookup h.1 = none) → ∀ h ∈ hs, s.funs.lookup h.1 = none := by
  intro n
  induction n with
  | zero => intro acc hs p p' h; cases h
  | succ n ih =>
    intro acc hs p p' h ha
    unfold recHeads at h
    split at h
    · injection h with h; injection h with h _; subst h; exact ha
    · obtain ⟨_, _, h⟩ := bind_ok h
      obtain ⟨⟨name, _⟩, _, h⟩ := bind_ok h
      obtain ⟨b, hk, h⟩ := bind_ok h
      cases b with
      | true => exact ih _ _ _ _ h ha
      | false =>
        obtain ⟨_, _, h⟩ := bind_ok h
        obtain ⟨⟨_, _⟩, _, h⟩ := bind_ok h
        obtain ⟨_, _, h⟩ := bind_ok h
        obtain ⟨⟨_, _⟩, _, h⟩ := bind_ok h
        obtain ⟨_, _, h⟩ := bind_ok h
        refine ih _ _ _ _ h fun x hx => ?_
        rcases List.mem_append.mp hx with hx | hx
        · exact ha x hx
        · rw [List.mem_singleton.mp hx]; exact known_ok hk

theorem lookup_prefix_none {β : Type} {l : List (List Char × β)} {x y : List Char} {g : β} (h : (l ++ [(y, g)]).lookup x = none) :
    l.lookup x = none := by
  rw [lookup_none_iff] at h ⊢
  intro hx
  exact h (by rw [List.map_append]; exact List.mem_append_left _ hx)

theorem recDecs_ok : ∀ (hs : List (List Char × List (List Char × Srt) × Srt)) (funs fs : List (List Char × Fn Srt)),
    recDecs hs funs = .ok fs → ∃ new, fs = funs ++ new ∧ new.map Prod.fst = hs.map (fun h => h.1) ∧
      ((funs.map Prod.fst).Nodup → (fs.map Prod.fst).Nodup) := by
  intro hs
  induction hs with
  | nil => intro funs fs h; injection h with h; exact ⟨[], by simp [h], rfl, fun q => h ▸ q⟩
  | cons e hs ih =>
    obtain ⟨name, ps, so⟩ := e
    intro funs fs h
    unfold recDecs at h
    obtain ⟨f1, hf, h⟩ := bind_ok h
    obtain ⟨h1, rfl⟩ := mkFuncDec_ok hf
    obtain ⟨new, h2, h3, h4⟩ := ih _ _ h
    refine ⟨(name, .dec (ps.map fun v => v.2) so) :: new, by rw [h2]; simp, by simp [h3], fun q => h4 ?_⟩
    rw [List.map_append]
    exact nodup_snoc q ((lookup_none_iff _ _).1 h1)

theorem setFn_keys (name : List Char) (f : Fn Srt) (funs : List (List Char × Fn Srt)) :
    (setFn name f funs).map Prod.fst = funs.map Prod.fst := by
  induction funs with
  | nil => rfl
  | cons e l ih =>
    obtain ⟨k, v⟩ := e
    simp only [setFn]
    split
    · rfl
    · simp [ih]

theorem setFn_append (name : List Char) (f : Fn Srt) (a b : List (List Char × Fn Srt)) (h : name ∉ a.map Prod.fst) :
    setFn name f (a ++ b) = a ++ setFn name f b := by
  induction a with
  | nil => rfl
  | cons e l ih =>
    obtain ⟨k, v⟩ := e
    simp only [List.map_cons, List.mem_cons, not_or] at h
    simp only [List.cons_append, setFn]
    rw [if_neg fun e => h.1 e.symm, ih h.2]

theorem recBodies_ok {cfg : Cfg} {n : Nat} (a : List (List Char × Fn Srt)) :
    ∀ (hs : List (List Char × List (List Char × Srt) × Srt)) (b : List (List Char × Fn Srt)) (s s' : S) (p p' : P),
    s.funs = a ++ b → (∀ h ∈ hs, h.1 ∉ a.map Prod.fst) → (∀ h ∈ hs, h.1 ∈ b.map Prod.fst) →
    recBodies cfg n hs s p = .ok (s', p') →
    ∃ b' nm, s' = { s with funs := a ++ b', named := nm } ∧ b'.map Prod.fst = b.map Prod.fst := by
  intro hs
  induction hs with
  | nil =>
    intro b s s' p p' e _ _ h
    injection h with h; injection h with h _
    exact ⟨b, s.named, by rw [← h, ← e], rfl⟩
  | cons hd hs ih =>
    obtain ⟨name, ps, so⟩ := hd
    intro b s s' p p' e ha hb h
    unfold recBodies at h
    obtain ⟨⟨t, _⟩, _, h⟩ := bind_ok h
    obtain ⟨fs, hf, h⟩ := bind_ok h
    have hfs : fs = a ++ setFn name (.recu ps so t) b := by
      unfold mkFuncBody at hf
      have e' : (s.note t).funs = a ++ b := e
      rw [e'] at hf
      split at hf
      · injection hf with hf; rw [← hf, setFn_append _ _ _ _ (ha _ List.mem_cons_self)]
      · cases hf
      · rename_i hn
        rw [lookup_none_iff, List.map_append] at hn
        exact absurd (List.mem_append_right _ (hb _ List.mem_cons_self)) hn
    obtain ⟨b', nm, h1, h2⟩ := ih (setFn name (.recu ps so t) b) _ _ _ _ (by exact hfs) (fun x hx => ha x (List.mem_cons_of_mem _ hx))
      (fun x hx => by rw [setFn_keys]; exact hb x (List.mem_cons_of_mem _ hx)) h
    exact ⟨b', nm, h1, by rw [h2, setFn_keys]⟩

theorem defRecs_grows {cfg : Cfg} {n : Nat} {s s' : S} (h : cmdDefRecs cfg n s = .ok s') : Grows s s' := by
  unfold cmdDefRecs at h
  obtain ⟨_, _, h⟩ := bind_ok h
  obtain ⟨⟨hs, _⟩, hh, h⟩ := bind_ok h
  obtain ⟨_, _, h⟩ := bind_ok h
  obtain ⟨funs, hd, h⟩ := bind_ok h
  obtain ⟨_, _, h⟩ := bind_ok h
  obtain ⟨⟨s1, _⟩, hb, h⟩ := bind_ok h
  obtain ⟨_, _, h⟩ := bind_ok h
  injection h with h
  subst h
  have k1 := recHeads_ok _ _ _ _ _ hh (by simp)
  obtain ⟨new, rfl, k2, k3⟩ := recDecs_ok _ _ _ hd
  obtain ⟨b', nm, rfl, k4⟩ := recBodies_ok s.funs _ new _ _ _ _ rfl
    (fun x hx => (lookup_none_iff _ _).1 (k1 x hx)) (fun x hx => by rw [k2]; exact List.mem_map_of_mem hx) hb
  rw [k2] at k4
  rw [List.map_append, k2] at k3
  refine ⟨{ Extends.rfl (s := s) with funs := List.prefix_append _ _, fnames := List.prefix_append _ _ },
    fun c => { c with funs := ?_, fnames := ?_, listed := ?_ }, fun a => ?_⟩
  · rw [List.map_append, k4]; exact k3 c.funs
  · have := k3 c.funs
    rw [List.nodup_append] at this ⊢
    exact ⟨c.fnames, this.2.1, fun x hx y hy => this.2.2 x (c.listed x hx) y hy⟩
  · intro x hx
    rw [List.map_append, k4]
    rcases List.mem_append.mp hx with hx | hx
    · exact List.mem_append_left _ (c.listed x hx)
    · exact List.mem_append_right _ hx
  · intro x hx
    simp only [List.map_append, k4] at hx
    rcases List.mem_append.mp hx with hx | hx
    · exact List.mem_append_left _ (a x hx)
    · exact List.mem_append_right _ hx

theorem logic_grows {cfg : Cfg} {s s' : S} (h : cmdLogic cfg s = .ok s') : Grows s s' := by
  unfold cmdLogic at h
  unbind
  split at h
  · injection h with h; subst h; exact quiet
  · cases h

theorem quant_grows {cfg : Cfg} {n : Nat} {s s' : S} (h : cmdQuant cfg n s = .ok s') : Grows s s' := by
  unfold cmdQuant at h
  unbind
  injection h with h
  subst h
  exact quiet

theorem singleObj_grows {cfg : Cfg} {n : Nat} {k : OptKind} {s s' : S} {o : Obj Srt} (h : singleObj cfg n k s = .ok (o, s')) :
    Grows s s' := by
  unfold singleObj at h
  obtain ⟨⟨_, _⟩, _, h⟩ := bind_ok h
  obtain ⟨⟨_, _⟩, _, h⟩ := bind_ok h
  obtain ⟨⟨_, _⟩, _, h⟩ := bind_ok h
  injection h with h
  injection h with _ h
  subst h
  exact grows_frame rfl rfl (List.prefix_refl _) rfl rfl rfl rfl rfl rfl (List.prefix_append _ _) (List.prefix_refl _) id id id

theorem obj_grows {cfg : Cfg} {n : Nat} {k : OptKind} {s s' : S} (h : cmdObj cfg n k s = .ok s') : Grows s s' := by
  unfold cmdObj at h
  obtain ⟨⟨_, _⟩, hs, h⟩ := bind_ok h
  injection h with h
  subst h
  exact (singleObj_grows hs).trans quiet

theorem defObj_grows {cfg : Cfg} {n : Nat} {s s' : S} (h : cmdDefObj cfg n s = .ok s') : Grows s s' := by
  unfold cmdDefObj at h
  obtain ⟨⟨_, _⟩, _, h⟩ := bind_ok h
  obtain ⟨⟨_, _⟩, _, h⟩ := bind_ok h
  obtain ⟨⟨_, _⟩, _, h⟩ := bind_ok h
  obtain ⟨_, _, h⟩ := bind_ok h
  obtain ⟨⟨_, _⟩, _, h⟩ := bind_ok h
  rcases ite_ok h with h | h
  · obtain ⟨⟨_, _⟩, hs, h⟩ := bind_ok h
    obtain ⟨_, _, h⟩ := bind_ok h
    injection h with h
    subst h
    have g1 := singleObj_grows hs
    have g2 := (p_grows s _).trans g1
    refine g2.trans (grows_frame rfl rfl (List.prefix_refl _) rfl rfl rfl rfl rfl rfl (List.prefix_refl _) ?_ id id id)
    dsimp only
    split
    · exact List.prefix_refl _
    · exact List.prefix_append _ _
  · cases h

theorem findObjs_prefix : ∀ (xs : List (List Char)) (m : List (List Char × Option (Obj Srt))), m <+: (findObjs xs m).2 := by
  intro xs
  induction xs with
  | nil => intro m; exact List.prefix_refl _
  | cons x xs ih =>
    intro m
    simp only [findObjs]
    split
    · exact ih m
    · exact (List.prefix_append _ _).trans (ih _)

theorem multi_grows {cfg : Cfg} {n : Nat} {k : OptKind} {s s' : S} (h : cmdMulti cfg n k s = .ok s') : Grows s s' := by
  unfold cmdMulti at h
  obtain ⟨⟨_, _⟩, _, h⟩ := bind_ok h
  obtain ⟨⟨_, _⟩, _, h⟩ := bind_ok h
  obtain ⟨_, _, h⟩ := bind_ok h
  obtain ⟨⟨_, _⟩, _, h⟩ := bind_ok h
  obtain ⟨_, _, h⟩ := bind_ok h
  obtain ⟨⟨_, _⟩, _, h⟩ := bind_ok h
  obtain ⟨⟨_, _⟩, _, h⟩ := bind_ok h
  injection h with h
  subst h
  exact grows_frame rfl rfl (List.prefix_refl _) rfl rfl rfl rfl rfl rfl (List.prefix_append _ _) (findObjs_prefix _ _) id id id

theorem optimize_grows {cfg : Cfg} {n : Nat} {s s' : S} (h : cmdOptimize cfg n s = .ok s') : Grows s s' := by
  unfold cmdOptimize at h
  obtain ⟨_, _, h⟩ := bind_ok h
  obtain ⟨_, _, h⟩ := bind_ok h
  obtain ⟨⟨_, _⟩, _, h⟩ := bind_ok h
  obtain ⟨_, _, h⟩ := bind_ok h
  obtain ⟨_, _, h⟩ := bind_ok h
  injection h with h
  subst h
  exact grows_frame rfl rfl (List.prefix_refl _) rfl rfl rfl rfl rfl rfl (List.prefix_refl _) (findObjs_prefix _ _) id id id

theorem dispatch_grows {cfg : Cfg} {n : Nat} {c : List Char} {s s' : S} {b : Bool} (h : dispatch cfg n c s = .ok (b, s')) : Grows s s' := by
  have go : ∀ {r : Res S}, (do let s ← r; return (false, s) : Res (Bool × S)) = .ok (b, s') → r = .ok s' := by
    intro r h
    obtain ⟨x, hx, h⟩ := bind_ok h
    injection h with h; injection h with _ h
    rw [hx, h]
  unfold dispatch at h
  dsimp only at h
  rcases ite_ok h with h | h; exact assert_grows (go h)
  rcases ite_ok h with h | h; exact soft_grows (go h)
  rcases ite_ok h with h | h
  · have := go h; injection this with h; subst h
    exact grows_frame rfl rfl (List.prefix_refl _) rfl rfl rfl rfl rfl rfl (List.prefix_refl _) (List.prefix_refl _) (fun _ => rfl) id id
  rcases ite_ok h with h | h; exact assuming_grows (go h)
  rcases ite_ok h with h | h; exact const_grows (go h)
  rcases ite_ok h with h | h; exact fun_grows (go h)
  rcases ite_ok h with h | h; exact sort_grows (go h)
  rcases ite_ok h with h | h; exact defConst_grows (go h)
  rcases ite_ok h with h | h; exact defFun_grows (go h)
  rcases ite_ok h with h | h; exact defRec_grows (go h)
  rcases ite_ok h with h | h; exact defRecs_grows (go h)
  rcases ite_ok h with h | h; exact defSort_grows (go h)
  rcases ite_ok h with h | h
  · injection h with h; injection h with _ h; subst h; exact quiet
  rcases ite_ok h with h | h
  · have := go h; injection this with h; subst h
    exact grows_frame rfl rfl (List.prefix_refl _) rfl rfl rfl rfl rfl rfl (List.prefix_refl _) (List.prefix_refl _) id (fun _ => rfl) id
  rcases ite_ok h with h | h; exact logic_grows (go h)
  rcases ite_ok h with h | h; exact quant_grows (go h)
  rcases ite_ok h with h | h
  · have := go h; injection this with h; subst h
    exact grows_frame rfl rfl (List.prefix_refl _) rfl rfl rfl rfl rfl rfl (List.prefix_refl _) (List.prefix_refl _) id id (fun _ => rfl)
  rcases ite_ok h with h | h; exact obj_grows (go h)
  rcases ite_ok h with h | h; exact obj_grows (go h)
  rcases ite_ok h with h | h; exact defObj_grows (go h)
  rcases ite_ok h with h | h; exact multi_grows (go h)
  rcases ite_ok h with h | h; exact multi_grows (go h)
  rcases ite_ok h with h | h; exact multi_grows (go h)
  rcases ite_ok h with h | h; exact multi_grows (go h)
  rcases ite_ok h with h | h; exact multi_grows (go h)
  rcases ite_ok h with h | h; exact obj_grows (go h)
  rcases ite_ok h with h | h; exact obj_grows (go h)
  rcases ite_ok h with h | h; exact optimize_grows (go h)
  rcases ite_ok h with h | h
  · have := go h; injection this with h; subst h; exact quiet
  · cases h

theorem loop_grows {cfg : Cfg} : ∀ (n : Nat) (s s' : S), loop cfg n s = .ok s' → Grows s s' := by
  intro n
  induction n with
  | zero => intro s s' h; cases h
  | succ n ih =>
    intro s s' h
    unfold loop at h
    split at h
    · injection h with h; subst h; exact .rfl
    · obtain ⟨p, _, h⟩ := bind_ok h
      obtain ⟨⟨b, s1⟩, hc, h⟩ := bind_ok h
      unfold command at hc
      obtain ⟨⟨c, p1⟩, _, hc⟩ := bind_ok hc
      have g1 : Grows s s1 := Grows.trans (b := { s with p := p1 }) quiet (dispatch_grows hc)
      cases b with
      | true => injection h with h; subst h; exact g1
      | false =>
        obtain ⟨p2, _, h⟩ := bind_ok h
        exact g1.trans (Grows.trans (b := { s1 with p := p2 }) quiet (ih _ _ h))

theorem loop_from {cfg : Cfg} {n : Nat} {s s' : S} (p : P) (h : loop cfg n { s with p := p } = .ok s') : Grows s s' :=
  Grows.trans (b := { s with p := p }) quiet (loop_grows _ _ _ h)

/-- **C71, reading only adds.**  Whatever text a parser in whatever state reads to its end, a file or a string, everything recorded
before is still there, in the same order and before anything new: assertions with their groups, assumptions, soft assertions with their
weights and groups, variables, functions with their definitions, objectives, requests. -/
theorem reading_extends (pres : Bool) (cfg : Cfg) (n : Nat) (s s' : S) (text : List Char)
    (h : parseFile pres n s text = .ok s' ∨ parseStr cfg n s text = .ok s') : Extends s s' := by
  rcases h with h | h
  · unfold parseFile at h
    exact (loop_from _ h).ext
  · unfold parseStr at h
    split at h
    · cases h
    · exact (loop_from _ h).ext

/-! ## Histories -/

/-- what a user does with a parser -/
inductive Op where
  | file (pres : Bool) (text : List Char)
  | str (pres file : Bool) (text : List Char)
  | remove (names : List (List Char))
  /-- `mkFuncDec` -/
  | declare (name : List Char) (ps : List Srt) (out : Srt)
  /-- `mkFuncDef`, `mkFuncRec` -/
  | define (name : List Char) (ps : List (List Char × Srt)) (out : Srt) (body : T Srt) (recursive : Bool)

/-- the parser after the operation -/
def Op.run (n : Nat) (s : S) : Op → Res S
  | .file pres text => parseFile pres n s text
  | .str pres fl text => parseStr ⟨fl, pres⟩ n s text
  | .remove names => .ok (removeFuns s names).2
  | .declare name ps out => do let fs ← mkFuncDec s.funs name ps out; return { s with funs := fs }
  | .define name ps out body r => do
    let fs ← mkFuncBody s.funs name (if r then .recu ps out body else .defn ps out body)
    return { s with funs := fs }

/-- a sequence of operations on a new parser -/
inductive History : List Op → S → Prop where
  | nil : History [] fresh
  | snoc {ops : List Op} {s s' : S} {o : Op} {n : Nat} (h : History ops s) (r : o.run n s = .ok s') : History (ops ++ [o]) s'

theorem nodup_filter_map {β : Type} {l : List (List Char × β)} (p : List Char × β → Bool) (h : (l.map Prod.fst).Nodup) :
    ((l.filter p).map Prod.fst).Nodup :=
  List.Sublist.nodup (List.Sublist.map _ List.filter_sublist) h

theorem removeFun_funs (s : S) (x : List Char) : (removeFun s x).2.funs = s.funs.filter fun e => e.1 != x := by
  unfold removeFun
  split
  · rfl
  · rename_i h
    rw [lookup_none_iff] at h
    symm
    rw [List.filter_eq_self]
    intro e he
    simp only [bne_iff_ne, ne_eq]
    intro hx
    exact h (List.mem_map.mpr ⟨e, he, hx⟩)

theorem removeFun_con {s : S} (c : Consistent s) (x : List Char) : Consistent (removeFun s x).2 ∧
    (AllListed s → AllListed (removeFun s x).2) ∧ (removeFun s x).2.fnames = s.fnames.filter fun y => y != x := by
  unfold removeFun
  split
  · have he : s.fnames.erase x = s.fnames.filter fun y => y != x := by
      rw [c.fnames.erase_eq_filter]
    refine ⟨{ c with funs := nodup_filter_map _ c.funs, fnames := ?_, listed := ?_ }, fun a => ?_, he⟩
    · exact c.fnames.erase x
    · intro y hy
      simp only [he, List.mem_filter, bne_iff_ne, ne_eq] at hy
      obtain ⟨e, h1, h2⟩ := List.mem_map.mp (c.listed y hy.1)
      exact List.mem_map.mpr ⟨e, List.mem_filter.mpr ⟨h1, by simp [h2, hy.2]⟩, h2⟩
    · intro y hy
      obtain ⟨e, h1, h2⟩ := List.mem_map.mp hy
      rw [List.mem_filter] at h1
      show y ∈ s.fnames.erase x
      rw [he, List.mem_filter]
      exact ⟨a y (List.mem_map.mpr ⟨e, h1.1, h2⟩), by rw [← h2]; exact h1.2⟩
  · rename_i h
    rw [lookup_none_iff] at h
    refine ⟨c, id, ?_⟩
    symm
    rw [List.filter_eq_self]
    intro y hy
    simp only [bne_iff_ne, ne_eq]
    intro hx
    exact h (hx ▸ c.listed y hy)

theorem removeFuns_con (xs : List (List Char)) : ∀ {s : S}, Consistent s → Consistent (removeFuns s xs).2 ∧
    (AllListed s → AllListed (removeFuns s xs).2) ∧
    (removeFuns s xs).2.fnames = s.fnames.filter (fun y => decide (y ∉ xs)) ∧
    (removeFuns s xs).2.funs = s.funs.filter (fun e => decide (e.1 ∉ xs)) := by
  induction xs with
  | nil =>
    intro s c
    refine ⟨c, id, ?_, ?_⟩ <;> (simp only [removeFuns]; symm; rw [List.filter_eq_self]; simp)
  | cons x xs ih =>
    intro s c
    obtain ⟨c1, a1, f1⟩ := removeFun_con c x
    obtain ⟨c2, a2, f2, g2⟩ := ih c1
    refine ⟨c2, fun a => a2 (a1 a), ?_, ?_⟩
    · show (removeFuns (removeFun s x).2 xs).2.fnames = _
      rw [f2, f1, List.filter_filter]
      apply List.filter_congr
      intro y _
      by_cases h : y = x <;> simp [h]
    · show (removeFuns (removeFun s x).2 xs).2.funs = _
      rw [g2, removeFun_funs, List.filter_filter]
      apply List.filter_congr
      intro y _
      by_cases h : y.1 = x <;> simp [h]

theorem fresh_consistent : Consistent fresh := by
  refine ⟨rfl, ?_, ?_, ?_, ?_, ?_, ?_⟩ <;> simp [fresh, InGroup]

theorem op_consistent {n : Nat} {s s' : S} {o : Op} (h : o.run n s = .ok s') (c : Consistent s) : Consistent s' := by
  cases o with
  | file pres text =>
    have h : parseFile pres n s text = .ok s' := h
    unfold parseFile at h
    exact (loop_from _ h).con c
  | str pres file text =>
    have h : parseStr ⟨file, pres⟩ n s text = .ok s' := h
    unfold parseStr at h
    split at h
    · cases h
    · exact (loop_from _ h).con c
  | remove names =>
    injection h with h; subst h
    exact (removeFuns_con names c).1
  | declare name ps out =>
    simp only [Op.run] at h
    obtain ⟨fs, hf, h⟩ := bind_ok h
    injection h with h; subst h
    obtain ⟨h1, rfl⟩ := mkFuncDec_ok hf
    refine { c with funs := ?_, listed := ?_ }
    · simpa using nodup_snoc c.funs ((lookup_none_iff _ _).1 h1)
    · intro x hx; rw [List.map_append]; exact List.mem_append_left _ (c.listed x hx)
  | define name ps out body r =>
    simp only [Op.run] at h
    obtain ⟨fs, hf, h⟩ := bind_ok h
    injection h with h; subst h
    unfold mkFuncBody at hf
    split at hf
    · injection hf with hf; subst hf
      refine { c with funs := ?_, listed := ?_ }
      · rw [setFn_keys]; exact c.funs
      · rw [setFn_keys]; exact c.listed
    · cases hf
    · rename_i h1
      injection hf with hf; subst hf
      refine { c with funs := ?_, listed := ?_ }
      · simpa using nodup_snoc c.funs ((lookup_none_iff _ _).1 h1)
      · intro x hx; rw [List.map_append]; exact List.mem_append_left _ (c.listed x hx)

/-- **C71, the tables stay consistent.**  After every sequence of texts, files, declarations and definitions through the API and
removals that does not end the process: each soft assertion has one weight, groups name existing assertions, a name has one entry, and
each listed function has an entry and is listed once. -/
theorem history_consistent {ops : List Op} {s : S} (h : History ops s) : Consistent s := by
  induction h with
  | nil => exact fresh_consistent
  | snoc _ r ih => exact op_consistent r ih

theorem getFunctions_spec (s : S) : ∀ xs : List (List Char), (∀ x ∈ xs, x ∈ s.funs.map Prod.fst) →
    ∃ fs, getFunctions s xs = .ok fs ∧ fs.length = xs.length ∧ ∀ i (h : i < xs.length), s.funs.lookup xs[i] = fs[i]? := by
  intro xs
  induction xs with
  | nil => intro _; exact ⟨[], rfl, rfl, fun i h => absurd h (by simp)⟩
  | cons x xs ih =>
    intro hx
    obtain ⟨fs, h1, h2, h3⟩ := ih fun y hy => hx y (List.mem_cons_of_mem _ hy)
    cases hl : s.funs.lookup x with
    | none => exact absurd (hx x List.mem_cons_self) ((lookup_none_iff _ _).1 hl)
    | some f =>
      refine ⟨f :: fs, ?_, by simp [h2], ?_⟩
      · unfold getFunctions; rw [hl, h1]; rfl
      · intro i hi
        cases i with
        | zero => simpa using hl
        | succ i => simpa using h3 i (by simpa using hi)

/-- **C71, the functions can be listed.**  After every such history, `getFunctions` does not throw and returns, in order, the entries of
the listed names; a name that is listed is declared. -/
theorem functions_listed {ops : List Op} {s : S} (h : History ops s) :
    (∃ fs, getFunctions s s.fnames = .ok fs ∧ fs.length = s.fnames.length ∧
      ∀ i (h : i < s.fnames.length), s.funs.lookup s.fnames[i] = fs[i]?) ∧
    ∀ x ∈ s.fnames, isDeclaredFunction s x = true := by
  have c := history_consistent h
  refine ⟨getFunctions_spec s _ c.listed, fun x hx => ?_⟩
  unfold isDeclaredFunction
  cases hl : s.funs.lookup x with
  | none => exact absurd (c.listed x hx) ((lookup_none_iff _ _).1 hl)
  | some f => rfl

/-- an operation that does not use the API to make functions -/
def Op.Text : Op → Prop
  | .declare .. | .define .. => False
  | _ => True

/-- **C71 (part).**  If functions are only introduced by texts, exactly the declared functions are listed. -/
theorem functions_all_listed_partial {ops : List Op} {s : S} (h : History ops s) (ht : ∀ o ∈ ops, o.Text) (x : List Char) :
    x ∈ s.fnames ↔ isDeclaredFunction s x = true := by
  have key : AllListed s := by
    induction h with
    | nil => intro x hx; simp [fresh] at hx
    | snoc hh r ih =>
      rename_i ops s s' o n
      have a := ih fun o ho => ht o (List.mem_append_left _ ho)
      have to := ht o (by simp)
      cases o with
      | file pres text =>
        have h : parseFile pres n s text = .ok s' := r
        unfold parseFile at h
        exact (loop_from _ h).all a
      | str pres file text =>
        have h : parseStr ⟨file, pres⟩ n s text = .ok s' := r
        unfold parseStr at h
        split at h
        · cases h
        · exact (loop_from _ h).all a
      | remove names =>
        injection r with r; subst r
        exact (removeFuns_con names (history_consistent hh)).2.1 a
      | declare => exact to.elim
      | define => exact to.elim
  constructor
  · exact (functions_listed h).2 x
  · intro hx
    apply key
    unfold isDeclaredFunction at hx
    cases hl : s.funs.lookup x with
    | none => rw [hl] at hx; cases hx
    | some f =>
      apply Classical.byContradiction
      intro hn
      rw [(lookup_none_iff _ _).2 hn] at hl; cases hl

/-- **C71 (violated).**  A function declared through the API is never listed, whatever the parser did before, though the name counts as
declared: `getFunctions`, and with it the written problem, lacks it. -/
theorem functions_all_listed_violated {ops : List Op} {s : S} (h : History ops s) (name : List Char) (ps : List Srt) (out : Srt)
    (hn : isDeclaredFunction s name = false) :
    ∃ s', History (ops ++ [.declare name ps out]) s' ∧ isDeclaredFunction s' name = true ∧ name ∉ s'.fnames := by
  have hl : s.funs.lookup name = none := by unfold isDeclaredFunction at hn; simpa using hn
  refine ⟨{ s with funs := s.funs ++ [(name, .dec ps out)] }, .snoc h (n := 0) ?_, ?_, ?_⟩
  · show (mkFuncDec s.funs name ps out >>= fun fs => Res.ok { s with funs := fs }) = _
    unfold mkFuncDec; rw [hl]; rfl
  · unfold isDeclaredFunction; dsimp only; rw [lookup_snoc hl]; rfl
  · exact fun hx => absurd ((history_consistent h).listed _ hx) ((lookup_none_iff _ _).1 hl)

theorem lookup_filter {β : Type} (l : List (List Char × β)) (q : List Char → Bool) (x : List Char) :
    (l.filter fun e => q e.1).lookup x = if q x then l.lookup x else none := by
  induction l with
  | nil => simp
  | cons e l ih =>
    obtain ⟨k, v⟩ := e
    rw [List.filter_cons]
    by_cases hx : x = k
    · subst hx
      by_cases hq : q x = true
      · simp [hq]
      · simp only [hq, Bool.false_eq_true, if_false]; rw [ih, if_neg hq]
    · have hb : (x == k) = false := by simpa using hx
      by_cases hq : q k = true
      · simp only [hq, if_true]; rw [List.lookup_cons, hb, List.lookup_cons, hb]; exact ih
      · simp only [hq, Bool.false_eq_true, if_false]; rw [List.lookup_cons, hb]; exact ih

/-- **C71, removal.**  After every history, removing functions leaves none of the names declared or listed, leaves the entries and the
order of all other functions and everything else as it was, and returns the number of given names that were declared (a name given
twice counts once). -/
theorem removeFuns_exact {ops : List Op} {s : S} (h : History ops s) (xs : List (List Char)) :
    (∀ y, (removeFuns s xs).2.funs.lookup y = if y ∈ xs then none else s.funs.lookup y) ∧
    (removeFuns s xs).2.fnames = s.fnames.filter (fun y => decide (y ∉ xs)) ∧
    (∃ fs nms, (removeFuns s xs).2 = { s with funs := fs, fnames := nms }) ∧
    ∃ ys : List (List Char), ys.Nodup ∧ (∀ y, y ∈ ys ↔ y ∈ xs ∧ isDeclaredFunction s y = true) ∧ (removeFuns s xs).1 = ys.length := by
  have c := history_consistent h
  refine ⟨?_, (removeFuns_con xs c).2.2.1, ?_, ?_⟩
  · intro y
    rw [(removeFuns_con xs c).2.2.2, lookup_filter _ (fun y => decide (y ∉ xs))]
    by_cases hy : y ∈ xs <;> simp [hy]
  · clear c h
    induction xs generalizing s with
    | nil => exact ⟨s.funs, s.fnames, rfl⟩
    | cons x xs ih =>
      have : ∃ fs nms, (removeFun s x).2 = { s with funs := fs, fnames := nms } := by
        unfold removeFun
        split
        · exact ⟨_, _, rfl⟩
        · exact ⟨s.funs, s.fnames, rfl⟩
      obtain ⟨fs, nms, e⟩ := this
      obtain ⟨fs', nms', e'⟩ := ih (s := (removeFun s x).2)
      refine ⟨fs', nms', ?_⟩
      show (removeFuns (removeFun s x).2 xs).2 = _
      rw [e', e]
  · clear h
    induction xs generalizing s with
    | nil => exact ⟨[], by simp, by simp, rfl⟩
    | cons x xs ih =>
      obtain ⟨ys, h1, h2, h3⟩ := ih (removeFun_con c x).1
      have hd : ∀ y, isDeclaredFunction (removeFun s x).2 y = (decide (y ≠ x) && isDeclaredFunction s y) := by
        intro y
        unfold isDeclaredFunction
        rw [removeFun_funs, lookup_filter _ (fun y => y != x)]
        by_cases hy : y = x <;> simp [hy]
      have e : (removeFuns s (x :: xs)).1 = (removeFun s x).1 + (removeFuns (removeFun s x).2 xs).1 := rfl
      by_cases hx : isDeclaredFunction s x = true
      · refine ⟨x :: ys, ?_, ?_, ?_⟩
        · rw [List.nodup_cons]
          refine ⟨fun hm => ?_, h1⟩
          have := ((h2 x).1 hm).2
          rw [hd] at this
          simp at this
        · intro y
          rw [List.mem_cons, List.mem_cons, h2, hd]
          by_cases hy : y = x
          · subst hy; simp [hx]
          · simp [hy]
        · have : (removeFun s x).1 = 1 := by
            unfold isDeclaredFunction at hx
            unfold removeFun
            cases hl : s.funs.lookup x with
            | none => rw [hl] at hx; cases hx
            | some f => rfl
          rw [e, this, h3, List.length_cons]; omega
      · refine ⟨ys, h1, ?_, ?_⟩
        · intro y
          rw [List.mem_cons, h2, hd]
          by_cases hy : y = x
          · subst hy; simp [hx]
          · simp [hy]
        · have : (removeFun s x).1 = 0 := by
            unfold isDeclaredFunction at hx
            unfold removeFun
            cases hl : s.funs.lookup x with
            | none => rfl
            | some f => rw [hl] at hx; exact absurd rfl hx
          rw [e, this, h3]; omega

/-- a history with two texts, a removal and an API declaration: `f` is declared and removed, `g` is defined, `h` declared by the API -/
def exOps : List Op := [
  .str true false cs!"(declare-fun f (Int) Int)(assert-soft true :weight 2 :id a)",
  .str true false cs!"(define-fun g ((x Int)) Int x)(assert true)",
  .remove [cs!"f", cs!"f", cs!"k"],
  .declare cs!"h" [BOOL_SORT] BOOL_SORT]

/-- the operations, one after the other -/
def runAll (n : Nat) : S → List Op → Res S
  | s, [] => .ok s
  | s, o :: os => do let s ← o.run n s; runAll n s os

theorem runAll_history {n : Nat} : ∀ (os : List Op) {ops : List Op} {s s' : S}, History ops s → runAll n s os = .ok s' →
    History (ops ++ os) s' := by
  intro os
  induction os with
  | nil => intro ops s s' h r; injection r with r; subst r; simpa using h
  | cons o os ih =>
    intro ops s s' h r
    obtain ⟨s1, h1, h2⟩ := bind_ok (show (o.run n s >>= fun s => runAll n s os) = _ from r)
    have := ih (History.snoc h h1) h2
    simpa using this

/-- The history is one, with the tables as expected. -/
example : ∃ s, History exOps s ∧ s.fnames = [cs!"g"] ∧ s.funs.map Prod.fst = [cs!"g", cs!"h"] ∧ s.asserts.length = 1 ∧
    s.soft.length = 1 ∧ s.weights = [.int cs!"2"] ∧ s.softGroups = [(cs!"a", [0])] := by
  have h : ∃ s, runAll 200 fresh exOps = .ok s ∧ s.fnames = [cs!"g"] ∧ s.funs.map Prod.fst = [cs!"g", cs!"h"] ∧
      s.asserts.length = 1 ∧ s.soft.length = 1 ∧ s.weights = [.int cs!"2"] ∧ s.softGroups = [(cs!"a", [0])] := by
    cases hr : runAll 200 fresh exOps with
    | ok s =>
      refine ⟨s, rfl, ?_⟩
      have : (match runAll 200 fresh exOps with
        | .ok s => decide (s.fnames = [cs!"g"] ∧ s.funs.map Prod.fst = [cs!"g", cs!"h"] ∧ s.asserts.length = 1 ∧ s.soft.length = 1 ∧
          s.weights = [.int cs!"2"] ∧ s.softGroups = [(cs!"a", [0])])
        | _ => false) = true := by decide +kernel
      rw [hr] at this
      exact of_decide_eq_true this
    | _ =>
      have : (match runAll 200 fresh exOps with | .ok _ => true | _ => false) = true := by decide +kernel
      rw [hr] at this; cases this
  obtain ⟨s, h1, h2⟩ := h
  exact ⟨s, by simpa using runAll_history exOps .nil h1, h2⟩

end SMT.Script
