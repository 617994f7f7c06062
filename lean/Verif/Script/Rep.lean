import Verif.Script.Steps

/-! # What is recorded (lemmas for C56, C57) -/

namespace SMT.Script
open SMT SMT.Text SMT.Lex SMT.Sorts SMT.Parse

set_option linter.unusedSimpArgs false
set_option linter.unusedVariables false

/-! ## Names -/

theorem namings_other {σ : Type} {g : Tag σ} {cs : List (T σ)} (h : ∀ a t, ¬ (g = .named (some a) ∧ cs = [t])) :
    namings (.mk g cs) = namingsL cs := by
  cases g with
  | named o =>
    cases o with
    | none => simp [namings]
    | some a =>
      cases cs with
      | nil => simp [namings]
      | cons t ts =>
        cases ts with
        | nil => exact absurd ⟨rfl, rfl⟩ (h a t)
        | cons u us => simp [namings]
  | _ => simp [namings]

mutual
theorem namings_map {σ τ : Type} (f : σ → τ) : ∀ t : T σ, namings (t.map f) = (namings t).map fun x => (x.1, x.2.map f)
  | .mk g cs => by
    by_cases h : ∃ a t, g = .named (some a) ∧ cs = [t]
    · obtain ⟨a, t, rfl, rfl⟩ := h
      have := namingsL_map f [t]
      simp only [namingsL, mapL, List.append_nil] at this
      simp only [T.map, mapL, Tag.map, namings, this, List.map_append, List.map_cons, List.map_nil]
    · have h2 : ∀ a t, ¬ (g = .named (some a) ∧ cs = [t]) := fun a t e => h ⟨a, t, e⟩
      have h3 : ∀ a t, ¬ (g.map f = .named (some a) ∧ mapL f cs = [t]) := by
        rintro a t ⟨e1, e2⟩
        cases g <;> simp only [Tag.map, reduceCtorEq] at e1
        cases cs with
        | nil => cases e2
        | cons u us =>
          cases us with
          | nil => injection e1 with e1; subst e1; exact h2 _ _ ⟨rfl, rfl⟩
          | cons v vs => simp [mapL] at e2
      rw [T.map, namings_other h3, namings_other h2, namingsL_map f cs]
theorem namingsL_map {σ τ : Type} (f : σ → τ) : ∀ ts : List (T σ), namingsL (mapL f ts) = (namingsL ts).map fun x => (x.1, x.2.map f)
  | [] => rfl
  | t :: ts => by
    simp only [mapL, namingsL, namings_map f t, namingsL_map f ts, List.map_append]
end

theorem namings_same {t : T Srt} {e : T D} (h : Same t e) :
    (namings t).map (fun x => (x.1, x.2.map sortOf)) = (namings e).map fun x => (x.1, x.2.map some) := by
  rw [← namings_map, ← namings_map, h]

theorem mapL_eq {σ τ : Type} (f : σ → τ) : ∀ ts : List (T σ), mapL f ts = ts.map (T.map f)
  | [] => rfl
  | t :: ts => by simp [mapL, mapL_eq f ts]

theorem namingsL_same {ts : List (T Srt)} {es : List (T D)} (h : ts.map (T.map sortOf) = es.map (T.map some)) :
    (namingsL ts).map (fun x => (x.1, x.2.map sortOf)) = (namingsL es).map fun x => (x.1, x.2.map some) := by
  rw [← namingsL_map, ← namingsL_map, mapL_eq, mapL_eq, h]

theorem namingsL_append {σ : Type} : ∀ a b : List (T σ), namingsL (a ++ b) = namingsL a ++ namingsL b
  | [], b => rfl
  | t :: a, b => by simp [namingsL, namingsL_append a b]

/-! ## Groups -/

theorem addTo_mem (g : List Char) (i : Nat) (h : List Char) (j : Nat) : ∀ gs : List (List Char × List Nat),
    (∃ is, (addTo g i gs).lookup h = some is ∧ j ∈ is) ↔ (h = g ∧ j = i) ∨ ∃ is, gs.lookup h = some is ∧ j ∈ is
  | [] => by
    by_cases e : h = g
    · simp [addTo, e]
    · have : (h == g) = false := by simpa using e
      simp [addTo, List.lookup_cons, this, e]
  | (k, is) :: gs => by
    have ih := addTo_mem g i h j gs
    by_cases e : k = g
    · subst e
      simp only [addTo, if_true, List.lookup_cons]
      by_cases e2 : h = k
      · subst e2
        simp [or_comm]
      · have : (h == k) = false := by simpa using e2
        simp [this, e2]
    · simp only [addTo, if_neg e, List.lookup_cons]
      by_cases e2 : h = k
      · subst e2
        simp [e]
      · have : (h == k) = false := by simpa using e2
        simp only [this]
        exact ih

/-- an element with or without a group is added -/
theorem group_add {α : Type} {gs : List (List Char × List Nat)} {L : List α} (f : α → Option (List Char))
    (h : ∀ g i, (∃ is, gs.lookup g = some is ∧ i ∈ is) ↔ ∃ a, L[i]? = some a ∧ f a = some g) (x : α) (hx : ∀ w, f x = some w → w ≠ []) :
    ∀ g i, (∃ is, (if (f x).getD [] = [] then gs else addTo ((f x).getD []) L.length gs).lookup g = some is ∧ i ∈ is) ↔
      ∃ a, (L ++ [x])[i]? = some a ∧ f a = some g := by
  intro g i
  have key : (∃ a, (L ++ [x])[i]? = some a ∧ f a = some g) ↔ (f x = some g ∧ i = L.length) ∨ ∃ a, L[i]? = some a ∧ f a = some g := by
    rw [List.getElem?_append]
    split
    · rename_i hi
      constructor
      · exact .inr
      · rintro (⟨_, rfl⟩ | h)
        · omega
        · exact h
    · rename_i hi
      have hn : L[i]? = none := List.getElem?_eq_none (by omega)
      by_cases e : i = L.length
      · subst e; simp [hn]
      · obtain ⟨d, hd⟩ : ∃ d, i - L.length = d + 1 := ⟨i - L.length - 1, by omega⟩
        simp [hd, e, hn]
  rw [key]
  cases hf : f x with
  | none => simp [h]
  | some w =>
    have := hx w hf
    simp only [Option.getD_some, if_neg this]
    rw [addTo_mem, h]
    constructor
    · rintro (⟨rfl, rfl⟩ | h)
      · exact .inl ⟨rfl, rfl⟩
      · exact .inr h
    · rintro (⟨e, rfl⟩ | h)
      · injection e with e; exact .inl ⟨e.symm, rfl⟩
      · exact .inr h

/-! ## Objectives -/

theorem IsObjs.append {a b : List (Option (Obj Srt))} {c d : List Goal} (h1 : IsObjs a c) (h2 : IsObjs b d) : IsObjs (a ++ b) (c ++ d) := by
  induction a generalizing c with
  | nil => cases h1; exact h2
  | cons o a ih => cases h1 with | cons h h1 => exact .cons h (ih h1)

/-! ## Commands -/

/-- the parser is somewhere between commands, and has recorded the commands -/
structure State (cfg : Cfg) (cs : List Cmd) (s : S) : Prop where
  rep : Represents cs s
  clean : Clean cfg cs s.p

theorem Represents.setP {cs : List Cmd} {s : S} (h : Represents cs s) (q : P) : Represents cs { s with p := q } :=
  ⟨h.1, h.2, h.3, h.4, h.5, h.6, h.7, h.8, h.9, h.10, h.11, h.12, h.13, h.14, h.15, h.16, h.17⟩

theorem Clean.more {cfg : Cfg} {cs : List Cmd} {p : P} (h : Clean cfg cs p) {c : Cmd} (hc : c.sorts = none) : Clean cfg (cs ++ [c]) p := by
  have : sorts (cs ++ [c]) = sorts cs := by simp [sorts, List.filterMap_append, hc]
  exact ⟨this ▸ h.good, this ▸ h.keys, h.depth, h.ph, h.bound⟩

section
variable {cs : List Cmd} {s : S} (h : Represents cs s)
include h

/-- the fields of a state after a command, where the command says nothing about them -/
macro "keep" h:term : tactic => `(tactic|
  (simpa [assertions, softs, vars, functions, fnNames, goals, defined, marks, logicOf, Cmd.assertion, Cmd.softs, Cmd.vars, Cmd.fn, Cmd.goals,
    Cmd.defined, Cmd.marks, Cmd.logics, Cmd.isCheckSat, Cmd.isGetModel, Cmd.isGetObjectives, List.filterMap_append, List.filterMap_cons,
    List.filterMap_nil, S.note] using $h))

theorem Represents.assert {t : T Srt} {e : T D} (ht : Same t e) (g a : Option (List Char)) (hg : ∀ w, g = some w → w ≠ [])
    (ha : ∀ w, a = some w → w ≠ []) : Represents (cs ++ [.assert e g a]) { s.note t with
      asserts := s.asserts ++ [t]
      groups := if g.getD [] = [] then s.groups else addTo (g.getD []) s.asserts.length s.groups
      named := if a.getD [] = [] then (s.note t).named else (a.getD [], t) :: (s.note t).named } where
  asserts := by
    have := h.asserts
    simp only [Same] at ht
    simp [assertions, List.filterMap_append, Cmd.assertion, ht] at this ⊢
    simpa using this
  groups := by
    have hl : s.asserts.length = (assertions cs).length := by
      have := congrArg List.length h.asserts
      simpa using this
    have := group_add (gs := s.groups) (L := assertions cs) (fun a => a.2.1) (fun g i => by
      rw [h.groups g i]
      constructor
      · rintro ⟨e, a, h⟩; exact ⟨_, h, rfl⟩
      · rintro ⟨⟨e, g', a⟩, h, rfl⟩; exact ⟨e, a, h⟩) (e, g, a) hg
    intro g' i
    have e2 : assertions (cs ++ [.assert e g a]) = assertions cs ++ [(e, g, a)] := by
      simp [assertions, List.filterMap_append, Cmd.assertion]
    have h2 := this g' i
    rw [← hl] at h2
    rw [e2]
    refine Iff.trans h2 ?_
    constructor
    · rintro ⟨⟨e, g', a⟩, h, rfl⟩; exact ⟨e, a, h⟩
    · rintro ⟨e, a, h⟩; exact ⟨_, h, rfl⟩
  named := by
    have h1 := h.named
    have h2 := namings_same ht
    have e2 : marks (cs ++ [.assert e g a]) = marks cs ++ (namings e ++ (a.map fun a => (a, e)).toList) := by
      simp [marks, Cmd.marks]
    rw [e2]
    simp only [Same] at ht
    cases a with
    | none =>
      simp only [S.note, Option.getD_none, if_true, List.map_append, List.map_reverse, h1, h2, Option.map_none, Option.toList_none,
        List.append_nil, List.reverse_append]
    | some w =>
      have := ha w rfl
      simp only [S.note, Option.getD_some, if_neg this, List.map_append, List.map_reverse, List.map_cons, List.map_nil, h1, h2, ht, Option.map_some,
        Option.toList_some, List.reverse_append, List.reverse_cons, List.reverse_nil, List.nil_append, List.cons_append]
  assumptions := h.assumptions
  soft := by keep h.soft
  weights := by keep h.weights
  softGroups := by keep h.softGroups
  vars := by keep h.vars
  funs := by keep h.funs
  fnames := by keep h.fnames
  objs := by keep h.objs
  objNames := by keep h.objNames
  objMap := by keep h.objMap
  checkSat := by keep h.checkSat
  getModel := by keep h.getModel
  getObjectives := by keep h.getObjectives
  logic := by keep h.logic

theorem Represents.softly {t : T Srt} {e : T D} (ht : Same t e) (w : Weight) (g : Option (List Char)) (hg : ∀ w, g = some w → w ≠ []) :
    Represents (cs ++ [.soft e w g]) { s.note t with
      soft := s.soft ++ [t]
      weights := s.weights ++ [w]
      softGroups := if g.getD [] = [] then s.softGroups else addTo (g.getD []) s.soft.length s.softGroups } where
  asserts := by keep h.asserts
  groups := by keep h.groups
  named := by
    have h1 := h.named
    have h2 := namings_same ht
    have e2 : marks (cs ++ [.soft e w g]) = marks cs ++ namings e := by simp [marks, Cmd.marks]
    rw [e2]
    simp only [S.note, List.map_append, List.map_reverse, h1, h2, List.reverse_append]
  assumptions := h.assumptions
  soft := by
    have := h.soft
    simp only [Same] at ht
    simp [softs, List.filterMap_append, Cmd.softs, ht] at this ⊢
    simpa using this
  weights := by
    have := h.weights
    simp [softs, List.filterMap_append, Cmd.softs] at this ⊢
    simpa using this
  softGroups := by
    have hl : s.soft.length = (softs cs).length := by
      have := congrArg List.length h.soft
      simpa using this
    have := group_add (gs := s.softGroups) (L := softs cs) (fun a => a.2.2) (fun g i => by
      rw [h.softGroups g i]
      constructor
      · rintro ⟨e, a, h⟩; exact ⟨_, h, rfl⟩
      · rintro ⟨⟨e, w', a⟩, h, rfl⟩; exact ⟨e, w', h⟩) (e, w, g) hg
    intro g' i
    have e2 : softs (cs ++ [.soft e w g]) = softs cs ++ [(e, w, g)] := by
      simp [softs, List.filterMap_append, Cmd.softs]
    have h2 := this g' i
    rw [← hl] at h2
    rw [e2]
    refine Iff.trans h2 ?_
    constructor
    · rintro ⟨⟨e, w', a⟩, h, rfl⟩; exact ⟨e, w', h⟩
    · rintro ⟨e, a, h⟩; exact ⟨_, h, rfl⟩
  vars := by keep h.vars
  funs := by keep h.funs
  fnames := by keep h.fnames
  objs := by keep h.objs
  objNames := by keep h.objNames
  objMap := by keep h.objMap
  checkSat := by keep h.checkSat
  getModel := by keep h.getModel
  getObjectives := by keep h.getObjectives
  logic := by keep h.logic

theorem Represents.addVar {so : Srt} {d : D} (hd : sortOf so = some d) (n : List Char) (hn : ∀ v ∈ Script.vars cs, v.1 ≠ n) :
    Represents (cs ++ [.var n d]) (s.var n so) := by
  have hl : s.vars.lookup n = none := by
    have h2 : s.vars.map (fun v => v.1) = (Script.vars cs).map fun v => v.1 := by
      have := congrArg (List.map fun v => v.1) h.vars
      simpa [Function.comp_def] using this
    rw [List.lookup_eq_none_iff]
    intro a ha
    have : a.1 ∈ (Script.vars cs).map fun v => v.1 := by rw [← h2]; exact List.mem_map_of_mem ha
    obtain ⟨v, hv, e⟩ := List.mem_map.1 this
    have := hn v hv
    rw [← e]
    simpa using this.symm
  have e : s.var n so = { s with vars := s.vars ++ [(n, so)] } := by unfold S.var; rw [hl]
  rw [e]
  exact {
    asserts := by keep h.asserts
    groups := by keep h.groups
    named := by keep h.named
    assumptions := h.assumptions
    soft := by keep h.soft
    weights := by keep h.weights
    softGroups := by keep h.softGroups
    vars := by
      have := h.vars
      simp [Script.vars, List.filterMap_append, Cmd.vars, hd] at this ⊢
      simpa using this
    funs := by keep h.funs
    fnames := by keep h.fnames
    objs := by keep h.objs
    objNames := by keep h.objNames
    objMap := by keep h.objMap
    checkSat := by keep h.checkSat
    getModel := by keep h.getModel
    getObjectives := by keep h.getObjectives
    logic := by keep h.logic }

theorem Represents.addFns {fs : List (List Char × Fn D)} {gs : List (List Char × Fn Srt)}
    (hf : gs.map (fun f => (f.1, f.2.map sortOf)) = fs.map fun f => (f.1, f.2.map some)) :
    Represents (cs ++ [.fns fs]) { s with
      funs := s.funs ++ gs
      fnames := s.fnames ++ gs.map fun g => g.1
      named := (namingsL (gs.flatMap fun f => f.2.body)).reverse ++ s.named } where
  asserts := by keep h.asserts
  groups := by keep h.groups
  named := by
    have h1 := h.named
    have hb : (gs.flatMap fun f => f.2.body).map (T.map sortOf) = (fs.flatMap fun f => f.2.body).map (T.map some) := by
      have hm : ∀ {σ τ : Type} (f : σ → τ) (g : Fn σ), (g.map f).body = g.body.map (T.map f) := by
        intro σ τ f g; cases g <;> rfl
      have := congrArg (List.flatMap fun f => f.2.body) hf
      simp only [List.flatMap_map, hm] at this
      simpa [List.map_flatMap] using this
    have h2 := namingsL_same hb
    have e2 : marks (cs ++ [.fns fs]) = marks cs ++ namingsL (fs.flatMap fun f => f.2.body) := by simp [marks, Cmd.marks]
    rw [e2]
    simp only [List.map_append, List.map_reverse, h1, h2, List.reverse_append]
  assumptions := h.assumptions
  soft := by keep h.soft
  weights := by keep h.weights
  softGroups := by keep h.softGroups
  vars := by keep h.vars
  funs := by
    have := h.funs
    simp [functions, Cmd.fn, hf] at this ⊢
    simpa using this
  fnames := by
    have := h.fnames
    have h2 := congrArg (List.map fun f => f.1) hf
    simp only [List.map_map, Function.comp_def] at h2
    simp [functions, Cmd.fn, fnNames] at this ⊢
    rw [this]
    simpa using h2
  objs := by keep h.objs
  objNames := by keep h.objNames
  objMap := by keep h.objMap
  checkSat := by keep h.checkSat
  getModel := by keep h.getModel
  getObjectives := by keep h.getObjectives
  logic := by keep h.logic

/-- commands without an effect on the recorded things, apart from flags and the logic -/
theorem Represents.other (c : Cmd) (hc : c.assertion = none ∧ c.softs = none ∧ c.vars = none ∧ c.fn = [] ∧ c.goals = none ∧ c.defined = none ∧
    c.marks = []) : Represents (cs ++ [c]) { s with
      checkSat := s.checkSat || c.isCheckSat
      getModel := s.getModel || c.isGetModel
      getObjectives := s.getObjectives || c.isGetObjectives
      logic := c.logics.getD s.logic } := by
  obtain ⟨c1, c2, c3, c4, c5, c6, c7⟩ := hc
  exact {
    asserts := by simpa [assertions, List.filterMap_append, c1] using h.asserts
    groups := by simpa [assertions, List.filterMap_append, c1] using h.groups
    named := by simpa [marks, c7] using h.named
    assumptions := h.assumptions
    soft := by simpa [softs, List.filterMap_append, c2] using h.soft
    weights := by simpa [softs, List.filterMap_append, c2] using h.weights
    softGroups := by simpa [softs, List.filterMap_append, c2] using h.softGroups
    vars := by simpa [Script.vars, List.filterMap_append, c3] using h.vars
    funs := by simpa [functions, c4] using h.funs
    fnames := by simpa [functions, c4] using h.fnames
    objs := by simpa [goals, List.filterMap_append, c5] using h.objs
    objNames := by simpa [defined, List.filterMap_append, c6] using h.objNames
    objMap := by simpa [defined, List.filterMap_append, c6] using h.objMap
    checkSat := by simp [h.checkSat]
    getModel := by simp [h.getModel]
    getObjectives := by simp [h.getObjectives]
    logic := by
      rw [h.logic]
      cases hl : c.logics with
      | none => simp [logicOf, List.filterMap_append, hl]
      | some l => simp [logicOf, List.filterMap_append, hl] }

/-- an objective, perhaps with a name -/
theorem Represents.addGoal {o : Obj Srt} {g : Goal} (ho : IsObj o g) (ms : List (List Char × T Srt)) (n : Option (List Char))
    (hn : ∀ w, n = some w → ∀ o ∈ defined cs, o.1 ≠ w)
    (hms : ms.map (fun x => (x.1, x.2.map sortOf)) = (Cmd.goal n g).marks.map fun x => (x.1, x.2.map some)) :
    Represents (cs ++ [.goal n g]) { s with
      objs := s.objs ++ [o]
      objMap := s.objMap ++ (n.map fun n => (n, some o)).toList
      named := ms.reverse ++ s.named } where
  asserts := by keep h.asserts
  groups := by keep h.groups
  named := by
    have h1 := h.named
    have e2 : marks (cs ++ [.goal n g]) = marks cs ++ (Cmd.goal n g).marks := by simp [marks]
    rw [e2]
    simp only [List.map_append, List.map_reverse, h1, hms, List.reverse_append]
  assumptions := h.assumptions
  soft := by keep h.soft
  weights := by keep h.weights
  softGroups := by keep h.softGroups
  vars := by keep h.vars
  funs := by keep h.funs
  fnames := by keep h.fnames
  objs := by
    have e2 : goals (cs ++ [.goal n g]) = goals cs ++ [g] := by simp [goals, List.filterMap_append, Cmd.goals]
    rw [e2]
    have := IsObjs.append h.objs (.cons ho .nil)
    simpa using this
  objNames := by
    have := h.objNames
    cases n with
    | none => keep this
    | some n =>
      simp [defined, List.filterMap_append, Cmd.defined] at this ⊢
      simpa using this
  objMap := by
    intro w g' hw
    cases n with
    | none =>
      have : (defined cs).lookup w = some g' := by
        simpa [defined, List.filterMap_append, List.filterMap_cons, Cmd.defined] using hw
      simpa using h.objMap w g' this
    | some n =>
      have e2 : defined (cs ++ [.goal (some n) g]) = defined cs ++ [(n, g)] := by simp [defined, List.filterMap_append, Cmd.defined]
      rw [e2, List.lookup_append] at hw
      cases hd : (defined cs).lookup w with
      | some g2 =>
        rw [hd] at hw
        simp only [Option.some_or, Option.some.injEq] at hw
        subst hw
        obtain ⟨o', h1, h2⟩ := h.objMap w g2 hd
        exact ⟨o', by simp [List.lookup_append, h1], h2⟩
      | none =>
        rw [hd] at hw
        simp only [Option.none_or, List.lookup_cons, List.lookup_nil] at hw
        have hwn : w = n := by
          by_cases e : w = n
          · exact e
          · have : (w == n) = false := by simpa using e
            rw [this] at hw
            cases hw
        subst hwn
        simp only [beq_self_eq_true, Option.some.injEq] at hw
        subst hw
        refine ⟨o, ?_, ho⟩
        have : s.objMap.lookup w = none := by
          rw [List.lookup_eq_none_iff]
          intro a ha
          have : a.1 ∈ (defined cs).map fun v => v.1 := by rw [← h.objNames]; exact List.mem_map_of_mem ha
          obtain ⟨v, hv, e⟩ := List.mem_map.1 this
          have := hn w rfl v hv
          rw [← e]
          simpa using this.symm
        simp [List.lookup_append, this]
  checkSat := by keep h.checkSat
  getModel := by keep h.getModel
  getObjectives := by keep h.getObjectives
  logic := by keep h.logic

end

end SMT.Script
