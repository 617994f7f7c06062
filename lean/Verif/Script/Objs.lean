import Verif.Script.Cmds

/-! # The commands for objectives (lemmas for C57) -/

namespace SMT.Script
open SMT SMT.Text SMT.Lex SMT.Sorts SMT.Parse

set_option linter.unusedSimpArgs false
set_option linter.unusedVariables false

/-- what `objKeys` has found -/
def okeys (as : List (List Char × List Char)) : OKeys where
  comp := (last cs!":comp" as).getD []
  eps := (last cs!":epsilon" as).getD []
  M := (last cs!":M" as).getD []
  gid := (last cs!":id" as).getD []

theorem objKeys_at {cfg : Cfg} : ∀ (as : List (List Char × List Char)) (n : Nat) (as0 : List (List Char × List Char)) {xs : List Sexp} {b : List Char},
    as.length ≤ n → LayL cfg.file (attrs as ++ xs) b → (∀ x, xs.head? = some x → NotKw x) →
    (∀ a ∈ as, a.1 ∈ [cs!":comp", cs!":epsilon", cs!":M", cs!":id"]) →
    ∀ (p : P) (l : Nat) (r : List Char), ∃ b' l', LayL cfg.file xs b' ∧ l' + nls b' = l + nls b ∧
      objKeys cfg n (okeys as0) (p.at l (b ++ ')' :: r)) = .ok (okeys (as0 ++ as), p.at l' (b' ++ ')' :: r))
  | [], n, as0, xs, b, _, hl, hx, _, p, l, r => by
    refine ⟨b, l, hl, rfl, ?_⟩
    cases n with
    | zero => simp [objKeys]
    | succ n =>
      rw [objKeys, kw_none (xs := xs) hl hx]
      simp
  | (k, v) :: as, 0, _, _, _, h, _, _, _, _, _, _ => by simp at h
  | (k, v) :: as, n + 1, as0, xs, b, h, hl, hx, hk, p, l, r => by
    simp only [attrs, List.cons_append] at hl
    have hk0 := hk (k, v) (by simp)
    simp only [List.mem_cons, List.not_mem_nil, or_false] at hk0
    have hkw : ∃ w, (k, w) ∈ kwTable ∧ (w = .comp ∧ k = cs!":comp" ∨ w = .epsilon ∧ k = cs!":epsilon" ∨ w = .M ∧ k = cs!":M" ∨
        w = .id ∧ k = cs!":id") := by
      rcases hk0 with rfl | rfl | rfl | rfl
      · exact ⟨.comp, by simp [kwTable], .inl ⟨rfl, rfl⟩⟩
      · exact ⟨.epsilon, by simp [kwTable], .inr (.inl ⟨rfl, rfl⟩)⟩
      · exact ⟨.M, by simp [kwTable], .inr (.inr (.inl ⟨rfl, rfl⟩))⟩
      · exact ⟨.id, by simp [kwTable], .inr (.inr (.inr ⟨rfl, rfl⟩))⟩
    obtain ⟨w, hw, hw2⟩ := hkw
    obtain ⟨b1, l1, h1, e1, k1⟩ := kw_at hl hw p l r
    obtain ⟨b2, l2, h2, e2, e3, _, _⟩ := word_at h1 p l1 r
    obtain ⟨b3, l3, h3, e4, e5⟩ := objKeys_at as n (as0 ++ [(k, v)]) (by simpa using h) h2 hx (fun a ha => hk a (by simp [ha])) p l2 r
    refine ⟨b3, l3, h3, by omega, ?_⟩
    rw [objKeys, k1]
    simp only [Res.ok_bind, e2]
    rw [List.append_assoc] at e5
    rw [List.singleton_append] at e5
    rw [← e5]
    rcases hw2 with ⟨rfl, rfl⟩ | ⟨rfl, rfl⟩ | ⟨rfl, rfl⟩ | ⟨rfl, rfl⟩ <;> simp [okeys, last_snoc]

theorem comp_is {logic : List Char} {k : OptKind} {o : Option (List Char)} {c : Comp} (h : CompIs logic k o c) :
    (if o.getD [] = [] then defaultComp logic k else compOf (o.getD [])) = c := by
  cases h with
  | given hc => cases c <;> first | rfl | exact absurd rfl hc
  | usual hu =>
    rw [Option.getD_none, if_pos rfl]
    unfold usual at hu
    by_cases h1 : logic ∈ mixed
    · simp [h1] at hu
    rw [if_neg h1] at hu
    simp only [mixed, List.mem_cons, List.not_mem_nil, or_false, not_or] at h1
    by_cases h2 : logic ∈ [cs!"QF_BV", cs!"QF_ABV", cs!"QF_AUFBV"]
    · rw [if_pos h2] at hu
      simp only [Option.some.injEq] at hu
      rw [← hu]
      simp only [List.mem_cons, List.not_mem_nil, or_false] at h2
      rcases h2 with rfl | rfl | rfl <;> rfl
    · rw [if_neg h2] at hu
      by_cases h3 : logic = cs!"QF_FP"
      · rw [if_pos h3] at hu
        simp only [Option.some.injEq] at hu
        subst h3
        rw [← hu]
        rfl
      · rw [if_neg h3] at hu
        simp only [Option.some.injEq] at hu
        rw [← hu]
        simp only [List.mem_cons, List.not_mem_nil, or_false, not_or] at h2
        unfold defaultComp
        split
        · rfl
        · rw [if_neg (by simp only [List.mem_cons, List.not_mem_nil, or_false, not_or]; simp [h1, h2]),
            if_neg (by simp only [List.mem_cons, List.not_mem_nil, or_false, not_or]; simp [h1, h3])]

/-- the objective is read -/
theorem single_at {cfg : Cfg} {cs : List Cmd} {k : OptKind} {x : Sexp} {e : T D} {as bs : List (List Char × List Char)} {c : Comp}
    (hk2 : k = .minimize ∨ k = .maximize) (hx : Term (sorts cs) x e)
    (ha : as.length ≤ 4) (hb : bs.length ≤ 4) (hk : ∀ a ∈ as ++ bs, a.1 ∈ [cs!":comp", cs!":epsilon", cs!":M", cs!":id"])
    (hc : CompIs (logicOf cs) k (last cs!":comp" (as ++ bs)) c) {b : List Char} {s : S} (hs : State cfg cs s)
    (hl : LayL cfg.file (attrs as ++ x :: attrs bs) b) (l : Nat) (r : List Char) :
    ∃ (o : Obj Srt) (t : T Srt) (q : P) (K : Nat) (b' : List Char) (l' : Nat), Same t e ∧ Clean cfg cs q ∧ LayL cfg.file [] b' ∧
      l' + nls b' = l + nls b ∧
      IsObj o (.single k (last cs!":id" (as ++ bs)) e c (last cs!":epsilon" (as ++ bs)) (last cs!":M" (as ++ bs))) ∧
      ∀ m, K ≤ m → singleObj cfg m k { s with p := s.p.at l (b ++ ')' :: r) } = .ok (o,
        { s with p := q.at l' (b' ++ ')' :: r), objs := s.objs ++ [o], named := (namings t).reverse ++ s.named }) := by
  obtain ⟨b1, l1, i1, i2, i3⟩ := objKeys_at as 4 [] ha hl
    (fun y hy => by simp only [List.head?_cons, Option.some.injEq] at hy; subst hy; exact hx.notKw)
    (fun a h => hk a (by simp [h])) s.p l r
  obtain ⟨t, q, K, b2, l2, j1, j2, j3, j4, j5⟩ := term_at hs.clean hx i1 l1 r
  obtain ⟨b3, l3, m1, m2, m3⟩ := objKeys_at (xs := []) bs 4 as hb (by simpa using j3) (by simp) (fun a h => hk a (by simp [h])) q l2 r
  have hne : ∀ key v, last key (as ++ bs) = some v → v ≠ [] := by
    intro key v hv
    have := last_mem hv
    rcases List.mem_append.1 this with h | h
    · exact (attrs_ne hl).1 _ h
    · exact (attrs_ne (xs := []) (by simpa using j3)).1 _ h
  have hsome : ∀ key, decide ((last key (as ++ bs)).getD [] ≠ []) = (last key (as ++ bs)).isSome := by
    intro key
    cases hv : last key (as ++ bs) with
    | none => rfl
    | some v => simp [hne key v hv]
  refine ⟨mkObj s.logic k (okeys (as ++ bs)) t, t, q, K, b3, l3, j1, j2, m1, by omega, ?_, fun m hm => ?_⟩
  · have : mkObj s.logic k (okeys (as ++ bs)) t = .single k ((last cs!":id" (as ++ bs)).getD []) (some t) c
        (last cs!":epsilon" (as ++ bs)).isSome (last cs!":M" (as ++ bs)).isSome := by
      unfold mkObj
      rw [if_neg (by rcases hk2 with rfl | rfl <;> simp)]
      show Obj.single k ((last cs!":id" (as ++ bs)).getD []) (some t)
        (if (last cs!":comp" (as ++ bs)).getD [] = [] then defaultComp s.logic k else compOf ((last cs!":comp" (as ++ bs)).getD []))
        (decide ((last cs!":epsilon" (as ++ bs)).getD [] ≠ [])) (decide ((last cs!":M" (as ++ bs)).getD [] ≠ [])) = _
      rw [hsome, hsome, hs.rep.logic, comp_is hc]
    rw [this]
    exact .single j1
  · rw [singleObj]
    have h0 : ({} : OKeys) = okeys [] := rfl
    simp only [h0, i3, Res.ok_bind, j5 m hm, List.nil_append, m3, Res.pure_eq, S.note]

theorem goal_marks {t : T Srt} {e : T D} (h : Same t e) (n : Option (List Char)) (k : OptKind) (g : Option (List Char)) (c : Comp)
    (a b : Option (List Char)) : (namings t).map (fun x => (x.1, x.2.map sortOf)) =
      (Cmd.goal n (.single k g e c a b)).marks.map fun x => (x.1, x.2.map some) := by
  rw [namings_same h]
  rfl

theorem does_goal {cfg : Cfg} {cs : List Cmd} {xs : List Sexp} {g : Goal} (h : GoalIs cs xs g) : Does cfg cs (.goal none g) (.list xs) := by
  cases h with
  | mk hh hx ha hb hk hc =>
  rename_i h k x e as bs c
  refine does_tail ?_
  intro b r l s hl hs
  have hk2 : k = .minimize ∨ k = .maximize := by cases hh <;> simp
  obtain ⟨o, t, q, K, b', l', h1, h2, h3, h4, h5, h6⟩ := single_at hk2 hx ha hb hk hc hs hl l r
  refine ⟨_, skipTo (q.at l' (b' ++ ')' :: r)), K, ⟨(hs.rep.addGoal h5 (namings t) none (by simp) (goal_marks h1 _ _ _ _ _ _)).setP q, h2.more rfl⟩,
    ?_, fun m hm => ?_⟩
  · rw [skip_rest h3, h4]
  · have : dispatch cfg m h { s with p := s.p.at l (b ++ ')' :: r) } =
      (do let s ← cmdObj cfg m k { s with p := s.p.at l (b ++ ')' :: r) }; return (false, s)) := by cases hh <;> rfl
    rw [this, cmdObj]
    simp only [h6 m hm, Res.ok_bind, Res.pure_eq]
    simp

theorem tail_define {cfg : Cfg} {cs : List Cmd} {n : List Char} {xs : List Sexp} {g : Goal} (h : GoalIs cs xs g) (hn : ∀ o ∈ defined cs, o.1 ≠ n) :
    Tail cfg cs (.goal (some n) g) cs!"define-objective" [.atom n, .list xs] := by
  cases h with
  | mk hh hx ha hb hk hc =>
  rename_i h k x e as bs c
  intro b r l s hl hs
  have hk2 : k = .minimize ∨ k = .maximize := by cases hh <;> simp
  obtain ⟨b1, l1, e1, e2, e3, _, _⟩ := word_at hl s.p l r
  have e4 := kw_none e1 (by simp [NotKw]) s.p l1 r
  obtain ⟨b2, l2, r2, b3, l3, f1, f2, f3, f4, f5, _⟩ := list_at e1 s.p l1 r
  obtain ⟨b4, l4, g1, g2, g3, _, _⟩ := word_at f1 s.p l2 r2
  obtain ⟨o, t, q, K, b', l', h1, h2, h3, h4, h5, h6⟩ := single_at hk2 hx ha hb hk hc hs g1 l4 r2
  obtain ⟨c1, c2, _, c4⟩ := close_at h3 q l' r2
  refine ⟨_, skipTo (q.at l3 (b3 ++ ')' :: r)), K,
    ⟨(hs.rep.addGoal h5 (namings t) (some n) (by rintro _ ⟨⟩; exact hn) (goal_marks h1 _ _ _ _ _ _)).setP q, h2.more rfl⟩,
    ?_, fun m hm => ?_⟩
  · rw [skip_rest f2, f5, e3]
  · have : dispatch cfg m cs!"define-objective" { s with p := s.p.at l (b ++ ')' :: r) } =
      (do let s ← cmdDefObj cfg m { s with p := s.p.at l (b ++ ')' :: r) }; return (false, s)) := rfl
    rw [this, cmdDefObj]
    have hlk : s.objMap.lookup n = none := by
      rw [List.lookup_eq_none_iff]
      intro a ha
      have : a.1 ∈ (defined cs).map fun v => v.1 := by rw [← hs.rep.objNames]; exact List.mem_map_of_mem ha
      obtain ⟨v, hv, e⟩ := List.mem_map.1 this
      have := hn v hv
      rw [← e]
      simpa using this.symm
    have hsy : symAfter cfg .id .null (s.p.at l1 (b1 ++ ')' :: r)) = .ok ([], s.p.at l1 (b1 ++ ')' :: r)) := by
      simp [symAfter]
    have hop : h = cs!"maximize" ∨ h = cs!"minimize" := by cases hh <;> simp
    have hko : (if h = cs!"maximize" then OptKind.maximize else OptKind.minimize) = k := by cases hh <;> rfl
    have e5 : q.at l' (b' ++ ')' :: r2) = q.at l' (b' ++ ')' :: r2) := rfl
    have hend : q.at l' r2 = q.at l3 (b3 ++ ')' :: r) := by
      rw [← f4, ← g3, ← h4]
      cases h3.nil_inv
      rfl
    simp only [e2, Res.ok_bind, e4, hsy, f3, g2, if_pos hop, hko, h6 m hm, c1, hend, hlk, Res.pure_eq]
    simp

/-! ## Several objectives -/

theorem symList_at {cfg : Cfg} : ∀ (ns : List (List Char)) {b : List Char}, LayL cfg.file (ns.map .atom) b → ∀ (p : P) (l : Nat) (r : List Char)
    (acc : List (List Char)) (m : Nat), ns.length < m → symList cfg m acc (p.at l (b ++ ')' :: r)) = .ok (acc ++ ns, p.at (l + nls b) (')' :: r))
  | [], b, hl, p, l, r, acc, m, hm => by
    obtain ⟨m, rfl⟩ : ∃ n, m = n + 1 := ⟨m - 1, by omega⟩
    obtain ⟨_, h2, _, h4⟩ := close_at (show LayL cfg.file [] b from hl) p l r
    cases (show LayL cfg.file [] b from hl).nil_inv
    rw [symList, if_pos h2]
    simp
  | n :: ns, b, hl, p, l, r, acc, m, hm => by
    obtain ⟨m, rfl⟩ : ∃ n, m = n + 1 := ⟨m - 1, by omega⟩
    obtain ⟨b1, l1, e1, e2, e3, ht, e5⟩ := word_at (xs := ns.map .atom) hl p l r
    have := symList_at ns e1 p l1 r (acc ++ [n]) m (by simpa using hm)
    rw [symList, if_neg, e2]
    · simp only [Res.ok_bind]
      rw [this, e3]
      simp
    · rw [e5]
      intro h
      have := ht.head
      obtain ⟨c, u, rfl, hc⟩ := this
      simp at h
      exact hc.2.2 h

theorem findObjs_at {cs : List Cmd} {s : S} (h : Represents cs s) : ∀ {ns : List (List Char)} {gs : List Goal},
    ns.map (fun n => (defined cs).lookup n) = gs.map some → ∃ os, findObjs ns s.objMap = (os, s.objMap) ∧ IsObjs os gs
  | [], [], _ => ⟨[], rfl, .nil⟩
  | [], _ :: _, h => by simp at h
  | _ :: _, [], h => by simp at h
  | n :: ns, g :: gs, he => by
    simp only [List.map_cons, List.cons.injEq] at he
    obtain ⟨o, h1, h2⟩ := h.objMap n g he.1
    obtain ⟨os, h3, h4⟩ := findObjs_at h he.2
    exact ⟨some o :: os, by simp [findObjs, h1, h3], .cons h2 h4⟩

theorem tail_multi {cfg : Cfg} {cs : List Cmd} {h : List Char} {k : OptKind} {i : Option (List Char)} {ns : List (List Char)} {gs : List Goal}
    (hm : Multi h k) (hg : ns.map (fun n => (defined cs).lookup n) = gs.map some) :
    Tail cfg cs (.goal none (.multi k i gs)) h (opt cs!":id" i ++ [.list (ns.map .atom)]) := by
  intro b r l s hl hs
  obtain ⟨b1, l1, kw, h1, h2, h3, p1, h4, h5⟩ := opt_at (k := .null) (want := .id) hl (by simp [kwTable]) (by simp [NotKw]) s.p l r
  obtain ⟨b2, l2, r2, b3, l3, f1, f2, f3, f4, f5, _⟩ := list_at h1 s.p l1 r
  have hsy := symList_at ns f1 s.p l2 r2 []
  obtain ⟨os, o1, o2⟩ := findObjs_at hs.rep hg
  have ho : IsObj (.multi k (i.getD []) os) (.multi k i gs) := .multi o2
  have e4 := kw_none f2 (by simp) s.p l3 r
  refine ⟨_, skipTo (s.p.at l3 (b3 ++ ')' :: r)), ns.length + 1,
    ⟨(hs.rep.addGoal ho [] none (by simp) rfl).setP s.p, hs.clean.more rfl⟩, ?_, fun m hm' => ?_⟩
  · rw [skip_rest f2, f5, h2]
  · have : dispatch cfg m h { s with p := s.p.at l (b ++ ')' :: r) } =
      (do let s ← cmdMulti cfg m k { s with p := s.p.at l (b ++ ')' :: r) }; return (false, s)) := by cases hm <;> rfl
    rw [this, cmdMulti]
    have hs2 : symAfter cfg .id .null (s.p.at l3 (b3 ++ ')' :: r)) = .ok ([], s.p.at l3 (b3 ++ ')' :: r)) := by
      simp [symAfter]
    simp only [h4, Res.ok_bind, h5, f3, hsy m (by omega), rpar_at, f4, e4, hs2, Res.pure_eq]
    simp [o1]

end SMT.Script
