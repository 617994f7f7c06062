import Verif.LetExp.Model

/-!
# C65: expanding lets

Specification: `expand` substitutes, bottom up, the definition for every let variable; `ev` is the value of a node for an arbitrary
compositional interpretation of its operators (values may be functions of an environment).
-/

namespace SMT.LetExp
open SMT.Kinds

/-! ## Specification -/

mutual
/-- definitions put in for the let variables; with it, whether there was one -/
def expand (mk : Mk) : T → T × Bool
  | .node k n s cs =>
    if k = .LET_BIND_VAR then (((expandL mk cs).headD (errT, true)).1, true)
    else if (expandL mk cs).any fun r => r.2 then (mk s k ((expandL mk cs).map Prod.fst), true)
    else (.node k n s cs, false)
/-- of each of a list -/
def expandL (mk : Mk) : List T → List (T × Bool)
  | [] => []
  | c :: cs => expand mk c :: expandL mk cs
end

mutual
/-- value of a node, for an interpretation of kinds and names -/
def ev {V : Type} (I : K → String → Nat → List V → V) : T → V
  | .node k n s cs => I k n s (evL I cs)
/-- values of a list -/
def evL {V : Type} (I : K → String → Nat → List V → V) : List T → List V
  | [] => []
  | c :: cs => ev I c :: evL I cs
end

mutual
/-- `s` occurs in the term (or is it) -/
def Sub (s : T) : T → Prop
  | .node k n o cs => s = .node k n o cs ∨ SubL s cs
/-- `s` occurs in one of the terms -/
def SubL (s : T) : List T → Prop
  | [] => False
  | c :: cs => Sub s c ∨ SubL s cs
end

/-- every let variable has a definition -/
def Defined (t : T) : Prop := ∀ s, Sub s t → s.kind = .LET_BIND_VAR → s.cs ≠ []

/-- no let variable occurs -/
def LetFree (t : T) : Prop := ∀ s, Sub s t → s.kind ≠ .LET_BIND_VAR

/-! ## The loop is the recursion -/

theorem expandL_eq (mk : Mk) (cs : List T) : expandL mk cs = cs.map (expand mk) := by
  induction cs with
  | nil => rfl
  | cons c cs ih => rw [expandL, ih]; rfl

theorem evL_eq {V : Type} (I : K → String → Nat → List V → V) (cs : List T) : evL I cs = cs.map (ev I) := by
  induction cs with
  | nil => rfl
  | cons c cs ih => rw [evL, ih]; rfl

theorem subL_iff (s : T) (cs : List T) : SubL s cs ↔ ∃ c ∈ cs, Sub s c := by
  induction cs with
  | nil => simp [SubL]
  | cons c cs ih => rw [SubL, ih]; simp

theorem expand_build (mk : Mk) (t : T) : expand mk t = build mk t (t.cs.map (expand mk)) := by
  cases t with
  | node k n s cs =>
    rw [expand, expandL_eq]
    rfl

theorem sub_iff (s t : T) : Sub s t ↔ s = t ∨ ∃ c ∈ t.cs, Sub s c := by
  cases t with
  | node k n o cs => rw [Sub, subL_iff]; rfl

theorem sub_self (t : T) : Sub t t := (sub_iff t t).mpr (.inl rfl)

theorem cs_lt {t c : T} (h : c ∈ t.cs) : sizeOf c < sizeOf t := by
  cases t with
  | node k n s cs =>
    have := List.sizeOf_lt_of_mem (show c ∈ cs from h)
    simp only [T.node.sizeOf_spec]
    omega

theorem sub_trans {a b c : T} (h : Sub a b) (h' : Sub b c) : Sub a c := by
  induction hn : sizeOf c using Nat.strongRecOn generalizing c with
  | _ n ih =>
    rcases (sub_iff b c).mp h' with rfl | ⟨d, hd, hs⟩
    · exact h
    · exact (sub_iff a c).mpr (.inr ⟨d, hd, ih _ (by have := cs_lt hd; omega) hs rfl⟩)

theorem sub_le {a b : T} (h : Sub a b) : sizeOf a ≤ sizeOf b := by
  induction hn : sizeOf b using Nat.strongRecOn generalizing b with
  | _ n ih =>
    rcases (sub_iff a b).mp h with rfl | ⟨d, hd, hs⟩
    · omega
    · have := cs_lt hd
      have := ih _ (by omega) hs rfl
      omega

/-- the keys of a map -/
def keys (m : Map) : List T := m.map Prod.fst

theorem lookup_none {m : Map} {t : T} : m.lookup t = none ↔ t ∉ keys m := by
  induction m with
  | nil => simp [keys]
  | cons p m ih =>
    obtain ⟨k, v⟩ := p
    rw [List.lookup_cons]
    by_cases h : t = k
    · subst h; simp [keys]
    · have : (t == k) = false := by simpa using h
      rw [this]
      simp only [Bool.false_eq_true, if_false, ih, keys, List.map_cons, List.mem_cons, not_or]
      exact ⟨fun q => ⟨h, q⟩, fun q => q.2⟩

/-- what is true of the table at every time: results are right, keys are closed under children and not repeated -/
structure Good (mk : Mk) (m : Map) : Prop where
  right : ∀ t r, m.lookup t = some r → r = expand mk t
  closed : ∀ t ∈ keys m, ∀ c ∈ t.cs, c ∈ keys m
  nodup : (keys m).Nodup

theorem scan_inl {m : Map} {cs : List T} {c : T} (h : scan m cs = .inl c) : c ∈ cs ∧ c ∉ keys m := by
  induction cs with
  | nil => cases h
  | cons d cs ih =>
    rw [scan] at h
    cases hd : m.lookup d with
    | none =>
      rw [hd] at h
      simp only at h
      cases h
      exact ⟨List.mem_cons_self .., lookup_none.mp hd⟩
    | some r =>
      rw [hd] at h
      simp only at h
      cases hs : scan m cs with
      | inl e =>
        rw [hs] at h
        cases h
        exact ⟨List.mem_cons_of_mem _ (ih hs).1, (ih hs).2⟩
      | inr e => rw [hs] at h; cases h

theorem scan_inr {mk : Mk} {m : Map} (g : Good mk m) {cs : List T} {rs : List (T × Bool)} (h : scan m cs = .inr rs) :
    rs = cs.map (expand mk) ∧ ∀ c ∈ cs, c ∈ keys m := by
  induction cs generalizing rs with
  | nil => cases h; exact ⟨rfl, by simp⟩
  | cons d cs ih =>
    rw [scan] at h
    cases hd : m.lookup d with
    | none => rw [hd] at h; cases h
    | some r =>
      rw [hd] at h
      simp only at h
      cases hs : scan m cs with
      | inl e => rw [hs] at h; cases h
      | inr e =>
        rw [hs] at h
        cases h
        obtain ⟨h1, h2⟩ := ih hs
        refine ⟨by rw [h1, g.right d r hd]; rfl, ?_⟩
        intro c hc
        rcases List.mem_cons.mp hc with rfl | hc
        · apply Classical.byContradiction
          intro hk
          rw [lookup_none.mpr hk] at hd
          cases hd
        · exact h2 c hc

/-- `n` rounds -/
def rounds (mk : Mk) : Nat → List T × Map → List T × Map
  | 0, x => x
  | n + 1, x => rounds mk n (round mk x)

theorem rounds_add (mk : Mk) (a b : Nat) (x : List T × Map) : rounds mk (a + b) x = rounds mk b (rounds mk a x) := by
  induction a generalizing x with
  | zero => rw [Nat.zero_add]; rfl
  | succ a ih => rw [Nat.succ_add]; exact ih _

/-- A node on top of the stack that is not in the table is processed, with all below it, in two rounds (push and pop) for each new
node, its own push not counted. -/
theorem process (mk : Mk) (t : T) : ∀ (st : List T) (m : Map), Good mk m → t ∉ keys m → (∀ s ∈ keys m, ¬ Sub t s) →
    ∃ k m', rounds mk (2 * k + 1) (t :: st, m) = (st, m') ∧ Good mk m' ∧ (keys m').length = (keys m).length + k + 1 ∧
      (∀ s, s ∈ keys m' ↔ s ∈ keys m ∨ Sub s t) := by
  induction hn : sizeOf t using Nat.strongRecOn generalizing t with
  | _ n ih =>
    -- the children still missing
    have go : ∀ (j : Nat) (st : List T) (m : Map), (t.cs.filter fun c => decide (c ∉ keys m)).length ≤ j → Good mk m → t ∉ keys m →
        (∀ s ∈ keys m, ¬ Sub t s) →
        ∃ k m', rounds mk (2 * k + 1) (t :: st, m) = (st, m') ∧ Good mk m' ∧ (keys m').length = (keys m).length + k + 1 ∧
          (∀ s, s ∈ keys m' ↔ s ∈ keys m ∨ Sub s t) := by
      intro j
      induction j with
      | zero =>
        intro st m hj g ht hs
        have hall : ∀ c ∈ t.cs, c ∈ keys m := by
          intro c hc
          apply Classical.byContradiction
          intro hk
          have : c ∈ t.cs.filter fun c => decide (c ∉ keys m) := by simp [hc, hk]
          rw [List.length_eq_zero_iff.mp (Nat.le_zero.mp hj)] at this
          cases this
        cases hsc : scan m t.cs with
        | inl c => exact absurd (hall c (scan_inl hsc).1) (scan_inl hsc).2
        | inr rs =>
          obtain ⟨h1, h2⟩ := scan_inr g hsc
          refine ⟨0, (t, build mk t rs) :: m, ?_, ?_, by simp [keys], ?_⟩
          · show round mk (t :: st, m) = _
            rw [round, if_neg (by rw [lookup_none.mpr ht]; simp), hsc]
          · refine ⟨?_, ?_, ?_⟩
            · intro x r hx
              rw [List.lookup_cons] at hx
              by_cases e : x = t
              · subst e
                simp only [beq_self_eq_true, Option.some.injEq] at hx
                rw [← hx, expand_build, h1]
              · have : (x == t) = false := by simpa using e
                rw [this] at hx
                exact g.right x r hx
            · intro x hx c hc
              simp only [keys, List.map_cons, List.mem_cons] at hx ⊢
              rcases hx with rfl | hx
              · exact .inr (hall c hc)
              · exact .inr (g.closed x hx c hc)
            · simp only [keys, List.map_cons, List.nodup_cons]
              exact ⟨ht, g.nodup⟩
          · intro s
            simp only [keys, List.map_cons, List.mem_cons]
            have hcl : ∀ c s, c ∈ keys m → Sub s c → s ∈ keys m := by
              intro c
              induction hc : sizeOf c using Nat.strongRecOn generalizing c with
              | _ _ ihc =>
                intro s hk hsub
                rcases (sub_iff s c).mp hsub with rfl | ⟨d, hd, hsd⟩
                · exact hk
                · exact ihc _ (by have := cs_lt hd; omega) d rfl s (g.closed c hk d hd) hsd
            constructor
            · rintro (rfl | h)
              · exact .inr (sub_self s)
              · exact .inl h
            · rintro (h | h)
              · exact .inr h
              · rcases (sub_iff s t).mp h with rfl | ⟨c, hc, hsc'⟩
                · exact .inl rfl
                · exact .inr (hcl c s (hall c hc) hsc')
      | succ j ihj =>
        intro st m hj g ht hs
        cases hsc : scan m t.cs with
        | inr rs =>
          obtain ⟨h1, h2⟩ := scan_inr g hsc
          refine ihj st m ?_ g ht hs
          have : t.cs.filter (fun c => decide (c ∉ keys m)) = [] := by
            rw [List.filter_eq_nil_iff]
            intro c hc
            simp [h2 c hc]
          rw [this]; simp
        | inl c =>
          obtain ⟨hc, hck⟩ := scan_inl hsc
          have hlt := cs_lt hc
          have hs' : ∀ s ∈ keys m, ¬ Sub c s := by
            intro s hsm hsub
            have hcl : ∀ c s, c ∈ keys m → Sub s c → s ∈ keys m := by
              intro c
              induction hc : sizeOf c using Nat.strongRecOn generalizing c with
              | _ _ ihc =>
                intro s hk hsub
                rcases (sub_iff s c).mp hsub with rfl | ⟨d, hd, hsd⟩
                · exact hk
                · exact ihc _ (by have := cs_lt hd; omega) d rfl s (g.closed c hk d hd) hsd
            exact hck (hcl s c hsm hsub)
          obtain ⟨k1, m1, r1, g1, l1, s1⟩ := ih (sizeOf c) (by omega) c rfl (t :: st) m g hck hs'
          have ht1 : t ∉ keys m1 := by
            rw [s1]
            rintro (q | q)
            · exact ht q
            · have := sub_le q; omega
          have hst1 : ∀ s ∈ keys m1, ¬ Sub t s := by
            intro s hsm hsub
            rcases (s1 s).mp hsm with q | q
            · exact hs s q hsub
            · have := sub_le hsub; have := sub_le q; omega
          have hcnt : (t.cs.filter fun c => decide (c ∉ keys m1)).length ≤ j := by
            have hsub : ∀ l : List T, (l.filter fun c => decide (c ∉ keys m1)).length ≤ (l.filter fun c => decide (c ∉ keys m)).length ∧
                (c ∈ l → (l.filter fun c => decide (c ∉ keys m1)).length < (l.filter fun c => decide (c ∉ keys m)).length) := by
              intro l
              induction l with
              | nil => simp
              | cons d l ihl =>
                by_cases hd1 : d ∈ keys m1
                · by_cases hd0 : d ∈ keys m
                  · simp only [List.filter_cons, hd1, hd0, not_true_eq_false, decide_false, Bool.false_eq_true, if_false]
                    refine ⟨ihl.1, fun q => ihl.2 ?_⟩
                    rcases List.mem_cons.mp q with rfl | q
                    · exact absurd hd0 hck
                    · exact q
                  · simp only [List.filter_cons, hd1, hd0, not_true_eq_false, not_false_eq_true, decide_false, decide_true,
                      Bool.false_eq_true, if_false, if_true, List.length_cons]
                    exact ⟨by omega, fun _ => by omega⟩
                · have hd0 : d ∉ keys m := fun q => hd1 ((s1 d).mpr (.inl q))
                  simp only [List.filter_cons, hd1, hd0, not_false_eq_true, decide_true, if_true, List.length_cons]
                  refine ⟨by omega, fun q => ?_⟩
                  rcases List.mem_cons.mp q with rfl | q
                  · exact absurd ((s1 c).mpr (.inr (sub_self c))) hd1
                  · have := ihl.2 q; omega
            have := (hsub t.cs).2 hc
            omega
          obtain ⟨k2, m2, r2, g2, l2, s2⟩ := ihj st m1 hcnt g1 ht1 hst1
          refine ⟨k1 + 1 + k2, m2, ?_, g2, by omega, ?_⟩
          · rw [show 2 * (k1 + 1 + k2) + 1 = 1 + ((2 * k1 + 1) + (2 * k2 + 1)) by omega, rounds_add]
            have e1 : rounds mk 1 (t :: st, m) = (c :: t :: st, m) := by
              show round mk (t :: st, m) = _
              rw [round, if_neg (by rw [lookup_none.mpr ht]; simp), hsc]
            rw [e1, rounds_add, r1, r2]
          · intro s
            rw [s2, s1]
            constructor
            · rintro ((h | h) | h)
              · exact .inl h
              · exact .inr ((sub_iff s t).mpr (.inr ⟨c, hc, h⟩))
              · exact .inr h
            · rintro (h | h)
              · exact .inl (.inl h)
              · exact .inr h
    intro st m g ht hs
    exact go _ st m (Nat.le_refl _) g ht hs

theorem loop_rounds (mk : Mk) (n : Nat) (x : List T × Map) (m : Map) (h : rounds mk n x = ([], m)) : loop mk n x = some m := by
  induction n generalizing x with
  | zero =>
    rw [rounds] at h
    rw [h]
    rfl
  | succ n ih =>
    obtain ⟨st, m0⟩ := x
    cases st with
    | nil =>
      have e : ∀ j, rounds mk j ([], m0) = ([], m0) := by
        intro j
        induction j with
        | zero => rfl
        | succ j ihj => exact ihj
      rw [e] at h
      cases h
      rfl
    | cons t st => exact ih _ h

theorem loop_mono (mk : Mk) (n k : Nat) (x : List T × Map) (m : Map) (h : loop mk n x = some m) (hk : n ≤ k) : loop mk k x = some m := by
  induction n generalizing x k with
  | zero =>
    obtain ⟨st, m0⟩ := x
    cases st with
    | nil => cases k <;> exact h
    | cons t st => cases h
  | succ n ih =>
    obtain ⟨st, m0⟩ := x
    cases st with
    | nil => cases k <;> exact h
    | cons t st =>
      obtain ⟨k, rfl⟩ : ∃ j, k = j + 1 := ⟨k - 1, by omega⟩
      rw [loop] at h ⊢
      exact ih k _ h (by omega)

theorem loop_body (mk : Mk) (body : T) : ∃ m : Map, (∀ s, s ∈ keys m ↔ Sub s body) ∧ (keys m).Nodup ∧
    (∀ fuel, 2 * (keys m).length - 1 ≤ fuel → loop mk fuel ([body], []) = some m) ∧ m.lookup body = some (expand mk body) := by
  have g0 : Good mk [] := ⟨by simp, by simp [keys], by simp [keys]⟩
  obtain ⟨k, m, r, g, l, s⟩ := process mk body [] [] g0 (by simp [keys]) (by simp [keys])
  simp only [keys, List.map_nil, List.length_nil, Nat.zero_add, List.not_mem_nil, false_or] at l s
  refine ⟨m, s, g.nodup, ?_, ?_⟩
  · intro fuel hf
    refine loop_mono mk _ fuel _ m (loop_rounds mk _ _ m r) ?_
    simp only [keys, List.length_map] at hf l
    omega
  · cases hl : m.lookup body with
    | none => exact absurd ((s body).mpr (sub_self body)) (lookup_none.mp hl)
    | some r => rw [g.right body r hl]

/-- the body of a let -/
def bodyOf (e : T) : T := if e.kind = .LET then e.cs.headD errT else e.cs.getLastD errT

/-- **C65.**  `expandLet` of a let ends, after at most two rounds for each distinct node of the body, with the definitions put in for
the variables.  (`l` lists the distinct nodes of the body.) -/
theorem expandLet_exact (mk : Mk) (e : T) (he : e.kind = .LET ∨ e.kind = .LET_CHAIN) (l : List T) (hl : ∀ s, Sub s (bodyOf e) → s ∈ l)
    (fuel : Nat) (hf : 2 * l.length ≤ fuel) : expandLet mk true fuel e = some (expand mk (bodyOf e)).1 := by
  obtain ⟨m, h1, h2, h3, h4⟩ := loop_body mk (bodyOf e)
  have hle : (keys m).length ≤ l.length := by
    have sub : ∀ (a b : List T), a.Nodup → (∀ x ∈ a, x ∈ b) → a.length ≤ b.length := by
      intro a
      induction a with
      | nil => intro b _ _; simp
      | cons x a ih =>
        intro b hn hs
        rw [List.nodup_cons] at hn
        have hx := hs x (List.mem_cons_self ..)
        have := ih (b.erase x) hn.2 (fun y hy => (List.mem_erase_of_ne (fun q => hn.1 (by rw [← q]; exact hy))).mpr
          (hs y (List.mem_cons_of_mem _ hy)))
        rw [List.length_erase_of_mem hx] at this
        have : 0 < b.length := List.length_pos_of_mem hx
        simp only [List.length_cons]
        omega
    exact sub _ _ h2 (fun x hx => hl x ((h1 x).mp hx))
  rw [expandLet, if_pos ⟨rfl, he⟩]
  show (loop mk fuel ([bodyOf e], [])).map (fun m => ((m.lookup (bodyOf e)).getD (errT, false)).1) = _
  rw [h3 fuel (by omega), Option.map_some, h4]
  rfl

/-- **C65.**  `expandLet` of a let ends. -/
theorem expandLet_ends (mk : Mk) (e : T) (he : e.kind = .LET ∨ e.kind = .LET_CHAIN) :
    ∃ N, ∀ fuel, N ≤ fuel → expandLet mk true fuel e = some (expand mk (bodyOf e)).1 := by
  obtain ⟨m, h1, _, _, _⟩ := loop_body mk (bodyOf e)
  exact ⟨2 * (keys m).length, fun fuel hf => expandLet_exact mk e he (keys m) (fun s hs => (h1 s).mpr hs) fuel hf⟩

/-- **C65.**  Anything but a let, or any node when lets are not preserved, is returned as it is. -/
theorem expandLet_other (mk : Mk) (p : Bool) (fuel : Nat) (e : T) (h : p = false ∨ (e.kind ≠ .LET ∧ e.kind ≠ .LET_CHAIN)) :
    expandLet mk p fuel e = some e := by
  rw [expandLet, if_neg]
  rintro ⟨h1, h2⟩
  rcases h with h | h
  · rw [h] at h1; cases h1
  · rcases h2 with q | q
    · exact h.1 q
    · exact h.2 q

/-! ## The value is preserved, the variables are gone -/

theorem lbv_expand (mk : Mk) {t : T} (hk : t.kind = .LET_BIND_VAR) {c : T} {cs : List T} (hc : t.cs = c :: cs) :
    expand mk t = ((expand mk c).1, true) := by
  rw [expand_build, build, if_pos hk, hc]; rfl

/-- names that the interpretation looks at: those of applications of functions and of leaves -/
def Named (t : T) : Prop := t.kind = .UF_APPLY ∨ t.kind = .FUNC_APPLY ∨ t.kind = .FUNC_REC_APPLY ∨ t.kind = .CONST_ARRAY

/-- **C65.**  The expanded body has the value of the body, for every compositional interpretation in which a let variable means its
definition and rebuilding an operator means applying it, provided no application of a named function has a let variable below it. -/
theorem expand_value_partial {V : Type} (I : K → String → Nat → List V → V) (mk : Mk) (t : T) (hd : Defined t)
    (hlet : ∀ n s v vs, I .LET_BIND_VAR n s (v :: vs) = v)
    (hmk : ∀ u : T, ¬ Named u → u.kind ≠ .LET_BIND_VAR → ∀ us : List T, us ≠ [] → us.length = u.cs.length →
      ev I (mk u.sort u.kind us) = I u.kind u.name u.sort (us.map (ev I)))
    (hn : ∀ u, Sub u t → Named u → ∀ s, Sub s u → s.kind ≠ .LET_BIND_VAR) :
    ev I (expand mk t).1 = ev I t := by
  induction hz : sizeOf t using Nat.strongRecOn generalizing t with
  | _ z ih =>
    have hsub : ∀ c ∈ t.cs, ∀ s, Sub s c → Sub s t := fun c hc s h => (sub_iff s t).mpr (.inr ⟨c, hc, h⟩)
    have ihc : ∀ c ∈ t.cs, ev I (expand mk c).1 = ev I c := fun c hc =>
      ih _ (by have := cs_lt hc; omega) c (fun s h => hd s (hsub c hc s h)) (fun u h => hn u (hsub c hc u h)) rfl
    have free : ∀ u : T, LetFree u → (expand mk u).2 = false := by
      intro u
      induction hu : sizeOf u using Nat.strongRecOn generalizing u with
      | _ z' ihu =>
        intro hf
        rw [expand_build, build, if_neg (hf u (sub_self u))]
        rw [if_neg]
        simp only [List.any_map, List.any_eq_true, Function.comp, not_exists, not_and, Bool.not_eq_true]
        intro c hc
        exact ihu _ (by have := cs_lt hc; omega) c rfl (fun s h => hf s ((sub_iff s u).mpr (.inr ⟨c, hc, h⟩)))
    by_cases hk : t.kind = .LET_BIND_VAR
    · cases hcs : t.cs with
      | nil => exact absurd hcs (hd t (sub_self t) hk)
      | cons c cs =>
        rw [lbv_expand mk hk hcs]
        simp only
        rw [ihc c (by rw [hcs]; exact List.mem_cons_self ..)]
        cases t with
        | node k n s ds =>
          simp only [T.kind, T.cs] at hk hcs
          subst hk hcs
          rw [ev, evL_eq, List.map_cons, hlet]
    · rw [expand_build, build, if_neg hk]
      split
      · rename_i hany
        have hnn : ¬ Named t := by
          intro hnm
          have hf : LetFree t := hn t (sub_self t) hnm
          have := free t hf
          rw [expand_build, build, if_neg hk, if_pos hany] at this
          cases this
        simp only
        have hne : (t.cs.map (expand mk)).map Prod.fst ≠ [] := by
          intro q
          have : t.cs = [] := by simpa using q
          rw [this] at hany
          cases hany
        rw [hmk t hnn hk _ hne (by simp), List.map_map, List.map_map]
        have : t.cs.map ((ev I ∘ Prod.fst) ∘ expand mk) = t.cs.map (ev I) := by
          apply List.map_congr_left
          intro c hc
          exact ihc c hc
        rw [this]
        cases t with
        | node k n s ds => rw [ev, evL_eq]; rfl
      · rfl

/-- **C65.**  No let variable is left, if rebuilding does not make one; an unchanged result had none. -/
theorem expand_free (mk : Mk) (t : T) (hd : Defined t)
    (hmk : ∀ s k us, k ≠ .LET_BIND_VAR → (∀ u ∈ us, LetFree u) → LetFree (mk s k us)) :
    LetFree (expand mk t).1 ∧ ((expand mk t).2 = false → (expand mk t).1 = t) := by
  induction hz : sizeOf t using Nat.strongRecOn generalizing t with
  | _ z ih =>
    have ihc : ∀ c ∈ t.cs, LetFree (expand mk c).1 ∧ ((expand mk c).2 = false → (expand mk c).1 = c) := fun c hc =>
      ih _ (by have := cs_lt hc; omega) c (fun s h => hd s ((sub_iff s t).mpr (.inr ⟨c, hc, h⟩))) rfl
    by_cases hk : t.kind = .LET_BIND_VAR
    · cases hcs : t.cs with
      | nil => exact absurd hcs (hd t (sub_self t) hk)
      | cons c cs =>
        rw [lbv_expand mk hk hcs]
        exact ⟨(ihc c (by rw [hcs]; exact List.mem_cons_self ..)).1, fun q => by cases q⟩
    · rw [expand_build, build, if_neg hk]
      split
      · refine ⟨hmk _ _ _ hk ?_, fun q => by cases q⟩
        intro u hu
        simp only [List.map_map, List.mem_map, Function.comp] at hu
        obtain ⟨c, hc, rfl⟩ := hu
        exact (ihc c hc).1
      · rename_i hany
        refine ⟨?_, fun _ => rfl⟩
        intro s hs
        rcases (sub_iff s t).mp hs with rfl | ⟨c, hc, h⟩
        · exact hk
        · simp only [List.any_map, List.any_eq_true, Function.comp, not_exists, not_and, Bool.not_eq_true] at hany
          obtain ⟨h1, h2⟩ := ihc c hc
          rw [h2 (hany c hc)] at h1
          exact h1 s h

/-! ## Examples and violations -/

/-- a variable -/
def var (x : String) (s : Nat) : T := .node .VAR x s []
/-- a let variable -/
def lv (x : String) (s : Nat) (t : T) : T := .node .LET_BIND_VAR x s [t]
/-- the application of an uninterpreted function -/
def uf (f : String) (s : Nat) (ts : List T) : T := .node .UF_APPLY f s ts
/-- `(let ((x a)) body)` as the parser builds it -/
def chain (x : String) (s : Nat) (a : T) (b : T → T) : T :=
  .node .LET_CHAIN "" (b (lv x s a)).sort [.node .LET_BIND_VAR_LIST "" s [lv x s a], b (lv x s a)]

/-- `(let ((x a)) (- x x))` -/
example : expandLet mkInternal true 10 (chain "x" 1 (var "a" 1) fun x => .node .SUB "-" 1 [x, x]) =
    some (.node .SUB "-" 1 [var "a" 1, var "a" 1]) := by decide +kernel

example : Defined (chain "x" 1 (var "a" 1) fun x => .node .SUB "-" 1 [x, x]) := by
  intro s hs hk
  simp only [chain, lv, var, Sub, SubL, or_false, T.sort] at hs
  rcases hs with rfl | (rfl | rfl | rfl) | rfl | (rfl | rfl) | (rfl | rfl) <;> simp_all [T.kind, T.cs]

/-- **C65, where it fails.**  The name of a function is lost when a let variable below its application is expanded: different
functions become one, so that `(let ((x a)) (= (f x) (g x)))`, which some interpretation makes false, becomes an equation of
identical sides. -/
theorem expandLet_uf_violated (f g : String) (s : Nat) (x : String) (t : T) (ht : LetFree t) :
    ∃ N, ∀ fuel, N ≤ fuel →
    expandLet mkInternal true fuel (chain x t.sort t fun v => .node .EQ "=" 0 [uf f s [v], uf g s [v]]) =
      some (.node .EQ "=" 0 [uf "UF_APPLY" s [t], uf "UF_APPLY" s [t]]) := by
  have hfree : ∀ u : T, LetFree u → expand mkInternal u = (u, false) := by
    intro u
    induction hu : sizeOf u using Nat.strongRecOn generalizing u with
    | _ z' ihu =>
      intro hf
      rw [expand_build, build, if_neg (hf u (sub_self u)), if_neg]
      simp only [List.any_map, List.any_eq_true, Function.comp, not_exists, not_and, Bool.not_eq_true]
      intro c hc
      rw [ihu _ (by have := cs_lt hc; omega) c rfl (fun s h => hf s ((sub_iff s u).mpr (.inr ⟨c, hc, h⟩)))]
  obtain ⟨N, h⟩ := expandLet_ends mkInternal (chain x t.sort t fun v => .node .EQ "=" 0 [uf f s [v], uf g s [v]]) (.inr rfl)
  refine ⟨N, fun fuel hf => ?_⟩
  rw [h fuel hf]
  have e : bodyOf (chain x t.sort t fun v => .node .EQ "=" 0 [uf f s [v], uf g s [v]]) =
    .node .EQ "=" 0 [uf f s [lv x t.sort t], uf g s [lv x t.sort t]] := rfl
  rw [e]
  have e1 : expand mkInternal (lv x t.sort t) = (t, true) := by
    rw [lbv_expand mkInternal (c := t) (cs := []) rfl rfl, hfree t ht]
  have e2 : ∀ f, expand mkInternal (uf f s [lv x t.sort t]) = (uf "UF_APPLY" s [t], true) := by
    intro f
    rw [uf, expand, expandL, expandL, e1]
    rfl
  rw [expand, expandL, expandL, expandL, e2, e2]
  rfl

/-- an interpretation (of constants and two functions in Booleans) that tells the two sides apart -/
example : ev (fun k n _ vs => match k with
    | .EQ => vs.headD true == (vs.getLastD true)
    | .LET_BIND_VAR => vs.headD true
    | .UF_APPLY => n == "f"
    | _ => true) (.node .EQ "=" 0 [uf "f" 0 [lv "x" 0 (var "a" 0)], uf "g" 0 [lv "x" 0 (var "a" 0)]]) = false := by
  decide +kernel

end SMT.LetExp
