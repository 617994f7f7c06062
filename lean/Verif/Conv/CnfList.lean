import Verif.Conv.PropsCnf
import Verif.Conv.PropsWalk
/-!
# `toCNF` of a list of assertions (model and proof)
-/
set_option linter.unusedSimpArgs false
namespace SMT

open Term

/-- `toCNF(expr)` (`src/conv_parser.cpp:890-974`) on a parser whose `cnf_map` is `am` and whose next temporary is `temp_n`; `ties` is
the `cnf_atom_map`.  `replaceAtoms` gets the new entries only (`atom_map`), `toTseitinCNF` the whole map. -/
def toCNFm (c : Cfg) (ord : List Term → List Term) (am : VMap) (ties : List (Term × Term)) (n : Nat) (t : Term) : CnfRes :=
  match am.find t with
  | some v => ⟨v, n, ties⟩
  | none =>
    let e := toNNF c t
    let m := atomMap c (ord (collectAtoms e)) ⟨n, [], ties⟩
    let e' := if m.map.isEmpty then e else replaceAtoms c m.map e
    if isCNF e then ⟨e', m.n, m.ties⟩
    else
      let p := tseitin c (m.map ++ am) e' ⟨m.n, [], []⟩
      let cls := p.2.cls.reverse ++ [p.1]
      ⟨if cls.length = 1 then cls.headD .unknown else mkAnd c cls, m.n, m.ties⟩

/-- `toCNF(exprs)` (`src/conv_parser.cpp:793-887`) on a parser whose next temporary is `temp_n`: the maps are cleared first.  `let` is
expanded before (lines 805-807).  `fuel` bounds the rounds of the flattening loop (`none` if they do not suffice); `ord` is the
iteration order of the hash sets of atoms. -/
def toCNFL (c : Cfg) (ord : List Term → List Term) (n fuel : Nat) (ts : List Term) : Option CnfRes :=
  match elimTop c fuel (ts.map (toNNF c)) with
  | none => none
  | some es =>
    if es.isEmpty then some ⟨.tt, n, []⟩
    else
      let m := atomMap c (ord (collectAtomsL es)) ⟨n, [], []⟩
      let r := mkAnd c (es.map fun e => if m.map.isEmpty then e else replaceAtoms c m.map e)
      if isCNFL es then some ⟨r, m.n, m.ties⟩ else some (toCNFm c ord m.map m.ties m.n r)

/-! ### preservation of the class of formulas -/

theorem xIn_imp {p q : Term → Bool} (hpq : ∀ a, p a = true → q a = true) : ∀ (n : Nat) (t : Term), t.size ≤ n →
    xIn p t = true → xIn q t = true := by
  intro n
  induction n with
  | zero => intro t h; cases t <;> simp [size] at h
  | succ n ih =>
    intro t hn h
    have hL : ∀ ts : List Term, (∀ u ∈ ts, u.size ≤ n) → xInL p ts = true → xInL q ts = true := by
      intro ts
      induction ts with
      | nil => intro _ _; simp [xInL]
      | cons u ts ihl =>
        intro hs h
        simp only [xInL, Bool.and_eq_true] at h ⊢
        exact ⟨ih u (hs u (by simp)) h.1, ihl (fun v hv => hs v (by simp [hv])) h.2⟩
    cases t with
    | app k s ts =>
      have hs : ∀ u ∈ ts, u.size ≤ n := fun u hu => by have := size_child (k := k) (s := s) hu; omega
      cases k <;> simp only [xIn, Bool.and_eq_true, Bool.or_eq_true] at h ⊢
      all_goals first
        | exact ⟨h.1, hpq _ h.2⟩
        | exact hL ts hs h
        | exact ⟨h.1, hL ts hs h.2⟩
        | exact h.imp (fun h => ⟨h.1, hpq _ h.2⟩) (fun h => ⟨h.1, hL ts hs h.2⟩)
    | _ => simp [xIn, atomIn] at h ⊢

theorem xIn_cnfIn {p : Term → Bool} : ∀ (n : Nat) (t : Term), t.size ≤ n → xIn p t = true → cnfIn t = true := by
  intro n
  induction n with
  | zero => intro t h; cases t <;> simp [size] at h
  | succ n ih =>
    intro t hn h
    have hL : ∀ ts : List Term, (∀ u ∈ ts, u.size ≤ n) → xInL p ts = true → cnfInL ts = true := by
      intro ts
      induction ts with
      | nil => intro _ _; simp [cnfInL]
      | cons u ts ihl =>
        intro hs h
        simp only [xInL, cnfInL, Bool.and_eq_true] at h ⊢
        exact ⟨ih u (hs u (by simp)) h.1, ihl (fun v hv => hs v (by simp [hv])) h.2⟩
    have ht := xIn_imp (q := fun _ => true) (fun _ _ => rfl) _ t (Nat.le_refl _) h
    cases t with
    | app k s ts =>
      have hs : ∀ u ∈ ts, u.size ≤ n := fun u hu => by have := size_child (k := k) (s := s) hu; omega
      cases k <;> first
        | (simp only [cnfIn]; exact ht)
        | (simp only [xIn, cnfIn] at h ⊢; exact hL ts hs h)
        | (simp [xIn, atomIn, isAtom] at h)
    | _ => simp only [cnfIn]; exact ht

section
variable {c : Cfg} {ρ : Env} {n : Nat} {p : Term → Bool}

theorem NX.and_kids {s : Srt} {us : List Term} (h : NX c ρ n p (.app .and s us)) : ∀ u ∈ us, NX c ρ n p u :=
  (h.kids (fun h1 _ => by simp [atomIn] at h1)).2.2.1

theorem NX.or_kids {s : Srt} {us : List Term} (h : NX c ρ n p (.app .or s us)) : ∀ u ∈ us, NX c ρ n p u :=
  (h.kids (fun h1 _ => by simp [atomIn] at h1)).2.2.1

theorem drainAnd_NX (ts : List Term) (h : ∀ t ∈ ts, NX c ρ n p t) : ∀ t ∈ drainAnd ts, NX c ρ n p t := by
  fun_induction drainAnd ts with
  | case1 => simp
  | case2 st s ts ih =>
    refine ih fun t ht => ?_
    simp only [List.mem_append, List.mem_reverse] at ht
    rcases ht with ht | ht
    · exact (h _ List.mem_cons_self).and_kids t ht
    · exact h t (List.mem_cons_of_mem _ ht)
  | case3 st t _ ih =>
    intro u hu; simp only [List.mem_cons] at hu
    rcases hu with rfl | hu
    · exact h _ List.mem_cons_self
    · exact ih (fun v hv => h v (List.mem_cons_of_mem _ hv)) u hu

theorem drainOr_NX (ts : List Term) (ch : Bool) (h : ∀ t ∈ ts, NX c ρ n p t) : ∀ t ∈ (drainOr ts ch).1, NX c ρ n p t := by
  fun_induction drainOr ts ch with
  | case1 => simp
  | case2 ch st s ts ih =>
    refine ih fun t ht => ?_
    simp only [List.mem_append, List.mem_reverse] at ht
    rcases ht with ht | ht
    · exact (h _ List.mem_cons_self).or_kids t ht
    · exact h t (List.mem_cons_of_mem _ ht)
  | case3 ch st t _ q ih =>
    intro u hu; simp only [List.mem_cons] at hu
    rcases hu with rfl | hu
    · exact h _ List.mem_cons_self
    · exact ih (fun v hv => h v (List.mem_cons_of_mem _ hv)) u hu

theorem elimTopAnd_NX (ts : List Term) (h : ∀ t ∈ ts, NX c ρ n p t) : ∀ t ∈ (elimTopAnd ts).1, NX c ρ n p t := by
  induction ts with
  | nil => simp [elimTopAnd]
  | cons t ts ih =>
    have ih := ih fun u hu => h u (List.mem_cons_of_mem _ hu)
    have ht := h t List.mem_cons_self
    simp only [elimTopAnd]
    split
    · intro u hu
      simp only [List.mem_append] at hu
      rcases hu with hu | hu
      · exact drainAnd_NX _ (by simpa using ht) u hu
      · exact ih u hu
    · intro u hu
      simp only [List.mem_cons] at hu
      rcases hu with rfl | hu
      · exact ht
      · exact ih u hu

theorem elimOr_NX : ∀ (ts : List Term) (ch : Bool), (∀ t ∈ ts, NX c ρ n p t) → ∀ t ∈ (elimOr c ts ch).1, NX c ρ n p t := by
  intro ts
  induction ts with
  | nil => intro ch _; simp [elimOr]
  | cons t ts ih =>
    intro ch h
    have ht := h t List.mem_cons_self
    have ih := fun ch => ih ch fun u hu => h u (List.mem_cons_of_mem _ hu)
    simp only [elimOr]
    split
    · rename_i s us
      intro u hu
      simp only [List.mem_cons] at hu
      rcases hu with rfl | hu
      · split
        · refine mkOr_NX ht.fit (drainOr_NX _ _ ?_)
          intro v hv
          exact ht.or_kids v (by simpa using hv)
        · exact ht
      · exact ih _ u hu
    · intro u hu
      simp only [List.mem_cons] at hu
      rcases hu with rfl | hu
      · exact ht
      · exact ih _ u hu

theorem elimTop_NX : ∀ (k : Nat) (ts r : List Term), (∀ t ∈ ts, NX c ρ n p t) → elimTop c k ts = some r →
    ∀ t ∈ r, NX c ρ n p t := by
  intro k
  induction k with
  | zero => intro ts r _ h; cases h
  | succ k ih =>
    intro ts r h hr
    have h1 := elimOr_NX (elimTopAnd ts).1 false (elimTopAnd_NX ts h)
    simp only [elimTop] at hr
    split at hr
    · exact ih _ _ h1 hr
    · cases hr; exact h1

/-- conjunction kept by the flattening -/
theorem elimTop_all (k : Nat) (ts r : List Term) (h : ∀ t ∈ ts, IsB ρ t) (hr : elimTop c k ts = some r) :
    (∀ t ∈ r, IsB ρ t) ∧ r.all (bval ρ) = ts.all (bval ρ) := by
  have e : evalApp ρ .and ts .bool = some (.b ((ts.map (bval ρ)).all id)) := (evalApp_and ρ ts _ _).2 ⟨h, rfl⟩
  have e2 := Conv.elimTop_sound c ρ k ts r _ e hr
  obtain ⟨h1, h2⟩ := (evalApp_and ρ r _ _).1 e2
  refine ⟨h1, ?_⟩
  simp only [Val.b.injEq, List.all_map] at h2
  exact h2.symm

end

/-! ### the conversion of one expression with a map -/

theorem find_append (a b : VMap) (t : Term) : (a ++ b).find t = (a.find t).or (b.find t) := by
  induction a with
  | nil => simp [VMap.find]
  | cons x a ih =>
    obtain ⟨k, v⟩ := x
    rw [List.cons_append, VMap.find, VMap.find]
    split
    · rfl
    · exact ih

/-- the entries recorded so far are right -/
structure Rec (n : Nat) (ρ : Env) (ties : List (Term × Term)) (am : VMap) : Prop where
  ok : MapOK n ρ am
  fr : ∀ p ∈ ties, noFresh n p.1 ∧ noFresh n p.2

/-- the entries made by the loop over the atoms are right under an assignment that ties the temporaries -/
theorem atomMap_ok {c : Cfg} {ρ : Env} {n : Nat} {as : List Term} {ties : List (Term × Term)}
    (hbool : ∀ i, n ≤ i → ∃ b, ρ.var .temp .bool (tempName i) = .b b)
    (hT : Ties ρ (atomMap c as ⟨n, [], ties⟩).ties) :
    MapOK (atomMap c as ⟨n, [], ties⟩).n ρ (atomMap c as ⟨n, [], ties⟩).map := by
  obtain ⟨m1, _⟩ := atomMap_spec c n as ⟨n, [], ties⟩ (Nat.le_refl _) (by intro k v h; simp [VMap.find] at h)
  intro k v hk
  obtain ⟨⟨h1, i, hi, h2⟩, h3, h4⟩ := m1 k v hk
  have hv : IsB ρ v := by
    obtain ⟨b, hb⟩ := hbool i hi
    have hx : eval ρ (tempVar i) = some (.b b) := by
      simp [tempVar, eval, hb, guardSort, Val.hasSort]
    rcases h2 with rfl | rfl
    · exact ⟨b, hx⟩
    · exact ⟨!b, by simp [eval, evalL, hx, apply, guardSort, Val.hasSort]⟩
  exact ⟨h1, h3, hv, by simp [bval, hT (v, k) h4]⟩

theorem MapOK.mono {n m : Nat} {ρ : Env} {am : VMap} (h : MapOK n ρ am) (hnm : n ≤ m) : MapOK m ρ am := by
  intro k v hk
  obtain ⟨h1, h2, h3, h4⟩ := h k v hk
  exact ⟨h1, h2.mono hnm, h3, h4⟩

theorem MapOK.append {n : Nat} {ρ : Env} {a b : VMap} (ha : MapOK n ρ a) (hb : MapOK n ρ b) : MapOK n ρ (a ++ b) := by
  intro k v hk
  rw [find_append] at hk
  cases h : a.find k with
  | none => rw [h] at hk; exact hb k v hk
  | some w => rw [h] at hk; cases hk; exact ha k _ h

theorem bval_ext {n : Nat} {ρ ρ' : Env} (hE : Ext n ρ ρ') {t : Term} (h : noFresh n t) : bval ρ' t = bval ρ t := by
  simp [bval, hE.eval h]

/-- the conversion of one expression, given an assignment that ties the temporaries of the atoms -/
theorem toCNFm_core (c : Cfg) (ord : List Term → List Term) (hord : ∀ l x, x ∈ ord l ↔ x ∈ l)
    (am : VMap) (ties : List (Term × Term)) (n : Nat) (ρ : Env) (t : Term) (hf : DFit c t) (hin : cnfIn t = true) (hB : IsB ρ t)
    (hfr : noFresh n t) (hbool : ∀ i, n ≤ i → ∃ b, ρ.var .temp .bool (tempName i) = .b b)
    (hR : Rec n ρ ties am) (hT : Ties ρ (toCNFm c ord am ties n t).ties) :
    n ≤ (toCNFm c ord am ties n t).n ∧
    (∃ ρ', Ext (toCNFm c ord am ties n t).n ρ ρ' ∧ eval ρ' (toCNFm c ord am ties n t).cnf = some (.b (bval ρ t))) ∧
    (∀ ρ', Ext (toCNFm c ord am ties n t).n ρ ρ' → eval ρ' (toCNFm c ord am ties n t).cnf = some (.b true) →
      bval ρ t = true) := by
  cases hfind : am.find t with
  | some v =>
    have e : toCNFm c ord am ties n t = ⟨v, n, ties⟩ := by simp only [toCNFm, hfind]
    rw [e]
    obtain ⟨h1, h2, h3, h4⟩ := hR.ok t v hfind
    refine ⟨Nat.le_refl _, ⟨reset ρ n, ext_reset ρ n, ?_⟩, ?_⟩
    · show eval (reset ρ n) v = _
      rw [(ext_reset ρ n).eval h2, h3.eval, h4]
    · intro ρ' hE he
      have he : eval ρ' v = some (.b true) := he
      rw [hE.eval h2, h3.eval, h4] at he
      simpa using he
  | none =>
  have hx : NX c ρ n (fun _ => true) (toNNF c t) := nnf_NX _ t false (Nat.le_refl _) hf hin hB hfr
  have hval : bval ρ (toNNF c t) = bval ρ t := by
    have := nnf_val c ρ _ t false (Nat.le_refl _) hf (cnfIn_binary _ t (Nat.le_refl _) hin) hB
    simpa [toNNF] using bval_of this
  obtain ⟨_, m2⟩ := atomMap_spec c n (ord (collectAtoms (toNNF c t))) ⟨n, [], ties⟩ (Nat.le_refl _)
    (by intro k v h; simp [VMap.find] at h)
  have hle := atomMap_n c (ord (collectAtoms (toNNF c t))) ⟨n, [], ties⟩
  have hties : (toCNFm c ord am ties n t).ties = (atomMap c (ord (collectAtoms (toNNF c t))) ⟨n, [], ties⟩).ties := by
    simp only [toCNFm, hfind]; split <;> rfl
  have hnn : (toCNFm c ord am ties n t).n = (atomMap c (ord (collectAtoms (toNNF c t))) ⟨n, [], ties⟩).n := by
    simp only [toCNFm, hfind]; split <;> rfl
  rw [hties] at hT
  have hmap0 := atomMap_ok hbool hT
  rw [hnn]
  generalize hm : atomMap c (ord (collectAtoms (toNNF c t))) ⟨n, [], ties⟩ = m at m2 hle hT hmap0
  simp only at hle
  have hmap : MapOK m.n ρ (m.map ++ am) := hmap0.append (hR.ok.mono hle)
  have hx2 : NX c ρ m.n (fun t => (m.map.find t).isSome) (toNNF c t) :=
    ⟨hx.fit, xIn_mono _ _ _ (Nat.le_refl _) hx.ok fun a ha => m2 a (.inl ((hord _ _).2 ha)), hx.isB,
      hx.fr.mono hle⟩
  have he' : ∃ e', e' = (if m.map.isEmpty then toNNF c t else replaceAtoms c m.map (toNNF c t)) ∧
      NX c ρ m.n (fun t => (m.map.find t).isSome) e' ∧ bval ρ e' = bval ρ t := by
    refine ⟨_, rfl, ?_⟩
    split
    · exact ⟨hx2, hval⟩
    · obtain ⟨h1, h2⟩ := replaceAtoms_NX hmap0 hx2
      exact ⟨h1, h2.trans hval⟩
  obtain ⟨e', hee, hN, hV⟩ := he'
  refine ⟨hle, ?_⟩
  by_cases hc : isCNF (toNNF c t) = true
  · have hcnf : (toCNFm c ord am ties n t).cnf = e' := by simp only [toCNFm, hfind, hm, if_pos hc, hee]
    rw [hcnf]
    refine ⟨⟨reset ρ m.n, ext_reset ρ m.n, ?_⟩, ?_⟩
    · rw [(ext_reset ρ m.n).eval hN.fr, hN.isB.eval, hV]
    · intro ρ' hE he
      rw [hE.eval hN.fr, hN.isB.eval, hV] at he
      simpa using he
  · have hok : xIn (fun t => ((m.map ++ am).find t).isSome) e' = true :=
      xIn_imp (fun a ha => by rw [find_append]; cases h : m.map.find a with
        | none => simp [h] at ha
        | some v => simp) _ _ (Nat.le_refl _) hN.ok
    obtain ⟨d1, d2, d3⟩ := tseitin_ok (nn := false) hmap _ e' ⟨m.n, [], []⟩ (Nat.le_refl _) hN.fit
      (xIn_tsIn _ _ _ (Nat.le_refl _) hok) hN.fr hN.isB
      (⟨Nat.le_refl _, ⟨reset ρ m.n, ext_reset ρ m.n, by simp [Sat]⟩, by simp, by simp, by simp,
        by intro k v h; simp [VMap.find] at h⟩ : TInv m.n ρ false ⟨m.n, [], []⟩)
    generalize hP : tseitin c (m.map ++ am) e' ⟨m.n, [], []⟩ = P at d1 d2 d3
    have hres : ∀ ρ', Ext m.n ρ ρ' → (∀ cl ∈ P.2.cls, IsB ρ' cl) →
        eval ρ' (toCNFm c ord am ties n t).cnf = some (.b ((P.2.cls.reverse ++ [P.1]).all (bval ρ'))) := by
      intro ρ' hE hcl
      have hlit := d2.g.isB ρ' hE
      have hcnf : (toCNFm c ord am ties n t).cnf =
          (if (P.2.cls.reverse ++ [P.1]).length = 1 then (P.2.cls.reverse ++ [P.1]).headD .unknown else
              mkAnd c (P.2.cls.reverse ++ [P.1])) := by
        simp only [toCNFm, hfind, hm, if_neg hc, ← hee, hP]
      rw [hcnf]
      have hall : ∀ x ∈ (P.2.cls.reverse ++ [P.1]), IsB ρ' x := by
        intro x hx; simp only [List.mem_append, List.mem_reverse, List.mem_singleton] at hx
        rcases hx with hx | rfl
        · exact hcl x hx
        · exact hlit
      generalize (P.2.cls.reverse ++ [P.1]) = L at hall
      split
      · rename_i hl
        match L, hl with
        | [x], _ => simpa using (hall x (by simp)).eval
      · exact mkAnd_val c hall
    have hclB : ∀ ρ', Ext m.n ρ ρ' → ∀ cl ∈ P.2.cls, IsB ρ' cl := by
      intro ρ' hE cl hcl
      exact d1.isB cl hcl ρ' hE
    refine ⟨?_, ?_⟩
    · obtain ⟨ρ', hE, hS⟩ := d1.sat
      refine ⟨ρ', hE, ?_⟩
      rw [hres ρ' hE (hclB ρ' hE)]
      have h1 := d2.val ρ' hE hS
      have h2 : ∀ cl ∈ P.2.cls, bval ρ' cl = true := fun cl hcl => bval_of (hS cl hcl)
      simp only [List.all_append, List.all_reverse, List.all_cons, List.all_nil, Bool.and_true, h1, hV]
      rw [List.all_eq_true.2 h2]; rfl
    · intro ρ' hE he
      rw [hres ρ' hE (hclB ρ' hE)] at he
      simp only [Option.some.injEq, Val.b.injEq, List.all_append, List.all_reverse, List.all_cons,
        List.all_nil, Bool.and_true, Bool.and_eq_true, List.all_eq_true] at he
      have hS : Sat ρ' P.2.cls := by
        intro cl hcl
        rw [(hclB ρ' hE cl hcl).eval, he.1 cl hcl]
      have := d2.val ρ' hE hS
      rw [← hV, ← this]; exact he.2

/-- the ties of the second conversion contain those of the first -/
theorem toCNFm_ties_sub (c : Cfg) (ord : List Term → List Term) (am : VMap) (ties : List (Term × Term)) (n : Nat) (t : Term) :
    ∀ p ∈ ties, p ∈ (toCNFm c ord am ties n t).ties := by
  intro p hp
  simp only [toCNFm]
  split
  · exact hp
  · split <;> exact atomMap_ties c _ ⟨n, [], ties⟩ p hp

theorem Ext.trans {n m : Nat} {ρ0 ρ1 ρ2 : Env} (h1 : Ext n ρ0 ρ1) (h2 : Ext m ρ1 ρ2) (hnm : n ≤ m) : Ext n ρ0 ρ2 := by
  refine ⟨h2.fn.trans h1.fn, h2.lit.trans h1.lit, ?_, ?_⟩
  · intro vk s x hx
    rw [h2.var vk s x, h1.var vk s x hx]
    rintro ⟨e1, e2, i, hi, e3⟩
    exact hx ⟨e1, e2, i, by omega, e3⟩
  · intro i hi
    by_cases hi2 : m ≤ i
    · exact h2.bool i hi2
    · obtain ⟨b, hb⟩ := h1.bool i hi
      refine ⟨b, ?_⟩
      rw [h2.var, hb]
      rintro ⟨_, _, j, hj, e⟩
      have := tempName_inj e; omega

/-- every assignment can be changed on the temporaries of the atoms so that they are tied -/
theorem toCNFm_exists (c : Cfg) (ord : List Term → List Term) (hord : ∀ l x, x ∈ ord l ↔ x ∈ l)
    (am : VMap) (ties : List (Term × Term)) (n : Nat) (ρ : Env) (t : Term) (hf : DFit c t) (hin : cnfIn t = true) (hB : IsB ρ t)
    (hfr : noFresh n t) (hbool : ∀ i, n ≤ i → ∃ b, ρ.var .temp .bool (tempName i) = .b b)
    (hR : Rec n ρ ties am) (hT : Ties ρ ties) :
    ∃ ρ', Ext n ρ ρ' ∧ Ties ρ' (toCNFm c ord am ties n t).ties ∧
      ∀ p ∈ (toCNFm c ord am ties n t).ties, noFresh (toCNFm c ord am ties n t).n p.1 ∧ noFresh (toCNFm c ord am ties n t).n p.2 := by
  have hE0 : Ext n ρ ρ := ⟨rfl, rfl, fun _ _ _ _ => rfl, hbool⟩
  cases hfind : am.find t with
  | some v =>
    have e : toCNFm c ord am ties n t = ⟨v, n, ties⟩ := by simp only [toCNFm, hfind]
    rw [e]
    exact ⟨ρ, hE0, hT, hR.fr⟩
  | none =>
  have hx : NX c ρ n (fun _ => true) (toNNF c t) := nnf_NX _ t false (Nat.le_refl _) hf hin hB hfr
  have hties : (toCNFm c ord am ties n t).ties = (atomMap c (ord (collectAtoms (toNNF c t))) ⟨n, [], ties⟩).ties := by
    simp only [toCNFm, hfind]; split <;> rfl
  have hnn : (toCNFm c ord am ties n t).n = (atomMap c (ord (collectAtoms (toNNF c t))) ⟨n, [], ties⟩).n := by
    simp only [toCNFm, hfind]; split <;> rfl
  rw [hties, hnn]
  have hat : ∀ a ∈ ord (collectAtoms (toNNF c t)), NX c ρ n (fun _ => true) a := fun a ha =>
    collect_NX _ _ (Nat.le_refl _) hx a ((hord _ _).1 ha)
  obtain ⟨ρ1, hE1, hT1⟩ := atomMap_exists c n ρ (ord (collectAtoms (toNNF c t))) ⟨n, [], ties⟩ ρ
    (fun a ha => by
      have := hat a ha
      exact ⟨this.fr, this.isB, this.fit, dnfIn_negBin (xIn_dnfIn _ _ a (Nat.le_refl _) this.ok)⟩)
    (Nat.le_refl _) hE0 hT (by
      intro p hp ρ1 ρ2 h1 h2 _
      obtain ⟨f1, f2⟩ := hR.fr p hp
      rw [h1.eval f1, h2.eval f1, h1.eval f2, h2.eval f2]
      exact ⟨rfl, rfl⟩)
  exact ⟨ρ1, hE1, hT1, atomMap_noFresh c n ρ _ ⟨n, [], ties⟩ (Nat.le_refl _) hat hR.fr⟩

/-! ### the conversion of a list -/

section
variable {c : Cfg} {ord : List Term → List Term} {n fuel : Nat} {ts : List Term}

/-- what is needed of the assertions -/
structure InL (c : Cfg) (n : Nat) (ts : List Term) : Prop where
  fit : ∀ t ∈ ts, DFit c t
  cls : ∀ t ∈ ts, cnfIn t = true
  fr : ∀ t ∈ ts, noFresh n t

theorem InL.nx {ρ : Env} (h : InL c n ts) (hB : ∀ t ∈ ts, IsB ρ t) :
    (∀ t ∈ ts.map (toNNF c), NX c ρ n (fun _ => true) t) ∧ (ts.map (toNNF c)).all (bval ρ) = ts.all (bval ρ) := by
  constructor
  · intro u hu
    obtain ⟨t, ht, rfl⟩ := List.mem_map.1 hu
    exact nnf_NX _ t false (Nat.le_refl _) (h.fit t ht) (h.cls t ht) (hB t ht) (h.fr t ht)
  · rw [List.all_map, Bool.eq_iff_iff, List.all_eq_true, List.all_eq_true]
    have : ∀ t ∈ ts, bval ρ (toNNF c t) = bval ρ t := by
      intro t ht
      have := nnf_val c ρ _ t false (Nat.le_refl _) (h.fit t ht) (cnfIn_binary _ t (Nat.le_refl _) (h.cls t ht)) (hB t ht)
      simpa [toNNF] using bval_of this
    constructor
    · intro h1 t ht; rw [← this t ht]; exact h1 t ht
    · intro h1 t ht; simp only [Function.comp_def]; rw [this t ht]; exact h1 t ht

/-- the conjunction built before the last conversion -/
theorem toCNFL_and {ρ : Env} {es : List Term} (hord : ∀ l x, x ∈ ord l ↔ x ∈ l)
    (hes : ∀ t ∈ es, NX c ρ n (fun _ => true) t) {u : Term} (hu : DFit c u)
    (hbool : ∀ i, n ≤ i → ∃ b, ρ.var .temp .bool (tempName i) = .b b)
    (hT : Ties ρ (atomMap c (ord (collectAtomsL es)) ⟨n, [], []⟩).ties) :
    NX c ρ (atomMap c (ord (collectAtomsL es)) ⟨n, [], []⟩).n
      (fun t => ((atomMap c (ord (collectAtomsL es)) ⟨n, [], []⟩).map.find t).isSome)
      (mkAnd c (es.map fun e => if (atomMap c (ord (collectAtomsL es)) ⟨n, [], []⟩).map.isEmpty then e else
        replaceAtoms c (atomMap c (ord (collectAtomsL es)) ⟨n, [], []⟩).map e)) ∧
    bval ρ (mkAnd c (es.map fun e => if (atomMap c (ord (collectAtomsL es)) ⟨n, [], []⟩).map.isEmpty then e else
        replaceAtoms c (atomMap c (ord (collectAtomsL es)) ⟨n, [], []⟩).map e)) = es.all (bval ρ) := by
  have hmap := atomMap_ok hbool hT
  obtain ⟨_, m2⟩ := atomMap_spec c n (ord (collectAtomsL es)) ⟨n, [], []⟩ (Nat.le_refl _)
    (by intro k v h; simp [VMap.find] at h)
  have hle := atomMap_n c (ord (collectAtomsL es)) ⟨n, [], []⟩
  generalize atomMap c (ord (collectAtomsL es)) ⟨n, [], []⟩ = m at *
  simp only at hle
  have h1 : ∀ e ∈ es, NX c ρ m.n (fun t => (m.map.find t).isSome) e := fun e he =>
    ⟨(hes e he).fit, xIn_mono _ _ _ (Nat.le_refl _) (hes e he).ok fun a ha =>
      m2 a (.inl ((hord _ _).2 (collectAtomsL_mem.2 ⟨e, he, ha⟩))), (hes e he).isB, (hes e he).fr.mono hle⟩
  have h2 : ∀ e ∈ es, NX c ρ m.n (fun t => (m.map.find t).isSome) (if m.map.isEmpty then e else replaceAtoms c m.map e) ∧
      bval ρ (if m.map.isEmpty then e else replaceAtoms c m.map e) = bval ρ e := by
    intro e he
    split
    · exact ⟨h1 e he, rfl⟩
    · exact replaceAtoms_NX hmap (h1 e he)
  have h3 : ∀ t ∈ (es.map fun e => if m.map.isEmpty then e else replaceAtoms c m.map e),
      NX c ρ m.n (fun t => (m.map.find t).isSome) t := by
    intro t ht
    obtain ⟨e, he, rfl⟩ := List.mem_map.1 ht
    exact (h2 e he).1
  refine ⟨mkAnd_NX hu h3, ?_⟩
  rw [bval_of (mkAnd_val c fun t ht => (h3 t ht).isB), List.all_map, Bool.eq_iff_iff, List.all_eq_true, List.all_eq_true]
  constructor
  · intro h t ht; rw [← (h2 t ht).2]; exact h t ht
  · intro h t ht; simp only [Function.comp_def]; rw [(h2 t ht).2]; exact h t ht

end

end SMT

namespace SMT.Conv

open Term

/-- The conversion of a list of assertions ends, whatever the assertions are. -/
theorem toCNFL_total (c : Cfg) (ord : List Term → List Term) (n : Nat) (ts : List Term) :
    ∃ N, ∀ fuel, N ≤ fuel → ∃ r, toCNFL c ord n fuel ts = some r := by
  refine ⟨sizeL (ts.map (toNNF c)) + 1, fun fuel hf => ?_⟩
  obtain ⟨es, he⟩ := elimTop_total c fuel (ts.map (toNNF c)) (by omega)
  simp only [toCNFL, he]
  split
  · exact ⟨_, rfl⟩
  · split <;> exact ⟨_, rfl⟩

/-- Every model of all the assertions extends to a model of their common conjunctive normal form, with the temporaries of the atoms
tied to their atoms. -/
theorem toCNFL_complete_partial (c : Cfg) (ord : List Term → List Term) (hord : ∀ l x, x ∈ ord l ↔ x ∈ l) (n fuel : Nat) (ρ : Env)
    (ts : List Term) (res : CnfRes) (hr : toCNFL c ord n fuel ts = some res)
    (hf : ∀ t ∈ ts, DFit c t) (hin : ∀ t ∈ ts, cnfIn t = true) (hfr : ∀ t ∈ ts, noFresh n t)
    (h : ∀ t ∈ ts, eval ρ t = some (.b true)) :
    ∃ ρ', Ext n ρ ρ' ∧ Ties ρ' res.ties ∧ eval ρ' res.cnf = some (.b true) := by
  have hI : InL c n ts := ⟨hf, hin, hfr⟩
  simp only [toCNFL] at hr
  cases he : elimTop c fuel (ts.map (toNNF c)) with
  | none => rw [he] at hr; cases hr
  | some es =>
  rw [he] at hr
  simp only at hr
  by_cases hemp : es.isEmpty = true
  · rw [if_pos hemp] at hr
    cases hr
    exact ⟨reset ρ n, ext_reset ρ n, (by intro p hp; cases hp), by simp [eval]⟩
  rw [if_neg hemp] at hr
  -- an assignment that ties the atoms
  have nx : ∀ ρ, (∀ t ∈ ts, eval ρ t = some (.b true)) →
      (∀ t ∈ es, NX c ρ n (fun _ => true) t) ∧ es.all (bval ρ) = true := by
    intro ρ h
    obtain ⟨h1, h2⟩ := hI.nx (ρ := ρ) fun t ht => ⟨_, h t ht⟩
    refine ⟨elimTop_NX _ _ _ h1 he, ?_⟩
    rw [(elimTop_all (ρ := ρ) _ _ _ (fun t ht => (h1 t ht).isB) he).2, h2, List.all_eq_true]
    exact fun t ht => bval_of (h t ht)
  obtain ⟨hN, _⟩ := nx ρ h
  have hat : ∀ a ∈ ord (collectAtomsL es), NX c ρ n (fun _ => true) a := by
    intro a ha
    obtain ⟨e, he, hae⟩ := collectAtomsL_mem.1 ((hord _ _).1 ha)
    exact collect_NX _ _ (Nat.le_refl _) (hN e he) a hae
  obtain ⟨ρ1, hE1, hT1⟩ := atomMap_exists c n ρ (ord (collectAtomsL es)) ⟨n, [], []⟩ (reset ρ n)
    (fun a ha => by
      have := hat a ha
      exact ⟨this.fr, this.isB, this.fit, dnfIn_negBin (xIn_dnfIn _ _ a (Nat.le_refl _) this.ok)⟩)
    (Nat.le_refl _) (ext_reset ρ n) (by intro p hp; cases hp) (by intro p hp; cases hp)
  have h1 : ∀ t ∈ ts, eval ρ1 t = some (.b true) := fun t ht => by rw [hE1.eval (hfr t ht)]; exact h t ht
  obtain ⟨hN1, hA1⟩ := nx ρ1 h1
  have hu : ∃ u, DFit c u := by
    cases es with
    | nil => simp at hemp
    | cons e _ => exact ⟨e, (hN e (by simp)).fit⟩
  obtain ⟨u, hu⟩ := hu
  obtain ⟨r1, r2⟩ := toCNFL_and (ord := ord) hord hN1 hu hE1.bool hT1
  have hfrT := atomMap_noFresh c n ρ _ ⟨n, [], []⟩ (Nat.le_refl _) hat (by intro p hp; cases hp)
  have hok := fun (ρ' : Env) (hb : ∀ i, n ≤ i → ∃ b, ρ'.var .temp .bool (tempName i) = .b b) hT =>
    atomMap_ok (c := c) (as := ord (collectAtomsL es)) (ties := []) (n := n) (ρ := ρ') hb hT
  have hle := atomMap_n c (ord (collectAtomsL es)) ⟨n, [], []⟩
  generalize atomMap c (ord (collectAtomsL es)) ⟨n, [], []⟩ = m at *
  simp only at hle
  generalize mkAnd c (es.map fun e => if m.map.isEmpty then e else replaceAtoms c m.map e) = r at *
  have hrv : eval ρ1 r = some (.b true) := by rw [r1.isB.eval, r2, hA1]
  split at hr
  · cases hr
    exact ⟨ρ1, hE1, hT1, hrv⟩
  · simp only [Option.some.injEq] at hr
    have hbool : ∀ i, m.n ≤ i → ∃ b, ρ1.var .temp .bool (tempName i) = .b b := fun i hi => hE1.bool i (by omega)
    have hin' : cnfIn r = true := xIn_cnfIn _ _ (Nat.le_refl _) r1.ok
    obtain ⟨ρ2, hE2, hT2, hfr2⟩ := toCNFm_exists c ord hord m.map m.ties m.n ρ1 r r1.fit hin' r1.isB r1.fr hbool
      ⟨hok ρ1 hE1.bool hT1, hfrT⟩ hT1
    have hrv2 : eval ρ2 r = some (.b true) := by rw [hE2.eval r1.fr, hrv]
    have hE12 := hE1.trans hE2 hle
    obtain ⟨k1, ⟨ρ3, hE3, hv3⟩, _⟩ := toCNFm_core c ord hord m.map m.ties m.n ρ2 r r1.fit hin' ⟨_, hrv2⟩ r1.fr hE2.bool
      ⟨hok ρ2 hE12.bool fun p hp => hT2 p (toCNFm_ties_sub c ord m.map m.ties m.n r p hp), hfrT⟩ hT2
    rw [bval_of hrv2] at hv3
    rw [hr] at hT2 hfr2 k1 hE3 hv3
    refine ⟨ρ3, hE12.trans hE3 (by omega), ?_, hv3⟩
    intro p hp
    obtain ⟨f1, f2⟩ := hfr2 p hp
    rw [hE3.eval f1, hE3.eval f2]
    exact hT2 p hp

/-- Every model of the conjunctive normal form in which the temporaries of the atoms are tied to their atoms is a model of all the
assertions. -/
theorem toCNFL_sound_partial (c : Cfg) (ord : List Term → List Term) (hord : ∀ l x, x ∈ ord l ↔ x ∈ l) (n fuel : Nat) (ρ : Env)
    (ts : List Term) (res : CnfRes) (hr : toCNFL c ord n fuel ts = some res)
    (hf : ∀ t ∈ ts, DFit c t) (hin : ∀ t ∈ ts, cnfIn t = true) (hfr : ∀ t ∈ ts, noFresh n t)
    (h : ∀ t ∈ ts, ∃ x, eval ρ t = some (.b x))
    (hb : ∀ i, n ≤ i → ∃ b, eval ρ (tempVar i) = some (.b b))
    (hT : Ties ρ res.ties) (hc : eval ρ res.cnf = some (.b true)) :
    ∀ t ∈ ts, eval ρ t = some (.b true) := by
  have hI : InL c n ts := ⟨hf, hin, hfr⟩
  have hb' : ∀ i, n ≤ i → ∃ b, ρ.var .temp .bool (tempName i) = .b b := by
    intro i hi
    obtain ⟨b, hb⟩ := hb i hi
    simp only [tempVar, eval, guardSort_some] at hb
    exact ⟨b, by simpa using hb.1⟩
  have hB : ∀ t ∈ ts, IsB ρ t := fun t ht => h t ht
  suffices hs : ts.all (bval ρ) = true by
    intro t ht
    rw [(hB t ht).eval, List.all_eq_true.1 hs t ht]
  obtain ⟨h1, h2⟩ := hI.nx hB
  rw [← h2]
  simp only [toCNFL] at hr
  cases he : elimTop c fuel (ts.map (toNNF c)) with
  | none => rw [he] at hr; cases hr
  | some es =>
  rw [he] at hr
  simp only at hr
  rw [← (elimTop_all (ρ := ρ) _ _ _ (fun t ht => (h1 t ht).isB) he).2]
  have hN := elimTop_NX _ _ _ h1 he
  by_cases hemp : es.isEmpty = true
  · rw [List.isEmpty_iff.1 hemp]; rfl
  rw [if_neg hemp] at hr
  have hu : ∃ u, DFit c u := by
    cases es with
    | nil => simp at hemp
    | cons e _ => exact ⟨e, (hN e (by simp)).fit⟩
  obtain ⟨u, hu⟩ := hu
  have hat : ∀ a ∈ ord (collectAtomsL es), NX c ρ n (fun _ => true) a := by
    intro a ha
    obtain ⟨e, he, hae⟩ := collectAtomsL_mem.1 ((hord _ _).1 ha)
    exact collect_NX _ _ (Nat.le_refl _) (hN e he) a hae
  have hT0 : Ties ρ (atomMap c (ord (collectAtomsL es)) ⟨n, [], []⟩).ties := by
    split at hr <;> cases hr
    · exact hT
    · intro p hp; exact hT p (toCNFm_ties_sub _ _ _ _ _ _ p hp)
  obtain ⟨r1, r2⟩ := toCNFL_and (ord := ord) hord hN hu hb' hT0
  have hfrT := atomMap_noFresh c n ρ _ ⟨n, [], []⟩ (Nat.le_refl _) hat (by intro p hp; cases hp)
  have hok := atomMap_ok (c := c) (as := ord (collectAtomsL es)) (ties := []) hb' hT0
  have hle := atomMap_n c (ord (collectAtomsL es)) ⟨n, [], []⟩
  generalize atomMap c (ord (collectAtomsL es)) ⟨n, [], []⟩ = m at *
  simp only at hle
  generalize mkAnd c (es.map fun e => if m.map.isEmpty then e else replaceAtoms c m.map e) = r at *
  rw [← r2]
  split at hr
  · cases hr; exact bval_of hc
  · simp only [Option.some.injEq] at hr
    obtain ⟨k1, _, k3⟩ := toCNFm_core c ord hord m.map m.ties m.n ρ r r1.fit (xIn_cnfIn _ _ (Nat.le_refl _) r1.ok) r1.isB r1.fr
      (fun i hi => hb' i (by omega)) ⟨hok, hfrT⟩ (by rw [hr]; exact hT)
    rw [hr] at k1 k3
    exact k3 ρ ⟨rfl, rfl, fun _ _ _ _ => rfl, fun i hi => hb' i (by omega)⟩ hc

/-- two assertions that meet the hypotheses: the first has a conjunction at the top, both share an atom -/
example : (∀ t ∈ [ex4, bv "d"], DFit c0 t) ∧ (∀ t ∈ [ex4, bv "d"], cnfIn t = true) ∧ (∀ t ∈ [ex4, bv "d"], noFresh 0 t) ∧
    (∀ t ∈ [ex4, bv "d"], eval (env (fun v => v == "d") (fun _ => 2)) t = some (.b true)) := by
  refine ⟨fun _ _ => .inl fun _ => rfl, by decide, ?_, by decide⟩
  intro t ht
  simp only [List.mem_cons, List.not_mem_nil, or_false] at ht
  rcases ht with rfl | rfl
  · exact noFresh_ex4
  · intro i _ h; simp [subs, tempVar, bv] at h

end SMT.Conv
