import Verif.Conv.Cnf
/-!
# `toCNF`: replacing the atoms, and the whole conversion
-/
namespace SMT

open Term

theorem simp_xor (c : Cfg) (ps : List Term) (h : 2 ≤ ps.length) :
    simp c .xor ps = .tt ∨ simp c .xor ps = .ff ∨ simp c .xor ps = .unknown := by
  have h2 : ∀ l r, simp2 c .xor l r = .tt ∨ simp2 c .xor l r = .ff ∨ simp2 c .xor l r = .unknown := by
    intro l r
    simp only [simp2]; split
    · simp
    · split
      · simp
      · split
        · simp
        · split <;> simp
  have hf : ∀ ps a, (a = .tt ∨ a = .ff ∨ a = .unknown) →
      simpFold c .xor a ps = .tt ∨ simpFold c .xor a ps = .ff ∨ simpFold c .xor a ps = .unknown := by
    intro ps
    induction ps with
    | nil => intro a ha; exact ha
    | cons p ps ih =>
      intro a _
      simp only [simpFold]
      split
      · simp
      · exact ih _ (h2 a p)
  rcases ps with _ | ⟨a, _ | ⟨b, _ | ⟨d, _ | ⟨e, l⟩⟩⟩⟩
  · simp at h
  · simp at h
  · exact h2 a b
  · exact h2 _ d
  · have : simp c .xor (a :: b :: d :: e :: l) = simpFold c .xor a (b :: d :: e :: l) := rfl
    rw [this, simpFold]
    split
    · simp
    · exact hf _ _ (h2 a b)

/-- kinds of the formulas `replaceAtoms` rebuilds here -/
def isBK (k : Kind) : Bool :=
  k == .not || k == .and || k == .or || k == .xor || k == .eq || k == .distinct || k == .ite

theorem simp_bk (c : Cfg) (k : Kind) (hk : isBK k = true) (ps : List Term) :
    simp c k ps = .tt ∨ simp c k ps = .ff ∨ simp c k ps = .unknown ∨ simp c k ps ∈ ps := by
  simp only [isBK, Bool.or_eq_true, beq_iff_eq] at hk
  have key : ∀ u : Term, (u = .tt ∨ u = .ff ∨ u = .unknown) →
      (u = .tt ∨ u = .ff ∨ u = .unknown ∨ u ∈ ps) := by
    intro u hu; rcases hu with h | h | h <;> simp [h]
  by_cases hrel : k = .eq ∨ k = .distinct
  · exact key _ (simp_rel c k (by rcases hrel with h | h <;> simp [h]) ps)
  · rcases ps with _ | ⟨a, _ | ⟨b, l⟩⟩
    · simp [simp]
    · rcases hk with (((((rfl | rfl) | rfl) | rfl) | rfl) | rfl) | rfl <;>
        first | exact absurd (.inl rfl) hrel | exact absurd (.inr rfl) hrel | skip
      · simp only [simp, simp1]; split
        · simp
        · split <;> simp
      · simp [simp, simp1]
      · simp [simp, simp1]
      · simp [simp, simp1]
      · simp [simp, simp1]
    · rcases hk with (((((rfl | rfl) | rfl) | rfl) | rfl) | rfl) | rfl <;>
        first | exact absurd (.inl rfl) hrel | exact absurd (.inr rfl) hrel | skip
      · rcases l with _ | ⟨d, _ | ⟨e, l⟩⟩ <;> simp [simp, simp2, simp3, simpN]
      · exact key _ (simp_conn c _ (.inl rfl) _ (by simp))
      · exact key _ (simp_conn c _ (.inr rfl) _ (by simp))
      · exact key _ (simp_xor c _ (by simp))
      · rcases l with _ | ⟨d, _ | ⟨e, l⟩⟩
        · simp [simp, simp2]
        · simp only [simp, simp3]; split
          · simp
          · split <;> simp
        · simp [simp, simpN]

theorem mkOper_bk (c : Cfg) (s : Srt) (k : Kind) (hk : isBK k = true) (ps : List Term) :
    mkOper c s k ps = .tt ∨ mkOper c s k ps = .ff ∨ mkOper c s k ps = .unknown ∨
      mkOper c s k ps ∈ ps ∨ ∃ us, mkOper c s k ps = .app k s us ∧ us.Perm ps := by
  unfold mkOper
  split
  · simp
  · split
    · rcases simp_bk c k hk ps with h | h | h | h <;> simp [h]
    · right; right; right; right
      refine ⟨_, rfl, ?_⟩
      split
      · exact c.perm ps
      · exact .refl _

section
variable {c : Cfg} {ρ : Env} {n : Nat}

theorem xIn_lit {p : Term → Bool} {t : Term} (h : isLit t = true) : xIn p t = true := by
  unfold isLit at h
  split at h
  · rfl
  · rfl
  · rfl
  · rename_i t; unfold isBVar at h; split at h <;> simp_all [xIn, xInL]
  · cases h

/-- the operands of a formula that is not an atom -/
theorem NX.kids {p : Term → Bool} {k : Kind} {s : Srt} {ts : List Term}
    (h : NX c ρ n p (.app k s ts)) (ha : atomIn (.app k s ts) = true → p (.app k s ts) = true → False) :
    isBK k = true ∧ (k = .xor → ts ≠ []) ∧ (∀ t ∈ ts, NX c ρ n p t) ∧
      ((k = .eq ∨ k = .distinct) → ∀ t ∈ ts, t.sort = .bool) := by
  have hok := h.ok
  have hk : isBK k = true ∧ (k = .xor → ts ≠ []) ∧ xInL p ts = true ∧
      ((k = .eq ∨ k = .distinct) → ∀ t ∈ ts, t.sort = .bool) := by
    cases k <;> simp only [xIn, Bool.and_eq_true, Bool.or_eq_true] at hok
    all_goals first
      | exact (ha hok.1 hok.2).elim
      | exact ⟨rfl, by simp, hok, by simp⟩
      | exact ⟨rfl, by simpa using hok.1, hok.2, by simp⟩
      | exact hok.elim (fun h => (ha h.1 h.2).elim) fun h => ⟨rfl, by simp, h.2, fun _ => by simpa using h.1⟩
  have hB : ∀ t ∈ ts, IsB ρ t := by
    have hb := hk.1
    have h4 := hk.2.2.2
    simp only [isBK, Bool.or_eq_true, beq_iff_eq] at hb
    rcases hb with (((((rfl | rfl) | rfl) | rfl) | rfl) | rfl) | rfl
    · obtain ⟨u, rfl, h1, _⟩ := not_child h.isB; simpa using h1
    · exact (and_node h.isB).1
    · exact (or_node h.isB).1
    · exact (xor_node h.isB).1
    · exact (eq_node h.isB (h4 (.inl rfl))).2.1
    · exact (distinct_node h.isB (h4 (.inr rfl))).2.1
    · obtain ⟨a, b, d, rfl, h1, h2, h3, _⟩ := ite_node h.isB
      intro t ht; simp at ht; rcases ht with rfl | rfl | rfl <;> assumption
  exact ⟨hk.1, hk.2.1, fun t ht => ⟨h.fit.child ht, (xInL_iff p ts).1 hk.2.2.1 t ht, hB t ht,
    noFresh_kid h.fr ht⟩, hk.2.2.2⟩

theorem repl_NX {am : VMap} (hm : MapOK n ρ am) {t : Term}
    (h : NX c ρ n (fun t => (am.find t).isSome) t) :
    NX c ρ n (fun t => (am.find t).isSome)
        (repl c (fun t => if isAtom t then am.find t else none) t []).1 ∧
      bval ρ (repl c (fun t => if isAtom t then am.find t else none) t []).1 = bval ρ t := by
  refine (repl_rel (P := NX c ρ n (fun t => (am.find t).isSome))
    (R := fun t r => NX c ρ n (fun t => (am.find t).isSome) r ∧ bval ρ r = bval ρ t)
    (fun t h => ⟨h, rfl⟩) ?_ ?_ ?_ _ t [] (Nat.le_refl _) h VInv.nil).1
  · intro t r ht hr
    split at hr
    · obtain ⟨h1, h2, h3, h4⟩ := hm _ _ hr
      exact ⟨⟨ht.fit.other (lit_facts h1).2, xIn_lit h1, h3, h2⟩, h4⟩
    · cases hr
  · intro k s ts ht hr
    exact (ht.kids fun ha hp => by
      rw [if_pos (atomIn_isAtom ha)] at hr; simp [hr] at hp).2.2.1
  · intro k s ts rs ht hr hne hall
    obtain ⟨hk, hx, hkids, hsrt⟩ := ht.kids fun ha hp => by
      rw [if_pos (atomIn_isAtom ha)] at hr; simp [hr] at hp
    have hrs : (∀ r ∈ rs, NX c ρ n (fun t => (am.find t).isSome) r) ∧ rs.length = ts.length ∧
        evalL ρ rs = evalL ρ ts := by
      clear hne hr hx hsrt ht
      induction hall with
      | nil => simp
      | cons hr _ ih =>
        rename_i a b l r _
        have ih := ih fun t ht => hkids t (by simp [ht])
        refine ⟨?_, by simp [ih.2.1], ?_⟩
        · intro r hr'; simp only [List.mem_cons] at hr'
          rcases hr' with rfl | hr'
          · exact hr.1
          · exact ih.1 r hr'
        · have hb : eval ρ b = eval ρ a := by
            rw [hr.1.isB.eval, (hkids a (by simp)).isB.eval, hr.2]
          simp only [evalL, hb, ih.2.2]
    have hrne : rs ≠ [] := by
      rintro rfl; exact hne (List.length_eq_zero_iff.1 (by simpa using hrs.2.1.symm))
    have h1 := guardSort_some.1 ((eval_app ρ k s ts).symm.trans ht.isB.eval)
    have hv := (mkOper_sound c ρ k rs s _ (fun r hr => (hrs.1 r hr).fit.fit) hrne
      (by rintro rfl; simp [isBK] at hk) h1.2 (by simp only [evalApp, hrs.2.2]; exact h1.1)).1
    have hB : IsB ρ (mkOper c s k rs) := ⟨_, hv⟩
    refine ⟨?_, bval_of hv⟩
    rcases mkOper_bk c s k hk rs with h2 | h2 | h2 | h2 | ⟨us, h2, hp⟩
    · rw [h2]; exact NX.tt ht.fit
    · rw [h2]; exact NX.ff ht.fit
    · rw [h2] at hB; obtain ⟨x, hx⟩ := hB; simp [eval] at hx
    · exact hrs.1 _ h2
    · rw [h2] at hB ⊢
      have hus : ∀ u ∈ us, NX c ρ n (fun t => (am.find t).isSome) u :=
        fun u hu => hrs.1 u (hp.mem_iff.1 hu)
      have hune : us ≠ [] := by
        rintro rfl; exact hrne (List.length_eq_zero_iff.1 hp.length_eq.symm)
      refine ⟨dfit_app hune fun u hu => (hus u hu).fit, ?_, hB, noFresh_app fun u hu => (hus u hu).fr⟩
      have hxl : xInL (fun t => (am.find t).isSome) us = true := (xInL_iff _ _).2 fun u hu => (hus u hu).ok
      have hall : us.all (fun t => t.sort == .bool) = true := by
        rw [List.all_eq_true]; intro u hu; simpa using (hus u hu).isB.sort
      simp only [isBK, Bool.or_eq_true, beq_iff_eq] at hk
      rcases hk with (((((rfl | rfl) | rfl) | rfl) | rfl) | rfl) | rfl <;>
        simp [xIn, hxl, -List.all_eq_true, hall, hune]

theorem replaceAtoms_NX {am : VMap} (hm : MapOK n ρ am) {t : Term}
    (h : NX c ρ n (fun t => (am.find t).isSome) t) :
    NX c ρ n (fun t => (am.find t).isSome) (replaceAtoms c am t) ∧
      bval ρ (replaceAtoms c am t) = bval ρ t := by
  simp only [replaceAtoms]
  split
  · exact repl_NX hm h
  · exact ⟨h, rfl⟩

end

/-! ### the atom map -/

/-- the temporaries of the atoms have the values of their atoms -/
def Ties (ρ : Env) (l : List (Term × Term)) : Prop := ∀ p ∈ l, eval ρ p.1 = eval ρ p.2

theorem atomMap_n (c : Cfg) : ∀ (as : List Term) (m : AMap), m.n ≤ (atomMap c as m).n := by
  intro as
  induction as with
  | nil => intro m; exact Nat.le_refl _
  | cons a as ih => intro m; simp only [atomMap]; have := ih ⟨m.n + 1, (mkNot c a, mkNot c (tempVar m.n)) :: (a, tempVar m.n) :: m.map, (mkNot c (tempVar m.n), mkNot c a) :: (tempVar m.n, a) :: m.ties⟩; simp only at this; omega

theorem atomMap_ties (c : Cfg) : ∀ (as : List Term) (m : AMap) (p : Term × Term), p ∈ m.ties →
    p ∈ (atomMap c as m).ties := by
  intro as
  induction as with
  | nil => intro m p h; exact h
  | cons a as ih => intro m p h; simp only [atomMap]; exact ih _ p (by simp [h])

theorem mkNot_temp (c : Cfg) (i : Nat) : mkNot c (tempVar i) = .app .not .bool [tempVar i] := by
  rw [mkNot.eq_def]
  simp [tempVar, Term.sort, mkOper, simp, simp1, Term.isTrue, Term.isFalse, isUnknown, isComm]

/-- an entry of the map: `k` is an atom or a negated atom tied to the literal `v` -/
def Entry (n0 : Nat) (ties : List (Term × Term)) (n : Nat) (k v : Term) : Prop :=
  (isLit v = true ∧ ∃ i, n0 ≤ i ∧ (v = tempVar i ∨ v = .app .not .bool [tempVar i])) ∧ noFresh n v ∧
    (v, k) ∈ ties

theorem noFresh_temp {i n : Nat} (h : i < n) : noFresh n (tempVar i) := by
  intro j hj hx
  simp only [subs, tempVar, List.mem_singleton, Term.var.injEq, true_and] at hx
  have := tempName_inj hx; omega

theorem atomMap_spec (c : Cfg) (n0 : Nat) : ∀ (as : List Term) (m : AMap), n0 ≤ m.n →
    (∀ k v, m.map.find k = some v → Entry n0 m.ties m.n k v) →
    (∀ k v, (atomMap c as m).map.find k = some v →
      Entry n0 (atomMap c as m).ties (atomMap c as m).n k v) ∧
    (∀ a, a ∈ as ∨ (m.map.find a).isSome = true → ((atomMap c as m).map.find a).isSome = true) := by
  intro as
  induction as with
  | nil => intro m _ h; exact ⟨h, by simp [atomMap]⟩
  | cons a as ih =>
    intro m hn h
    simp only [atomMap]
    obtain ⟨h1, h2⟩ := ih ⟨m.n + 1, (mkNot c a, mkNot c (tempVar m.n)) :: (a, tempVar m.n) :: m.map,
      (mkNot c (tempVar m.n), mkNot c a) :: (tempVar m.n, a) :: m.ties⟩ (by simp only; omega) (by
        intro k v hf
        simp only [VMap.find_cons] at hf
        split at hf
        · rename_i e; cases hf; subst e
          refine ⟨by rw [mkNot_temp]; exact ⟨rfl, m.n, hn, .inr rfl⟩, ?_, by simp⟩
          rw [mkNot_temp]
          exact noFresh_app (by simpa using noFresh_temp (Nat.lt_succ_self _))
        · split at hf
          · rename_i e; cases hf; subst e
            exact ⟨⟨rfl, m.n, hn, .inl rfl⟩, noFresh_temp (Nat.lt_succ_self _), by simp⟩
          · obtain ⟨e1, e2, e3⟩ := h k v hf
            exact ⟨e1, e2.mono (Nat.le_succ _), by simp [e3]⟩)
    refine ⟨h1, fun b hb => h2 b ?_⟩
    simp only [VMap.find_cons]
    simp only [List.mem_cons] at hb
    by_cases e1 : mkNot c a = b
    · right; rw [if_pos e1]; rfl
    · by_cases e2 : a = b
      · right; rw [if_neg e1, if_pos e2]; rfl
      · rcases hb with (hb | hb) | hb
        · exact absurd hb.symm e2
        · exact .inl hb
        · right; rw [if_neg e1, if_neg e2]; exact hb

/-- Every assignment can be changed on the temporaries of the atoms so that they are tied. -/
theorem atomMap_exists (c : Cfg) (n0 : Nat) (ρ0 : Env) : ∀ (as : List Term) (m : AMap) (ρ : Env),
    (∀ a ∈ as, noFresh n0 a ∧ IsB ρ0 a ∧ DFit c a ∧ negBin a = true) → n0 ≤ m.n →
    Ext n0 ρ0 ρ → Ties ρ m.ties →
    (∀ p ∈ m.ties, ∀ ρ1 ρ2, Ext n0 ρ0 ρ1 → Ext n0 ρ0 ρ2 → Agree m.n ρ1 ρ2 →
      eval ρ2 p.1 = eval ρ1 p.1 ∧ eval ρ2 p.2 = eval ρ1 p.2) →
    ∃ ρ', Ext n0 ρ0 ρ' ∧ Ties ρ' (atomMap c as m).ties := by
  intro as
  induction as with
  | nil => intro m ρ _ _ h1 h2 _; exact ⟨ρ, h1, h2⟩
  | cons a as ih =>
    intro m ρ ha hn hE hT hI
    obtain ⟨a1, a2, a3, a4⟩ := ha a (by simp)
    simp only [atomMap]
    have hnot : ∀ ρ1, Ext n0 ρ0 ρ1 → eval ρ1 (mkNot c a) = some (.b (!bval ρ0 a)) := by
      intro ρ1 h1
      have hB : IsB ρ1 a := ⟨_, by rw [h1.eval a1]; exact a2.eval⟩
      rw [mkNot_val c ρ1 a a3 a4 hB]
      simp [bval, h1.eval a1]
    have hx : ∀ ρ1, Ext n0 ρ0 ρ1 → IsB ρ1 (tempVar m.n) := by
      intro ρ1 h1
      obtain ⟨b, hb⟩ := h1.bool m.n hn
      exact ⟨b, by simp [tempVar, SMT.eval, hb, guardSort, Val.hasSort]⟩
    have hnx : ∀ ρ1, Ext n0 ρ0 ρ1 → eval ρ1 (mkNot c (tempVar m.n))
        = some (.b (!bval ρ1 (tempVar m.n))) := by
      intro ρ1 h1
      exact mkNot_val c ρ1 _ (a3.other rfl) rfl (hx ρ1 h1)
    refine ih _ (upd ρ m.n (bval ρ0 a)) (fun b hb => ha b (by simp [hb])) (by simp only; omega)
      (ext_upd hE hn _) ?_ ?_
    · intro p hp
      have hE' := ext_upd hE hn (bval ρ0 a)
      simp only [List.mem_cons] at hp
      rcases hp with rfl | rfl | hp
      · simp only [hnot _ hE', hnx _ hE']
        rw [bval_of (upd_val ρ m.n _)]
      · simp only [upd_val, hE'.eval a1, a2.eval]
      · obtain ⟨h1, h2⟩ := hI p hp ρ _ hE hE' (agree_upd ρ m.n _)
        rw [h1, h2]; exact hT p hp
    · intro p hp ρ1 ρ2 h1 h2 hA
      have hA' : Agree m.n ρ1 ρ2 := by
        refine ⟨hA.fn, hA.lit, ?_⟩
        intro vk s x hx
        refine hA.var vk s x ?_
        rintro ⟨e1, e2, i, hi, e3⟩
        exact hx ⟨e1, e2, i, by simp only at hi; omega, e3⟩
      have hxe : eval ρ2 (tempVar m.n) = eval ρ1 (tempVar m.n) :=
        eval_agree hA _ _ (Nat.le_refl _) (noFresh_temp (Nat.lt_succ_self _))
      simp only [List.mem_cons] at hp
      rcases hp with rfl | rfl | hp
      · simp only [hnot _ h1, hnot _ h2, hnx _ h1, hnx _ h2]
        simp [bval, hxe]
      · simp only [hxe, h1.eval a1, h2.eval a1, and_self]
      · exact hI p hp ρ1 ρ2 h1 h2 hA'

/-! ### the atoms of the formula -/

theorem collect_NX {c : Cfg} {ρ : Env} {n : Nat} : ∀ (m : Nat) (t : Term), t.size ≤ m →
    NX c ρ n (fun _ => true) t → ∀ a ∈ collectAtoms t, NX c ρ n (fun _ => true) a := by
  intro m
  induction m with
  | zero => intro t h; cases t <;> simp [size] at h
  | succ m ih =>
    intro t hm h a ha
    cases t with
    | app k s ts =>
      simp only [collectAtoms] at ha
      split at ha
      · simp at ha; subst ha; exact h
      · rename_i hna
        obtain ⟨u, hu, hau⟩ := collectAtomsL_mem.1 ha
        have := size_child (k := k) (s := s) hu
        exact ih u (by omega) ((h.kids fun h1 _ => hna (atomIn_isAtom h1)).2.2.1 u hu) a hau
    | _ => simp [collectAtoms, isAtom] at ha

/-- the conversion, given an assignment that ties the temporaries of the atoms -/
theorem toCNF_core (c : Cfg) (ord : List Term → List Term) (hord : ∀ l x, x ∈ ord l ↔ x ∈ l)
    (n : Nat) (ρ : Env) (t : Term) (hf : DFit c t) (hin : cnfIn t = true) (hB : IsB ρ t)
    (hfr : noFresh n t) (hbool : ∀ i, n ≤ i → ∃ b, ρ.var .temp .bool (tempName i) = .b b)
    (hT : Ties ρ (toCNF c ord n t).ties) :
    n ≤ (toCNF c ord n t).n ∧
    (∃ ρ', Ext (toCNF c ord n t).n ρ ρ' ∧ eval ρ' (toCNF c ord n t).cnf = some (.b (bval ρ t))) ∧
    (∀ ρ', Ext (toCNF c ord n t).n ρ ρ' → eval ρ' (toCNF c ord n t).cnf = some (.b true) →
      bval ρ t = true) := by
  have hx := nnf_NX (n := n) (c := c) (ρ := ρ) _ t false (Nat.le_refl _) hf hin hB hfr
  have hval : bval ρ (toNNF c t) = bval ρ t := by
    have := nnf_val c ρ _ t false (Nat.le_refl _) hf (cnfIn_binary _ t (Nat.le_refl _) hin) hB
    simpa [toNNF] using bval_of this
  have hx : NX c ρ n (fun _ => true) (toNNF c t) := hx
  obtain ⟨m1, m2⟩ := atomMap_spec c n (ord (collectAtoms (toNNF c t))) ⟨n, [], []⟩ (Nat.le_refl _)
    (by intro k v h; simp [VMap.find] at h)
  have hle := atomMap_n c (ord (collectAtoms (toNNF c t))) ⟨n, [], []⟩
  -- name the pieces
  generalize hm : atomMap c (ord (collectAtoms (toNNF c t))) ⟨n, [], []⟩ = m at m1 m2 hle
  have hties : (toCNF c ord n t).ties = m.ties := by
    simp only [toCNF, hm]; split <;> rfl
  have hnn : (toCNF c ord n t).n = m.n := by
    simp only [toCNF, hm]; split <;> rfl
  rw [hties] at hT
  rw [hnn]
  simp only at hle
  have hmap : MapOK m.n ρ m.map := by
    intro k v hk
    obtain ⟨⟨h1, i, hi, h2⟩, h3, h4⟩ := m1 k v hk
    have hv : IsB ρ v := by
      obtain ⟨b, hb⟩ := hbool i hi
      have hx : eval ρ (tempVar i) = some (.b b) := by
        simp [tempVar, eval, hb, guardSort, Val.hasSort]
      rcases h2 with rfl | rfl
      · exact ⟨b, hx⟩
      · exact ⟨!b, by simp [eval, evalL, hx, apply, guardSort, Val.hasSort]⟩
    exact ⟨h1, h3, hv, by simp [bval, hT (v, k) h4]⟩
  have hx2 : NX c ρ m.n (fun t => (m.map.find t).isSome) (toNNF c t) :=
    ⟨hx.fit, xIn_mono _ _ _ (Nat.le_refl _) hx.ok fun a ha => m2 a (.inl ((hord _ _).2 ha)), hx.isB,
      hx.fr.mono hle⟩
  -- the formula after replacing the atoms
  have he' : ∃ e', e' = (if m.map.isEmpty then toNNF c t else replaceAtoms c m.map (toNNF c t)) ∧
      NX c ρ m.n (fun t => (m.map.find t).isSome) e' ∧ bval ρ e' = bval ρ t := by
    refine ⟨_, rfl, ?_⟩
    split
    · exact ⟨hx2, hval⟩
    · obtain ⟨h1, h2⟩ := replaceAtoms_NX hmap hx2
      exact ⟨h1, h2.trans hval⟩
  obtain ⟨e', hee, hN, hV⟩ := he'
  refine ⟨hle, ?_⟩
  by_cases hc : isCNF (toNNF c t) = true
  · have hcnf : (toCNF c ord n t).cnf = e' := by simp only [toCNF, hm, if_pos hc, hee]
    rw [hcnf]
    refine ⟨⟨reset ρ m.n, ext_reset ρ m.n, ?_⟩, ?_⟩
    · rw [(ext_reset ρ m.n).eval hN.fr, hN.isB.eval, hV]
    · intro ρ' hE he
      rw [hE.eval hN.fr, hN.isB.eval, hV] at he
      simpa using he
  · obtain ⟨d1, d2, d3⟩ := tseitin_ok (nn := false) hmap _ e' ⟨m.n, [], []⟩ (Nat.le_refl _) hN.fit
      (xIn_tsIn _ _ _ (Nat.le_refl _) hN.ok) hN.fr hN.isB
      (⟨Nat.le_refl _, ⟨reset ρ m.n, ext_reset ρ m.n, by simp [Sat]⟩, by simp, by simp, by simp,
        by intro k v h; simp [VMap.find] at h⟩ : TInv m.n ρ false ⟨m.n, [], []⟩)
    -- value of the result when all parts are Boolean
    have hres : ∀ ρ', Ext m.n ρ ρ' → (∀ cl ∈ (tseitin c m.map e' ⟨m.n, [], []⟩).2.cls, IsB ρ' cl) →
        eval ρ' (toCNF c ord n t).cnf = some (.b
          (((tseitin c m.map e' ⟨m.n, [], []⟩).2.cls.reverse ++
            [(tseitin c m.map e' ⟨m.n, [], []⟩).1]).all (bval ρ'))) := by
      intro ρ' hE hcl
      have hlit := d2.g.isB ρ' hE
      have hcnf : (toCNF c ord n t).cnf =
          (if ((tseitin c m.map e' ⟨m.n, [], []⟩).2.cls.reverse ++
            [(tseitin c m.map e' ⟨m.n, [], []⟩).1]).length = 1 then
              ((tseitin c m.map e' ⟨m.n, [], []⟩).2.cls.reverse ++
            [(tseitin c m.map e' ⟨m.n, [], []⟩).1]).headD .unknown else
              mkAnd c ((tseitin c m.map e' ⟨m.n, [], []⟩).2.cls.reverse ++
            [(tseitin c m.map e' ⟨m.n, [], []⟩).1])) := by
        simp only [toCNF, hm, if_neg hc, hee]
      rw [hcnf]
      have hall : ∀ x ∈ ((tseitin c m.map e' ⟨m.n, [], []⟩).2.cls.reverse ++
            [(tseitin c m.map e' ⟨m.n, [], []⟩).1]), IsB ρ' x := by
        intro x hx; simp only [List.mem_append, List.mem_reverse, List.mem_singleton] at hx
        rcases hx with hx | rfl
        · exact hcl x hx
        · exact hlit
      generalize ((tseitin c m.map e' ⟨m.n, [], []⟩).2.cls.reverse ++
            [(tseitin c m.map e' ⟨m.n, [], []⟩).1]) = L at hall
      split
      · rename_i hl
        match L, hl with
        | [x], _ => simpa using (hall x (by simp)).eval
      · exact mkAnd_val c hall
    have hclB : ∀ ρ', Ext m.n ρ ρ' → ∀ cl ∈ (tseitin c m.map e' ⟨m.n, [], []⟩).2.cls, IsB ρ' cl := by
      intro ρ' hE cl hcl
      exact d1.isB cl hcl ρ' hE
    refine ⟨?_, ?_⟩
    · obtain ⟨ρ', hE, hS⟩ := d1.sat
      refine ⟨ρ', hE, ?_⟩
      rw [hres ρ' hE (hclB ρ' hE)]
      have h1 := d2.val ρ' hE hS
      have h2 : ∀ cl ∈ (tseitin c m.map e' ⟨m.n, [], []⟩).2.cls, bval ρ' cl = true :=
        fun cl hcl => bval_of (hS cl hcl)
      simp only [List.all_append, List.all_reverse, List.all_cons, List.all_nil, Bool.and_true, h1, hV]
      rw [List.all_eq_true.2 h2]; rfl
    · intro ρ' hE he
      rw [hres ρ' hE (hclB ρ' hE)] at he
      simp only [Option.some.injEq, Val.b.injEq, List.all_append, List.all_reverse, List.all_cons,
        List.all_nil, Bool.and_true, Bool.and_eq_true, List.all_eq_true] at he
      have hS : Sat ρ' (tseitin c m.map e' ⟨m.n, [], []⟩).2.cls := by
        intro cl hcl
        rw [(hclB ρ' hE cl hcl).eval, he.1 cl hcl]
      have := d2.val ρ' hE hS
      rw [← hV, ← this]; exact he.2

theorem atomMap_noFresh (c : Cfg) (n0 : Nat) (ρ : Env) : ∀ (as : List Term) (m : AMap), n0 ≤ m.n →
    (∀ a ∈ as, NX c ρ n0 (fun _ => true) a) →
    (∀ p ∈ m.ties, noFresh m.n p.1 ∧ noFresh m.n p.2) →
    ∀ p ∈ (atomMap c as m).ties, noFresh (atomMap c as m).n p.1 ∧ noFresh (atomMap c as m).n p.2 := by
  intro as
  induction as with
  | nil => intro m _ _ h; exact h
  | cons a as ih =>
    intro m hn ha h
    simp only [atomMap]
    refine ih _ (by simp only; omega) (fun b hb => ha b (by simp [hb])) ?_
    have hx : noFresh (m.n + 1) (tempVar m.n) := noFresh_temp (Nat.lt_succ_self _)
    have haa := ha a (by simp)
    intro p hp
    simp only [List.mem_cons] at hp
    rcases hp with rfl | rfl | hp
    · refine ⟨?_, (mkNot_NX haa).fr.mono (by simp only; omega)⟩
      simp only [mkNot_temp]
      exact noFresh_app (by simpa using hx)
    · exact ⟨hx, haa.fr.mono (by simp only; omega)⟩
    · exact ⟨(h p hp).1.mono (by simp only; omega), (h p hp).2.mono (by simp only; omega)⟩

theorem ties_noFresh (c : Cfg) (ord : List Term → List Term) (hord : ∀ l x, x ∈ ord l ↔ x ∈ l)
    (n : Nat) (ρ : Env) (t : Term) (hf : DFit c t) (hin : cnfIn t = true) (hB : IsB ρ t)
    (hfr : noFresh n t) (p : Term × Term) (hp : p ∈ (toCNF c ord n t).ties) :
    noFresh (toCNF c ord n t).n p.1 ∧ noFresh (toCNF c ord n t).n p.2 := by
  have hx : NX c ρ n (fun _ => true) (toNNF c t) := nnf_NX _ t false (Nat.le_refl _) hf hin hB hfr
  have h := atomMap_noFresh c n ρ (ord (collectAtoms (toNNF c t))) ⟨n, [], []⟩ (Nat.le_refl _)
    (fun a ha => collect_NX _ _ (Nat.le_refl _) hx a ((hord _ _).1 ha)) (by simp)
  have hties : (toCNF c ord n t).ties = (atomMap c (ord (collectAtoms (toNNF c t))) ⟨n, [], []⟩).ties := by
    simp only [toCNF]; split <;> rfl
  have hnn : (toCNF c ord n t).n = (atomMap c (ord (collectAtoms (toNNF c t))) ⟨n, [], []⟩).n := by
    simp only [toCNF]; split <;> rfl
  rw [hnn]; rw [hties] at hp
  exact h p hp

end SMT
