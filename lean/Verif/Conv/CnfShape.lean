import Verif.Conv.Cnf2
/-!
# `toCNF`: shape of the result
-/
namespace SMT

open Term

mutual
/-- A formula whose conversion is in conjunctive normal form: a Boolean skeleton (`not`, `and`, `or`,
two-operand `=>`, `ite`) over constants, Boolean variables and, under an even number of negations, `xor`,
`=` and `distinct` between formulas in which only variables are negated (`tsIn [] true`).  `neg` says
whether the formula is under an odd number of negations. -/
def posIn (neg : Bool) : Term → Bool
  | .tt => true
  | .ff => true
  | .var _ _ _ => true
  | .app .not _ ts => posInL (!neg) ts
  | .app .and _ ts => posInL neg ts
  | .app .or _ ts => posInL neg ts
  | .app .implies _ [a, b] => posIn (!neg) a && posIn neg b
  | .app .ite _ [a, b, d] => posIn true a && posIn false a && posIn neg b && posIn neg d
  | .app .xor s ts => !neg && tsIn [] true (.app .xor s ts)
  | .app .eq s ts => !neg && tsIn [] true (.app .eq s ts)
  | .app .distinct s ts => !neg && tsIn [] true (.app .distinct s ts)
  | _ => false
/-- every formula of the list -/
def posInL (neg : Bool) : List Term → Bool
  | [] => true
  | t :: ts => posIn neg t && posInL neg ts
end

theorem posInL_iff (neg : Bool) (ts : List Term) :
    posInL neg ts = true ↔ ∀ t ∈ ts, posIn neg t = true := by
  induction ts with
  | nil => simp [posInL]
  | cons t ts ih => simp [posInL, ih]

section
variable {c : Cfg} {ρ : Env} {n : Nat}

/-- what is kept of a formula below -/
structure NS (c : Cfg) (ρ : Env) (n : Nat) (t : Term) : Prop where
  fit : DFit c t
  ok : tsIn [] true t = true
  isB : IsB ρ t
  fr : noFresh n t

theorem NS.tt {u : Term} (h : DFit c u) : NS c ρ n .tt := ⟨h.other rfl, rfl, IsB_tt ρ, noFresh_tt n⟩
theorem NS.ff {u : Term} (h : DFit c u) : NS c ρ n .ff := ⟨h.other rfl, rfl, IsB_ff ρ, noFresh_ff n⟩

theorem mkAnd_NS {u : Term} (hu : DFit c u) {ts : List Term} (h : ∀ t ∈ ts, NS c ρ n t) :
    NS c ρ n (mkAnd c ts) := by
  have hB : IsB ρ (mkAnd c ts) := ⟨_, mkAnd_val c fun t ht => (h t ht).isB⟩
  rcases mkAnd_cases c ts with h1 | h1 | h1 | h1 | ⟨l, h1, h2, _, h3⟩
  · rw [h1]; exact NS.tt hu
  · rw [h1]; exact NS.ff hu
  · rw [h1] at hB; obtain ⟨x, hx⟩ := hB; simp [eval] at hx
  · exact h _ h1
  · rw [h1] at hB ⊢
    refine ⟨dfit_app (by rintro rfl; simp at h2) fun t ht => (h t (h3 t ht).1).fit, ?_, hB,
      noFresh_app fun t ht => (h t (h3 t ht).1).fr⟩
    simp only [tsIn, tsInL_iff]; exact fun t ht => (h t (h3 t ht).1).ok

theorem mkOr_NS {u : Term} (hu : DFit c u) {ts : List Term} (h : ∀ t ∈ ts, NS c ρ n t) :
    NS c ρ n (mkOr c ts) := by
  have hB : IsB ρ (mkOr c ts) := ⟨_, mkOr_val c fun t ht => (h t ht).isB⟩
  rcases mkOr_cases c ts with h1 | h1 | h1 | h1 | ⟨l, h1, h2, _, h3⟩
  · rw [h1]; exact NS.tt hu
  · rw [h1]; exact NS.ff hu
  · rw [h1] at hB; obtain ⟨x, hx⟩ := hB; simp [eval] at hx
  · exact h _ h1
  · rw [h1] at hB ⊢
    refine ⟨dfit_app (by rintro rfl; simp at h2) fun t ht => (h t (h3 t ht).1).fit, ?_, hB,
      noFresh_app fun t ht => (h t (h3 t ht).1).fr⟩
    simp only [tsIn, tsInL_iff]; exact fun t ht => (h t (h3 t ht).1).ok

theorem mkNot_var_NS {vk : VK} {s : Srt} {x : String} (h : IsB ρ (.var vk s x))
    (hf : DFit c (.var vk s x)) (hfr : noFresh n (.var vk s x)) :
    NS c ρ n (mkNot c (.var vk s x)) := by
  have hv := mkNot_val c ρ _ hf rfl h
  have hs : s = .bool := by simpa [Term.sort] using h.sort
  have he : mkNot c (.var vk s x) = .app .not .bool [.var vk s x] := by
    rw [mkNot.eq_def]
    simp [hs, Term.sort, mkOper, simp, simp1, Term.isTrue, Term.isFalse, isUnknown, isComm]
  rw [he] at hv ⊢
  exact ⟨dfit_app (by simp) (by simpa using hf), by simp [tsIn, isVBool, hs], ⟨_, hv⟩,
    noFresh_app (by simpa using hfr)⟩

theorem nnf_NS : ∀ (m : Nat) (t : Term) (neg : Bool), t.size ≤ m → DFit c t → posIn neg t = true →
    IsB ρ t → noFresh n t → NS c ρ n (nnf c neg t) := by
  intro m
  induction m with
  | zero => intro t _ h; cases t <;> simp [size] at h
  | succ m ih =>
    intro t neg hm hf hb h hfr
    have hrec : ∀ (k : Kind) (s : Srt) (ts : List Term), t = .app k s ts →
        ∀ u ∈ ts, IsB ρ u → ∀ neg, posIn neg u = true → NS c ρ n (nnf c neg u) := by
      rintro k s ts rfl u hu hB neg hp
      have := size_child (k := k) (s := s) hu
      exact ih u neg (by omega) (hf.child hu) hp hB (noFresh_kid hfr hu)
    unfold nnf
    split
    · rename_i s u us
      obtain ⟨v, hv, h1, h2⟩ := not_child h
      simp at hv; obtain ⟨rfl, rfl⟩ := hv
      exact hrec _ _ _ rfl u (by simp) h1 _ (by simpa [posIn, posInL] using hb)
    · rename_i s ts
      obtain ⟨h1, h2⟩ := and_node h
      simp only [posIn, posInL_iff] at hb
      have h3 : ∀ u ∈ nnfL c neg ts, NS c ρ n u := by
        rw [nnfL_map]; intro u hu
        obtain ⟨v, hv, rfl⟩ := List.mem_map.1 hu
        exact hrec _ _ _ rfl v hv (h1 v hv) neg (hb v hv)
      split
      · exact mkOr_NS hf h3
      · exact mkAnd_NS hf h3
    · rename_i s ts
      obtain ⟨h1, h2⟩ := or_node h
      simp only [posIn, posInL_iff] at hb
      have h3 : ∀ u ∈ nnfL c neg ts, NS c ρ n u := by
        rw [nnfL_map]; intro u hu
        obtain ⟨v, hv, rfl⟩ := List.mem_map.1 hu
        exact hrec _ _ _ rfl v hv (h1 v hv) neg (hb v hv)
      split
      · exact mkAnd_NS hf h3
      · exact mkOr_NS hf h3
    · rename_i s a b l
      have hl : l = [] := by cases l <;> simp_all [posIn]
      subst hl
      simp only [posIn, Bool.and_eq_true] at hb
      obtain ⟨h1, h2, h3⟩ := implies_node2 h
      have ra := hrec _ _ _ rfl a (by simp) h1
      have rb := hrec _ _ _ rfl b (by simp) h2
      cases neg
      · rw [if_neg (by simp)]; refine mkOr_NS hf ?_
        intro u hu; simp at hu; rcases hu with rfl | rfl
        · exact ra _ hb.1
        · exact rb _ hb.2
      · rw [if_pos rfl]; refine mkAnd_NS hf ?_
        intro u hu; simp at hu; rcases hu with rfl | rfl
        · exact ra _ hb.1
        · exact rb _ hb.2
    · rename_i s a b d l
      obtain ⟨a', b', d', he, h1, h2, h3, h4⟩ := ite_node h
      simp only [List.cons.injEq] at he
      obtain ⟨rfl, rfl, rfl, rfl⟩ := he
      simp only [posIn, Bool.and_eq_true] at hb
      have ra := hrec _ _ _ rfl a (by simp) h1
      have rb := hrec _ _ _ rfl b (by simp) h2
      have rd := hrec _ _ _ rfl d (by simp) h3
      rw [if_pos (by simp [h2.sort])]
      refine mkOr_NS hf ?_
      intro u hu; simp at hu; rcases hu with rfl | rfl
      · refine mkAnd_NS hf ?_
        intro u hu; simp at hu; rcases hu with rfl | rfl
        · exact ra _ hb.1.1.2
        · exact rb _ hb.1.2
      · refine mkAnd_NS hf ?_
        intro u hu; simp at hu; rcases hu with rfl | rfl
        · exact ra _ hb.1.1.1
        · exact rd _ hb.2
    · rename_i x1 x2 x3 x4 x5
      cases t with
      | tt => cases neg
              · exact NS.tt hf
              · have : mkNot c .tt = .ff := by rw [mkNot.eq_def]; simp [Term.isTrue, Term.isFalse, Term.sort, mkOper, simp, simp1, isUnknown]
                simpa [this] using NS.ff hf
      | ff => cases neg
              · exact NS.ff hf
              · have : mkNot c .ff = .tt := by rw [mkNot.eq_def]; simp [Term.isTrue, Term.isFalse, Term.sort, mkOper, simp, simp1, isUnknown]
                simpa [this] using NS.tt hf
      | var vk s x =>
        cases neg
        · exact ⟨hf, rfl, h, hfr⟩
        · exact mkNot_var_NS h hf hfr
      | app k s ts =>
        cases k <;> first
          | (simp [posIn] at hb; done)
          | (simp only [posIn, Bool.and_eq_true, Bool.not_eq_true'] at hb
             obtain ⟨rfl, hb⟩ := hb
             exact ⟨hf, hb, h, hfr⟩)
          | (exact absurd rfl (x2 s ts))
          | (exact absurd rfl (x3 s ts))
          | (obtain ⟨v, rfl, _⟩ := not_child h; exact absurd rfl (x1 s v []))
          | (obtain ⟨a', b', d', rfl, _⟩ := ite_node h; exact absurd rfl (x5 s a' b' d' []))
          | (rcases ts with _ | ⟨a, _ | ⟨b, l⟩⟩
             · simp [posIn] at hb
             · simp [posIn] at hb
             · exact absurd rfl (x4 s a b l))
      | _ => simp [posIn] at hb

/-- such a formula has no atoms -/
theorem collect_nil : ∀ (m : Nat) (t : Term), t.size ≤ m → IsB ρ t → tsIn [] true t = true →
    collectAtoms t = [] := by
  intro m
  induction m with
  | zero => intro t h; cases t <;> simp [size] at h
  | succ m ih =>
    intro t hm hB ht
    have hna : isAtom t = false := by
      cases ha : isAtom t
      · rfl
      · have := tsIn_atom ha ht; simp [VMap.find] at this
    cases t with
    | app k s ts =>
      simp only [collectAtoms, hna]
      have key : (∀ u ∈ ts, IsB ρ u) → (∀ u ∈ ts, tsIn [] true u = true) → collectAtomsL ts = [] := by
        intro h1 h2
        rcases hx : collectAtomsL ts with _ | ⟨x, l⟩
        · rfl
        · obtain ⟨u, hu, hxu⟩ := (collectAtomsL_mem (x := x) (ts := ts)).1 (by simp [hx])
          have := size_child (k := k) (s := s) hu
          rw [ih u (by omega) (h1 u hu) (h2 u hu)] at hxu
          cases hxu
      simp only [Bool.false_eq_true, if_false]
      cases k with
      | not =>
        obtain ⟨u, rfl, h1, _⟩ := not_child hB
        refine key (by simpa using h1) ?_
        simp only [tsIn, Bool.not_true, Bool.false_and, Bool.or_false] at ht
        simp only [List.all_cons, List.all_nil, Bool.and_true] at ht
        unfold isVBool at ht; split at ht
        · simp [tsIn]
        · cases ht
      | and => exact key (and_node hB).1 (by simpa only [tsIn, tsInL_iff] using ht)
      | or => exact key (or_node hB).1 (by simpa only [tsIn, tsInL_iff] using ht)
      | xor =>
        simp only [tsIn, Bool.and_eq_true, tsInL_iff] at ht
        exact key (xor_node hB).1 ht.2
      | ite =>
        obtain ⟨a, b, d, rfl, h1, h2, h3, _⟩ := ite_node hB
        refine key ?_ (by simpa only [tsIn, tsInL_iff] using ht)
        intro t ht; simp at ht; rcases ht with rfl | rfl | rfl <;> assumption
      | eq =>
        rw [tsIn, hna] at ht
        simp only [Bool.false_eq_true, if_false, Bool.and_eq_true, tsInL_iff] at ht
        exact key (eq_node hB (by simpa using ht.1)).2.1 ht.2
      | distinct =>
        rw [tsIn, hna] at ht
        simp only [Bool.false_eq_true, if_false, Bool.and_eq_true, tsInL_iff] at ht
        exact key (distinct_node hB (by simpa using ht.1)).2.1 ht.2
      | _ => first
        | (simp [tsIn] at ht; done)
        | (simp [tsIn, VMap.find] at ht; done)
    | _ => simp [collectAtoms, isAtom]

theorem isClause_lit {t : Term} (h : isLit t = true) : isClause t = true := by
  unfold isClause; split
  · simp [isLit] at h
  · exact h

theorem isCNFForm_clause {t : Term} (h : isClause t = true) : isCNFForm t = true := by
  unfold isCNFForm; split
  · simp [isClause, isLit] at h
  · exact h

theorem isCNF_form {t : Term} (h : isCNF t = true) (hB : IsB ρ t) : isCNFForm t = true := by
  have hcl : ∀ s us, us.all isLiteral = true → IsB ρ (.app .or s us) → us.all isLit = true := by
    intro s us h1 h2
    rw [List.all_eq_true] at h1 ⊢
    exact fun u hu => isLiteral_isLit (h1 u hu) ((or_node h2).1 u hu)
  unfold isCNF at h
  split at h
  · rename_i s ts
    simp only [isCNFForm, List.all_eq_true]
    simp only [isCNFL, List.all_eq_true] at h
    intro u hu
    have h1 := h u hu
    have h2 := (and_node hB).1 u hu
    split at h1
    · simp only [isClause]; exact hcl _ _ (by simpa using h1) h2
    · exact isClause_lit (isLiteral_isLit h1 h2)
  · exact isCNFForm_clause (by simp only [isClause]; exact hcl _ _ h hB)
  · exact isCNFForm_clause (isClause_lit (isLiteral_isLit h hB))

theorem mkAnd_cnf {ls : List Term} (h : ∀ l ∈ ls, isClause l = true) (hB : IsB ρ (mkAnd c ls)) :
    isCNFForm (mkAnd c ls) = true := by
  rcases mkAnd_cases c ls with h1 | h1 | h1 | h1 | ⟨l, h1, h2, _, h3⟩
  · rw [h1]; rfl
  · rw [h1]; rfl
  · rw [h1] at hB; obtain ⟨x, hx⟩ := hB; simp [eval] at hx
  · exact isCNFForm_clause (h _ h1)
  · rw [h1]; simp only [isCNFForm, List.all_eq_true]; exact fun t ht => h t (h3 t ht).1

theorem toCNF_form (c : Cfg) (ord : List Term → List Term) (hord : ∀ l x, x ∈ ord l ↔ x ∈ l)
    (n : Nat) (ρ : Env) (t : Term) (hf : DFit c t) (hin : posIn false t = true) (hB : IsB ρ t)
    (hfr : noFresh n t) : isCNFForm (toCNF c ord n t).cnf = true ∧ (toCNF c ord n t).ties = [] ∧
      (toCNF c ord n t).n = n := by
  have hx : NS c ρ n (toNNF c t) := nnf_NS _ t false (Nat.le_refl _) hf hin hB hfr
  have h0 := collect_nil _ _ (Nat.le_refl _) hx.isB hx.ok
  have hord0 : ord [] = [] := by
    rcases h : ord [] with _ | ⟨x, l⟩
    · rfl
    · have := (hord [] x).1 (by simp [h]); simp at this
  simp only [toCNF, h0, hord0, atomMap, List.isEmpty_nil, if_true]
  split
  · rename_i hc
    exact ⟨isCNF_form hc hx.isB, rfl, rfl⟩
  · refine ⟨?_, rfl, rfl⟩
    obtain ⟨d1, d2, d3⟩ := tseitin_ok (nn := true) (c := c) (am := []) (n0 := n) (ρ0 := ρ)
      (by intro k v h; simp [VMap.find] at h) _ (toNNF c t) ⟨n, [], []⟩ (Nat.le_refl _) hx.fit
      hx.ok hx.fr hx.isB
      (⟨Nat.le_refl _, ⟨reset ρ n, ext_reset ρ n, by simp [Sat]⟩, by simp, by simp, by simp,
        by intro k v h; simp [VMap.find] at h⟩ : TInv n ρ true ⟨n, [], []⟩)
    have hE := ext_reset ρ n
    have hcl : ∀ x ∈ ((tseitin c [] (toNNF c t) ⟨n, [], []⟩).2.cls.reverse ++
        [(tseitin c [] (toNNF c t) ⟨n, [], []⟩).1]), isClause x = true ∧ IsB (reset ρ n) x := by
      intro x hx; simp only [List.mem_append, List.mem_reverse, List.mem_singleton] at hx
      rcases hx with hx | rfl
      · exact ⟨d1.shape rfl x hx, d1.isB x hx _ hE⟩
      · exact ⟨isClause_lit d2.g.lit, d2.g.isB _ hE⟩
    generalize ((tseitin c [] (toNNF c t) ⟨n, [], []⟩).2.cls.reverse ++
            [(tseitin c [] (toNNF c t) ⟨n, [], []⟩).1]) = L at hcl
    simp only
    split
    · rename_i hl
      match L, hl with
      | [x], _ => simpa using isCNFForm_clause (hcl x (by simp)).1
    · exact mkAnd_cnf (ρ := reset ρ n) (fun l hl => (hcl l hl).1)
        ⟨_, mkAnd_val c fun l hl => (hcl l hl).2⟩

end

end SMT
