import Verif.Conv.Model
import Verif.Term.Cons3
/-!
# What the Boolean constructors can return
-/
namespace SMT

open Term

/-! ### values -/

theorem mkAnd_val (c : Cfg) {ρ : Env} {ts : List Term} (h : ∀ t ∈ ts, IsB ρ t) :
    eval ρ (mkAnd c ts) = some (.b (ts.all (bval ρ))) :=
  mkAnd_sound' c ρ ts .bool _ ((and_mem ρ ts _ _).2 ⟨h, by simp⟩)

theorem mkOr_val (c : Cfg) {ρ : Env} {ts : List Term} (h : ∀ t ∈ ts, IsB ρ t) :
    eval ρ (mkOr c ts) = some (.b (ts.any (bval ρ))) :=
  mkOr_sound' c ρ ts .bool _ ((or_mem ρ ts _ _).2 ⟨h, by simp⟩)

theorem and_node {ρ : Env} {s : Srt} {ts : List Term} (h : IsB ρ (.app .and s ts)) :
    (∀ t ∈ ts, IsB ρ t) ∧ bval ρ (.app .and s ts) = ts.all (bval ρ) := by
  have h1 := h.eval
  rw [eval_app] at h1
  obtain ⟨h2, h3⟩ := (and_mem ρ ts s _).1 (guardSort_some.1 h1).1
  refine ⟨h2, ?_⟩
  rw [Bool.eq_iff_iff, h3]; simp

theorem or_node {ρ : Env} {s : Srt} {ts : List Term} (h : IsB ρ (.app .or s ts)) :
    (∀ t ∈ ts, IsB ρ t) ∧ bval ρ (.app .or s ts) = ts.any (bval ρ) := by
  have h1 := h.eval
  rw [eval_app] at h1
  obtain ⟨h2, h3⟩ := (or_mem ρ ts s _).1 (guardSort_some.1 h1).1
  refine ⟨h2, ?_⟩
  rw [Bool.eq_iff_iff, h3]; simp

theorem implies_node2 {ρ : Env} {s : Srt} {a b : Term} (h : IsB ρ (.app .implies s [a, b])) :
    IsB ρ a ∧ IsB ρ b ∧ bval ρ (.app .implies s [a, b]) = (!bval ρ a || bval ρ b) := by
  have h1 := h.eval
  rw [eval_app] at h1
  obtain ⟨_, h2, h3⟩ := (evalApp_implies ρ _ s _).1 (guardSort_some.1 h1).1
  refine ⟨h2 a (by simp), h2 b (by simp), ?_⟩
  simpa [impChain] using h3

theorem ite_node {ρ : Env} {s : Srt} {ts : List Term} (h : IsB ρ (.app .ite s ts)) :
    ∃ a b d, ts = [a, b, d] ∧ IsB ρ a ∧ IsB ρ b ∧ IsB ρ d ∧
      bval ρ (.app .ite s ts) = if bval ρ a then bval ρ b else bval ρ d := by
  have h1 := h.eval
  rw [eval_app] at h1
  obtain ⟨a, b, d, rfl, ha, hb, hd, hs, hv⟩ := (evalApp_ite ρ _ s _).1 (guardSort_some.1 h1).1
  have hv : val ρ (if bval ρ a = true then b else d) = .b (bval ρ (.app .ite s [a, b, d])) := by
    rw [hv]; split <;> rfl
  have hB : IsB ρ (if bval ρ a = true then b else d) := by
    refine ⟨_, (?_ : _ = some (Val.b (bval ρ (.app .ite s [a, b, d]))))⟩
    rw [← hv]; split
    · exact hb.eval
    · exact hd.eval
  have hbd : IsB ρ b ∧ IsB ρ d := by
    split at hB
    · exact ⟨hB, isB_same hB hd hs⟩
    · exact ⟨isB_same hB hb (sameSort_symm hs), hB⟩
  refine ⟨a, b, d, rfl, ha, hbd.1, hbd.2, ?_⟩
  rw [val_bool hB] at hv
  simp only [Val.b.injEq] at hv
  rw [← hv]; split <;> rfl

theorem xor_node {ρ : Env} {s : Srt} {ts : List Term} (h : IsB ρ (.app .xor s ts)) :
    (∀ t ∈ ts, IsB ρ t) ∧ bval ρ (.app .xor s ts) = (ts.map (bval ρ)).foldl Bool.xor false := by
  have h1 := h.eval
  rw [eval_app] at h1
  obtain ⟨h2, h3⟩ := (evalApp_xor ρ _ s _).1 (guardSort_some.1 h1).1
  exact ⟨h2, by simpa using h3⟩

theorem eq_node {ρ : Env} {s : Srt} {ts : List Term} (h : IsB ρ (.app .eq s ts))
    (hb : ∀ t ∈ ts, t.sort = .bool) :
    2 ≤ ts.length ∧ (∀ t ∈ ts, IsB ρ t) ∧
      (bval ρ (.app .eq s ts) = true ↔ ∀ t ∈ ts, ∀ u ∈ ts, bval ρ t = bval ρ u) := by
  have h1 := h.eval
  rw [eval_app] at h1
  obtain ⟨hl, hev, hs, hv⟩ := (evalApp_eq ρ _ _ _).1 (guardSort_some.1 h1).1
  have hB : ∀ t ∈ ts, IsB ρ t := fun t ht => (hev t ht).isB (hb t ht)
  refine ⟨hl, hB, ?_⟩
  simp only [Val.b.injEq] at hv
  rw [hv, decide_eq_true_iff]
  constructor
  · intro h t ht u hu
    have := h t ht u hu
    rw [val_bool (hB t ht), val_bool (hB u hu)] at this
    simpa using this
  · intro h t ht u hu
    rw [val_bool (hB t ht), val_bool (hB u hu), h t ht u hu]

theorem distinct_node {ρ : Env} {s : Srt} {ts : List Term} (h : IsB ρ (.app .distinct s ts))
    (hb : ∀ t ∈ ts, t.sort = .bool) :
    2 ≤ ts.length ∧ (∀ t ∈ ts, IsB ρ t) ∧
      (bval ρ (.app .distinct s ts) = true ↔ ts.Pairwise fun t u => bval ρ t ≠ bval ρ u) := by
  have h1 := h.eval
  rw [eval_app] at h1
  obtain ⟨hl, hev, hs, hv⟩ := (evalApp_distinct ρ _ _ _).1 (guardSort_some.1 h1).1
  have hB : ∀ t ∈ ts, IsB ρ t := fun t ht => (hev t ht).isB (hb t ht)
  refine ⟨hl, hB, ?_⟩
  simp only [Val.b.injEq] at hv
  rw [hv, decide_eq_true_iff]
  refine List.Pairwise.iff_of_mem ?_
  intro t u ht hu
  rw [val_bool (hB t ht), val_bool (hB u hu)]
  simp

/-! ### shapes -/

theorem simp_conn (c : Cfg) (k : Kind) (hk : k = .and ∨ k = .or) (ps : List Term)
    (h : 2 ≤ ps.length) :
    simp c k ps = .tt ∨ simp c k ps = .ff ∨ simp c k ps = .unknown := by
  have h2 : ∀ l r, simp2 c k l r = .tt ∨ simp2 c k l r = .ff ∨ simp2 c k l r = .unknown := by
    intro l r
    rcases hk with rfl | rfl <;> simp only [simp2] <;> split <;> (try split) <;> simp
  have hf : ∀ ps a, (a = .tt ∨ a = .ff ∨ a = .unknown) →
      simpFold c k a ps = .tt ∨ simpFold c k a ps = .ff ∨ simpFold c k a ps = .unknown := by
    intro ps
    induction ps with
    | nil => intro a ha; exact ha
    | cons p ps ih =>
      intro a _
      simp only [simpFold]
      split
      · simp
      · exact ih _ (h2 a p)
  rcases ps with _ | ⟨a, _ | ⟨b, _ | ⟨d, _ | ⟨e, l⟩⟩⟩⟩
  · simp at h
  · simp at h
  · exact h2 a b
  · rcases hk with rfl | rfl <;> exact h2 _ d
  · have : simp c k (a :: b :: d :: e :: l) = simpFold c k a (b :: d :: e :: l) := by
      rcases hk with rfl | rfl <;> rfl
    rw [this, simpFold]
    split
    · simp
    · exact hf _ _ (h2 a b)

/-- What `mkAnd` can return: a constant, `unknown`, one of the operands, or an `and` node over at
least two of the operands other than the constants. -/
theorem mkAnd_cases (c : Cfg) (ts : List Term) :
    mkAnd c ts = .tt ∨ mkAnd c ts = .ff ∨ mkAnd c ts = .unknown ∨ mkAnd c ts ∈ ts ∨
      ∃ l, mkAnd c ts = .app .and .bool l ∧ 2 ≤ l.length ∧ l.Nodup ∧
        ∀ t ∈ l, t ∈ ts ∧ t ≠ .tt ∧ t ≠ .ff := by
  unfold mkAnd
  split
  · simp
  · simp
  · split
    · rename_i r hr
      obtain ⟨t, ht, h1⟩ := scan_inl hr
      split at h1
      · simp at h1; simp [← h1]
      · split at h1
        · simp at h1; subst h1; simp [ht]
        · split at h1
          · simp at h1
          · split at h1
            · simp at h1; simp [← h1]
            · simp at h1
    · rename_i l hl
      obtain ⟨h1, h2⟩ := scan_inr hl
      have hmem : ∀ t ∈ dedup l, t ∈ ts ∧ t ≠ .tt ∧ t ≠ .ff := by
        intro t ht
        rw [mem_dedup, h1, List.mem_filter] at ht
        refine ⟨ht.1, ?_, ?_⟩ <;> rintro rfl <;>
          simp [Term.sort, isErr, Term.isTrue, Term.isFalse] at ht
      have hnd : ∀ l, (dedup l).Nodup := by
        intro l
        induction l with
        | nil => simp [dedup]
        | cons t l ih =>
          simp only [dedup, List.nodup_cons]
          exact ⟨by simp, ih.filter _⟩
      split
      · simp
      · rename_i p hd
        have := (hmem p (by rw [hd]; simp)).1
        simp [this]
      · rename_i h3 h4
        have hlen : 2 ≤ (dedup l).length := by
          rcases hd : dedup l with _ | ⟨a, _ | ⟨b, l'⟩⟩
          · exact absurd hd h3
          · exact absurd hd (h4 a)
          · simp
        unfold mkOper
        rw [if_neg (by simpa using h3)]
        split
        · rcases simp_conn c .and (.inl rfl) _ hlen with h | h | h <;> simp [h]
        · refine .inr (.inr (.inr (.inr ⟨c.sort (dedup l), by simp [isComm], ?_, ?_, ?_⟩)))
          · rw [(c.perm _).length_eq]; exact hlen
          · exact (c.perm _).nodup_iff.2 (hnd l)
          · intro t ht; exact hmem t ((c.perm _).mem_iff.1 ht)

/-- What `mkOr` can return. -/
theorem mkOr_cases (c : Cfg) (ts : List Term) :
    mkOr c ts = .tt ∨ mkOr c ts = .ff ∨ mkOr c ts = .unknown ∨ mkOr c ts ∈ ts ∨
      ∃ l, mkOr c ts = .app .or .bool l ∧ 2 ≤ l.length ∧ l.Nodup ∧
        ∀ t ∈ l, t ∈ ts ∧ t ≠ .tt ∧ t ≠ .ff := by
  unfold mkOr
  split
  · simp
  · simp
  · split
    · rename_i r hr
      obtain ⟨t, ht, h1⟩ := scan_inl hr
      split at h1
      · simp at h1; simp [← h1]
      · split at h1
        · simp at h1; subst h1; simp [ht]
        · split at h1
          · simp at h1
          · split at h1
            · simp at h1; simp [← h1]
            · simp at h1
    · rename_i l hl
      obtain ⟨h1, h2⟩ := scan_inr hl
      have hmem : ∀ t ∈ dedup l, t ∈ ts ∧ t ≠ .tt ∧ t ≠ .ff := by
        intro t ht
        rw [mem_dedup, h1, List.mem_filter] at ht
        refine ⟨ht.1, ?_, ?_⟩ <;> rintro rfl <;>
          simp [Term.sort, isErr, Term.isTrue, Term.isFalse] at ht
      have hnd : ∀ l, (dedup l).Nodup := by
        intro l
        induction l with
        | nil => simp [dedup]
        | cons t l ih =>
          simp only [dedup, List.nodup_cons]
          exact ⟨by simp, ih.filter _⟩
      split
      · simp
      · rename_i p hd
        have := (hmem p (by rw [hd]; simp)).1
        simp [this]
      · rename_i h3 h4
        have hlen : 2 ≤ (dedup l).length := by
          rcases hd : dedup l with _ | ⟨a, _ | ⟨b, l'⟩⟩
          · exact absurd hd h3
          · exact absurd hd (h4 a)
          · simp
        unfold mkOper
        rw [if_neg (by simpa using h3)]
        split
        · rcases simp_conn c .or (.inr rfl) _ hlen with h | h | h <;> simp [h]
        · refine .inr (.inr (.inr (.inr ⟨c.sort (dedup l), by simp [isComm], ?_, ?_, ?_⟩)))
          · rw [(c.perm _).length_eq]; exact hlen
          · exact (c.perm _).nodup_iff.2 (hnd l)
          · intro t ht; exact hmem t ((c.perm _).mem_iff.1 ht)

/-! ### size -/

theorem size_mem {t : Term} {ts : List Term} (h : t ∈ ts) : t.size ≤ sizeL ts := by
  induction ts with
  | nil => simp at h
  | cons u ts ih =>
    simp only [sizeL]
    rcases List.mem_cons.1 h with rfl | h
    · omega
    · have := ih h; omega

theorem size_child {t : Term} {k : Kind} {s : Srt} {ts : List Term} (h : t ∈ ts) :
    t.size < (Term.app k s ts).size := by
  have := size_mem h; simp only [size]; omega

/-! ### negation of a formula without connective -/

theorem simp_rel (c : Cfg) (k : Kind) (hk : k = .eq ∨ k = .distinct ∨ isCmp k = true)
    (ps : List Term) :
    simp c k ps = .tt ∨ simp c k ps = .ff ∨ simp c k ps = .unknown := by
  have hob : ∀ b, ofBool b = .tt ∨ ofBool b = .ff ∨ ofBool b = .unknown := by
    intro b; cases b <;> simp [ofBool]
  have h2 : ∀ l r, simp2 c k l r = .tt ∨ simp2 c k l r = .ff ∨ simp2 c k l r = .unknown := by
    intro l r
    rcases hk with rfl | rfl | hk
    · simp only [simp2]
      repeat' split
      all_goals first | exact hob _ | simp
    · simp only [simp2]
      repeat' split
      all_goals first | exact hob _ | simp
    · cases k <;> simp [isCmp] at hk <;> simp only [simp2]
      all_goals repeat' split
      all_goals first | exact hob _ | simp
  have hN : ∀ n ps, ps.length ≤ n →
      simpEqN c ps = .tt ∨ simpEqN c ps = .ff ∨ simpEqN c ps = .unknown := by
    intro n
    induction n with
    | zero =>
      intro ps hp
      have : ps = [] := by cases ps <;> simp_all
      subst this; rw [simpEqN.eq_def]; simp [firstConst]
    | succ n ih =>
      intro ps hp
      rw [simpEqN.eq_def]
      split
      · simp
      · rename_i i hi
        split
        · simp
        · simp
        · simp only [simp2]
          repeat' split
          all_goals first | exact hob _ | simp
        · rename_i q1 q2 qs hr
          split
          · simp
          · rename_i hl
            apply ih
            have h1 := firstConst_lt ps i hi
            have h3 := eqRest_length c _ _ _ hr
            rw [List.length_eraseIdx_of_lt h1] at h3
            simp only [List.length_append, List.length_cons, List.length_nil] at *
            omega
  rcases ps with _ | ⟨a, _ | ⟨b, _ | ⟨d, _ | ⟨e, l⟩⟩⟩⟩
  · simp [simp]
  · rcases hk with rfl | rfl | hk
    · simp [simp, simp1]
    · simp [simp, simp1]
    · cases k <;> simp [isCmp] at hk <;> simp [simp, simp1]
  · exact h2 a b
  · rcases hk with rfl | rfl | hk
    · simp only [simp, simp3]
      repeat' split
      all_goals first | exact hob _ | simp
    · simp only [simp, simp3]
      repeat' split
      all_goals first | exact hob _ | simp
    · cases k <;> simp [isCmp] at hk <;> simp [simp, simp3]
  · rcases hk with rfl | rfl | hk
    · exact hN _ _ (Nat.le_refl _)
    · simp only [simp, simpN]
      split <;> simp
    · cases k <;> simp [isCmp] at hk <;> simp [simp, simpN]

/-- relation kinds -/
def isRelK (k : Kind) : Bool := k == .eq || k == .distinct || isCmp k

theorem mkOper_rel (c : Cfg) (k : Kind) (hk : isRelK k = true) (ps : List Term) :
    mkOper c .bool k ps = .tt ∨ mkOper c .bool k ps = .ff ∨ mkOper c .bool k ps = .unknown ∨
      ∃ us, mkOper c .bool k ps = .app k .bool us ∧ us.Perm ps := by
  simp only [isRelK, Bool.or_eq_true, beq_iff_eq, or_assoc] at hk
  unfold mkOper
  split
  · simp
  · split
    · rcases simp_rel c k hk ps with h | h | h <;> simp [h]
    · right; right; right
      refine ⟨_, rfl, ?_⟩
      split
      · exact c.perm ps
      · exact .refl _

theorem mkOper_rel_conn (c : Cfg) (k : Kind) (hk : isRelK k = true) (ps : List Term) :
    mkOper c .bool k ps = .tt ∨ mkOper c .bool k ps = .ff ∨
      isConnective (mkOper c .bool k ps) = false := by
  rcases mkOper_rel c k hk ps with h | h | h | ⟨us, h, _⟩
  · simp [h]
  · simp [h]
  · simp [h, isConnective, isBIte]
  · right; right; rw [h]
    cases k <;> simp [isRelK, isCmp] at hk <;> simp [isConnective, isBIte]

theorem mkCmp2_conn (c : Cfg) (k : Kind) (hk : isRelK k = true) (r a b : Term)
    (hr : r = .tt ∨ r = .ff) :
    mkCmp2 c k r a b = .tt ∨ mkCmp2 c k r a b = .ff ∨ isConnective (mkCmp2 c k r a b) = false := by
  unfold mkCmp2
  split
  · split
    · exact mkOper_rel_conn c k hk _
    · simp [isConnective, isBIte]
  · split
    · rcases hr with h | h <;> simp [h]
    · exact mkOper_rel_conn c k hk _

theorem negBin_neg {t : Term} (h : negBin t = true) (hn : negatable t = true) :
    binTop t = true := by
  unfold negBin at h
  split at h
  · rename_i s ts
    cases ts with
    | nil => simp [negatable] at hn
    | cons a l => simp_all [negatable, binTop]; grind
  · rename_i s ts
    cases ts with
    | nil => simp [negatable] at hn
    | cons a l => simp_all [negatable, binTop]
  all_goals simp_all [negatable, binTop]

theorem mkNot_val (c : Cfg) (ρ : Env) (t : Term) (hf : DFit c t) (hb : negBin t = true)
    (h : IsB ρ t) : eval ρ (mkNot c t) = some (.b (!(bval ρ t))) := by
  by_cases hn : negatable t = true
  · exact mkNot_sound' c ρ t hf (negBin_neg hb hn) h
  · by_cases hb : binTop t = true
    · exact mkNot_sound' c ρ t hf hb h
    · rw [mkNot.eq_def, if_neg (by simp [h.sort])]
      split
      all_goals first
        | (simp [binTop] at hb; done)
        | (rw [if_neg hn]; exact mk_not_oper c h)
        | (simp [negatable] at hn; done)
        | exact mk_not_oper c h

/-- What `mkNot` of a well-typed formula without connective can return: a constant, a formula without
connective, or its argument under `not`. -/
theorem mkNot_leaf (c : Cfg) (ρ : Env) (t : Term) (h : IsB ρ t) (hb : negBin t = true)
    (hl : isConnective t = false) :
    mkNot c t = .tt ∨ mkNot c t = .ff ∨ isConnective (mkNot c t) = false ∨
      mkNot c t = .app .not .bool [t] := by
  have hnot : mkOper c .bool .not [t] = .app .not .bool [t] := by
    have : simp1 c .not t = .unknown := by
      cases t <;> simp_all [simp1, Term.isTrue, Term.isFalse, isConnective]
    simp [mkOper, simp, this, isUnknown, isComm]
  have key : ∀ u : Term, (u = .tt ∨ u = .ff ∨ isConnective u = false) →
      (u = .tt ∨ u = .ff ∨ isConnective u = false ∨ u = .app .not .bool [t]) := by
    intro u hu; rcases hu with h | h | h <;> simp [h]
  rw [mkNot.eq_def, if_neg (by simp [h.sort])]
  split
  · simp [isConnective] at hl
  · simp
  · simp
  · rename_i s ts
    split
    · rename_i hn
      apply key
      have hb := negBin_neg hb hn
      simp only [binTop, beq_iff_eq] at hb
      obtain ⟨a, b, rfl⟩ := len2 hb
      obtain ⟨h1, h2, h3, h4⟩ := ev_eq2 h
      have hev : ∀ u ∈ [a, b], Ev ρ u := by
        intro u hu; simp at hu; rcases hu with rfl | rfl <;> assumption
      have hs : ∀ u ∈ [a, b], ∀ v ∈ [a, b], (val ρ u).sameSort (val ρ v) = true := by
        intro t ht u hu; simp at ht hu
        rcases ht with rfl | rfl <;> rcases hu with rfl | rfl <;>
          first | exact sameSort_refl _ | exact h3 | exact sameSort_symm h3
      have ha : isConnective a = false ∧ a.isFalse = false := by
        simp only [negatable, Bool.or_eq_true] at hn
        cases a with
        | app k s' us =>
          cases k <;> simp [isStrTerm, isArithTerm] at hn <;> simp [isConnective, isBIte, Term.isFalse]
          have hh := (h1.isN hn)
          split
          · rename_i x y z _ hb'
            cases hb'
            obtain ⟨q, hq⟩ := hh
            rw [eval_app] at hq
            obtain ⟨a', b', d', he, _, hb2, hd2, hs2, hv2⟩ :=
              (evalApp_ite ρ _ _ _).1 (guardSort_some.1 hq).1
            simp only [List.cons.injEq] at he
            obtain ⟨rfl, rfl, rfl, rfl⟩ := he
            simp only [beq_eq_false_iff_ne]
            intro e
            have hB := hb2.isB e
            have hD := isB_same hB hd2 hs2
            split at hv2
            · rw [val_bool hB] at hv2; cases hv2
            · rw [val_bool hD] at hv2; cases hv2
          · rfl
        | _ => simp_all [isStrTerm, isArithTerm, isConnective, isBIte, Term.isFalse]
      unfold mkDistinctV
      rw [if_neg (by simp)]
      have e1 := (h1.not_err); have e2 := h2.not_err
      have b1 := badSort_false hev hs (t := a) (by simp)
      have b2 := badSort_false hev hs (t := b) (by simp)
      simp only [scan, e1, e2, b1, b2, ha.2, Bool.false_eq_true, if_false]
      cases hbf : b.isFalse
      · simp only [Bool.false_eq_true, if_false, List.length_cons, List.length_nil]
        rw [if_neg (by omega)]
        exact mkOper_rel_conn c _ rfl _
      · simp only [if_true]; simp [ha.1]
    · simp [hnot]
  · rename_i s ts
    split
    · rename_i hn
      apply key
      have hb := negBin_neg hb hn
      simp only [binTop, beq_iff_eq] at hb
      obtain ⟨a, b, rfl⟩ := len2 hb
      obtain ⟨h1, h2, h3, h4⟩ := ev_distinct2 h
      simp only [negatable] at hn
      have ha := arithTerm_IsN hn h1
      have hb' : IsN ρ b := by
        refine h2.isN ?_
        rcases same_cases h1 h2 h3 with h | h
        · exact h.2
        · rw [← h]; exact ha.sort
      rw [mkEqV.eq_def]
      simp only
      have : mkEq2 c a b = mkOper c .bool .eq [a, b] := by
        have := ha.sort; have hbs := hb'.sort
        rw [mkEq2.eq_def, if_neg (by simp [mismatch_num ha.sort hb'.sort])]
        split <;> simp_all [Term.sort, Srt.isNum]
        obtain ⟨q, hq⟩ := ha
        rw [eval_app] at hq
        obtain ⟨_, _, _, h⟩ := (evalApp_not ρ _ _ _).1 (guardSort_some.1 hq).1
        cases h
      rw [this]
      exact mkOper_rel_conn c _ rfl _
    · simp [hnot]
  · exact key _ (mkCmp2_conn c _ rfl _ _ _ (.inl rfl))
  · exact key _ (mkCmp2_conn c _ rfl _ _ _ (.inr rfl))
  · exact key _ (mkCmp2_conn c _ rfl _ _ _ (.inl rfl))
  · exact key _ (mkCmp2_conn c _ rfl _ _ _ (.inr rfl))
  · simp [hnot]

end SMT
