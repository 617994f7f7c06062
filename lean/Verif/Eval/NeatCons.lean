import Verif.Eval.Neat

/-! # C81: the constructors -/

namespace SMT.Eval
open SMT SMT.Term

set_option linter.unusedSimpArgs false
set_option linter.unusedVariables false

section
variable {r u : Bool} {V : VK → Srt → String → Prop} {c : Cfg} {ρ : Env}

theorem scan_mem {f : Term → Option (Term ⊕ Unit)} {ts l : List Term} (h : scan f ts = .inr l) : ∀ t ∈ l, t ∈ ts ∧ f t = none := by
  intro t ht
  rw [(scan_inr h).1, List.mem_filter] at ht
  exact ⟨ht.1, by simpa using ht.2⟩

theorem scan_len {f : Term → Option (Term ⊕ Unit)} {ts l : List Term} (h : scan f ts = .inr l) : l.length ≤ ts.length := by
  rw [(scan_inr h).1]; exact List.length_filter_le _ _

theorem neat_mkAnd {ps : List Term} (hB : ∀ t ∈ ps, IsB ρ t) (h : ∀ t ∈ ps, Neat r u V t) : Neat r u V (mkAnd c ps) := by
  unfold mkAnd
  split
  · exact neat_tt
  · exact h _ (by simp)
  · split
    · rename_i hq
      obtain ⟨t, ht, hf⟩ := scan_inl hq
      repeat' split at hf
      all_goals first
        | (simp only [Option.some.injEq, Sum.inl.injEq] at hf; subst hf; first | exact neat_unknown | exact neat_ff | exact h _ ht)
        | simp at hf
    · rename_i l hq
      have hl : ∀ t ∈ dedup l, Neat r u V t ∧ Lv u t := by
        intro t ht
        obtain ⟨h1, h2⟩ := scan_mem hq t ((mem_dedup t l).mp ht)
        refine ⟨h t h1, livelyB (hB t h1) (h t h1) ?_ ?_⟩
        · cases e : t.isTrue with
          | false => rfl
          | true => cases t <;> simp [Term.isTrue] at e; simp [Term.sort, isErr, Term.isTrue] at h2
        · cases e : t.isFalse with
          | false => rfl
          | true => cases t <;> simp [Term.isFalse] at e; simp [Term.sort, isErr, Term.isTrue, Term.isFalse] at h2
      split
      · exact neat_tt
      · rename_i p hp; exact (hl p (by rw [hp]; simp)).1
      · rename_i hne _
        refine neat_mkOper _ _ _ rfl (by simpa [topN] using hne) (fun t ht => (hl t ht).1) (fun e => by cases e) (.inr (lv_perm ?_))
        obtain ⟨t, l', e⟩ := List.exists_cons_of_ne_nil hne
        exact ⟨t, by rw [e]; simp, (hl t (by rw [e]; simp)).2⟩

theorem neat_mkOr {ps : List Term} (hB : ∀ t ∈ ps, IsB ρ t) (h : ∀ t ∈ ps, Neat r u V t) : Neat r u V (mkOr c ps) := by
  unfold mkOr
  split
  · exact neat_ff
  · exact h _ (by simp)
  · split
    · rename_i hq
      obtain ⟨t, ht, hf⟩ := scan_inl hq
      repeat' split at hf
      all_goals first
        | (simp only [Option.some.injEq, Sum.inl.injEq] at hf; subst hf; first | exact neat_unknown | exact neat_tt | exact h _ ht)
        | simp at hf
    · rename_i l hq
      have hl : ∀ t ∈ dedup l, Neat r u V t ∧ Lv u t := by
        intro t ht
        obtain ⟨h1, h2⟩ := scan_mem hq t ((mem_dedup t l).mp ht)
        refine ⟨h t h1, livelyB (hB t h1) (h t h1) ?_ ?_⟩
        · cases e : t.isTrue with
          | false => rfl
          | true => cases t <;> simp [Term.isTrue] at e; simp [Term.sort, isErr, Term.isTrue, Term.isFalse] at h2
        · cases e : t.isFalse with
          | false => rfl
          | true => cases t <;> simp [Term.isFalse] at e; simp [Term.sort, isErr, Term.isTrue, Term.isFalse] at h2
      split
      · exact neat_ff
      · rename_i p hp; exact (hl p (by rw [hp]; simp)).1
      · rename_i hne _
        refine neat_mkOper _ _ _ rfl (by simpa [topN] using hne) (fun t ht => (hl t ht).1) (fun e => by cases e) (.inr (lv_perm ?_))
        obtain ⟨t, l', e⟩ := List.exists_cons_of_ne_nil hne
        exact ⟨t, by rw [e]; simp, (hl t (by rw [e]; simp)).2⟩

theorem neat_mkXor {ps : List Term} (hB : ∀ t ∈ ps, IsB ρ t) (h : ∀ t ∈ ps, Neat r u V t) : Neat r u V (mkXor c ps) := by
  unfold mkXor
  split
  · exact neat_ff
  · exact h _ (by simp)
  · split
    · rename_i hq
      obtain ⟨t, ht, hf⟩ := scan_inl hq
      repeat' split at hf
      all_goals first
        | (simp only [Option.some.injEq, Sum.inl.injEq] at hf; subst hf; exact h _ ht)
        | simp at hf
    · exact neat_ff
    · rename_i p hq; exact h p (scan_mem hq p (by simp)).1
    · rename_i l h1 h2 hq
      have hl : ∀ t ∈ l, Neat r u V t ∧ (t.isTrue = true ∨ Lv u t) := by
        intro t ht
        obtain ⟨h1, h2⟩ := scan_mem hq t ht
        refine ⟨h t h1, ?_⟩
        cases e : t.isTrue with
        | true => exact .inl rfl
        | false =>
          refine .inr (livelyB (hB t h1) (h t h1) e ?_)
          cases e : t.isFalse with
          | false => rfl
          | true => cases t <;> simp [Term.isFalse] at e; simp [Term.sort, isErr, Term.isTrue, Term.isFalse] at h2
      refine neat_mkOper _ _ _ rfl (by simpa [topN] using fun e => h1 e) (fun t ht => (hl t ht).1) (fun e => by cases e) ?_
      by_cases he : ∃ t ∈ l, Lv u t
      · exact .inr (lv_perm he)
      · refine .inl (fold_xor (fun e => h1 e) fun t ht => ?_)
        rcases (hl t ht).2 with h | h
        · exact h
        · exact absurd ⟨t, ht, h⟩ he

theorem neat_mkImplies {a b : Term} (hB : IsB ρ a) (ha : Neat r u V a) (hb : Neat r u V b) : Neat r u V (mkImplies c [a, b]) := by
  unfold mkImplies
  rw [if_neg (by simp)]
  have hd : [a, b].dropLast = [a] := rfl
  have hg : [a, b].getLastD .unknown = b := rfl
  rw [hd, hg]
  split
  · rename_i hq
    obtain ⟨t, ht, hf⟩ := scan_inl hq
    rw [List.mem_singleton] at ht
    subst ht
    repeat' split at hf
    all_goals first
      | (simp only [Option.some.injEq, Sum.inl.injEq] at hf; subst hf; first | exact neat_tt | exact ha)
      | simp at hf
  · rename_i l hq
    dsimp only
    split
    · exact hb
    · split
      · exact hb
      · rename_i hne
        have hm := scan_mem hq
        have hlen := scan_len hq
        match l, hne, hlen, hm with
        | [t], _, _, hm =>
          obtain ⟨h1, h2⟩ := hm t (by simp)
          rw [List.mem_singleton] at h1
          subst h1
          have hl : Lv u t := by
            refine livelyB hB ha ?_ ?_
            · cases e : t.isTrue with
              | false => rfl
              | true => cases t <;> simp [Term.isTrue] at e; simp [isErr, Term.isTrue, Term.isFalse] at h2
            · cases e : t.isFalse with
              | false => rfl
              | true => cases t <;> simp [Term.isFalse] at e; simp [isErr, Term.isTrue, Term.isFalse] at h2
          exact neat_mkOper _ _ _ rfl rfl (by simp [ha, hb]) (fun e => by cases e) (.inr (lv_perm ⟨t, by simp, hl⟩))
        | [], hne, _, _ => exact absurd rfl hne
        | _ :: _ :: _, _, hlen, _ => simp at hlen

theorem neat_mkIte {x a b : Term} (hB : IsB ρ x) (va : Ev ρ a) (vb : Ev ρ b) (hx : Neat r u V x) (ha : Neat r u V a) (hb : Neat r u V b) :
    Neat r u V (mkIte c x a b) := by
  have hu : ∀ {t : Term}, Ev ρ t → t.isUnknown = false := by
    rintro t ⟨v, h⟩
    cases t <;> simp [eval] at h <;> rfl
  unfold mkIte
  repeat' split
  all_goals first | assumption | skip
  refine neat_mkOper _ _ _ rfl rfl (by simp [hx, ha, hb]) (fun e => by cases e) ?_
  rcases lively hB.ev hx with hc | hl
  · rcases constB hc hB with rfl | rfl
    · exact .inl (hu va)
    · exact .inl (hu vb)
  · exact .inr (lv_perm ⟨x, by simp, hl⟩)

theorem neat_mkCmp2 {k : Kind} (hk : isCmp k = true) (hf : r = true → c.floating = true ∨ u = true) {refl a b : Term} (hr : Neat r u V refl)
    (na : IsN ρ a) (nb : IsN ρ b) (sa : Std r a = true) (sb : Std r b = true) (ha : Neat r u V a) (hb : Neat r u V b) :
    Neat r u V (mkCmp2 c k refl a b) := by
  have hrel : relBin k [a, b].length = true := by cases k <;> rfl
  have htop : topN r u k [a, b].length = true := by cases k <;> simp [isCmp] at hk <;> rfl
  have hs : k ≠ .sub := by rintro rfl; cases hk
  have h : Neat r u V (mkOper c .bool k [a, b]) := by
    cases u with
    | true => exact neat_mkOper _ _ _ hrel htop (by simp [ha, hb]) (fun e => absurd e hs) (.inr fun _ _ => .inl rfl)
    | false =>
      rcases lively na.ev ha with hc | hl
      · rcases lively nb.ev hb with hd | hl
        · exact neat_const (const_cmp hk (fun e => (hf e).resolve_right (by simp)) sa sb hc hd na nb)
        · exact neat_mkOper _ _ _ hrel htop (by simp [ha, hb]) (fun e => absurd e hs) (.inr (lv_perm ⟨b, by simp, hl⟩))
      · exact neat_mkOper _ _ _ hrel htop (by simp [ha, hb]) (fun e => absurd e hs) (.inr (lv_perm ⟨a, by simp, hl⟩))
  unfold mkCmp2
  repeat' split
  all_goals first | exact h | exact hr | exact neat_unknown

/-- two literals of one sort, without reals -/
theorem consts_same {a b : Term} (sa : Std false a = true) (sb : Std false b = true) (va : Ev ρ a) (vb : Ev ρ b) (ca : a.isConst = true)
    (cb : b.isConst = true) (hs : (val ρ a).sameSort (val ρ b) = true) :
    ((a = .tt ∨ a = .ff) ∧ (b = .tt ∨ b = .ff)) ∨ (a.isCInt = true ∧ b.isCInt = true) ∨ (a.isCBV = true ∧ b.isCBV = true) ∨
      (a.isCStr = true ∧ b.isCStr = true) := by
  have ei : ∀ i : Int, val ρ (.cint i) = .n i := fun i => rfl
  have es : ∀ x, val ρ (.clit .str x) = .u .str x := fun x => by simp [val, val_str]
  have eb : ∀ w x, val ρ (.clit (.bv w) x) = .u (.bv w) x := fun w x => by simp [val, val_bv]
  have et : val ρ .tt = .b true := rfl
  have ef : val ρ .ff = .b false := rfl
  rcases std_const sa ca with rfl | rfl | ⟨i, rfl⟩ | ⟨n, q, rfl, hr⟩ | ⟨x, rfl⟩ | ⟨w, x, rfl⟩ <;>
    rcases std_const sb cb with rfl | rfl | ⟨j, rfl⟩ | ⟨n', q', rfl, hr'⟩ | ⟨y, rfl⟩ | ⟨w', y, rfl⟩ <;>
    simp_all [Val.sameSort, isCInt, isCBV, isCStr]

theorem neat_distinct {a b : Term} (hr : r = false) (va : Ev ρ a) (vb : Ev ρ b) (hs : (val ρ a).sameSort (val ρ b) = true)
    (sa : Std r a = true) (sb : Std r b = true) (ha : Neat r u V a) (hb : Neat r u V b) : Neat r u V (mkDistinctV c [a, b]) := by
  subst hr
  unfold mkDistinctV
  rw [if_neg (by simp)]
  split
  · rename_i hq
    obtain ⟨t, ht, hf⟩ := scan_inl hq
    have hn : Neat false u V t := by
      simp only [List.mem_cons, List.not_mem_nil, or_false] at ht
      rcases ht with rfl | rfl <;> assumption
    repeat' split at hf
    all_goals first
      | (simp only [Option.some.injEq, Sum.inl.injEq] at hf; subst hf; first | exact neat_unknown | exact hn)
      | simp at hf
  · exact neat_ff
  · rename_i p hq
    have := (scan_mem hq p (by simp)).1
    simp only [List.mem_cons, List.not_mem_nil, or_false] at this
    rcases this with rfl | rfl <;> assumption
  · rename_i l h1 h2 hq
    have hm := scan_mem hq
    have hlen := scan_len hq
    have hl : l = [a, b] := by
      have hs := (scan_inr hq).1
      have : l.length = 2 := by
        rcases l with _ | ⟨x, _ | ⟨y, l⟩⟩
        · exact absurd rfl h1
        · exact absurd rfl (h2 x)
        · simp only [List.length_cons, List.length_nil] at hlen ⊢; omega
      have hsub : l.Sublist [a, b] := by rw [hs]; exact List.filter_sublist
      exact hsub.eq_of_length this
    subst hl
    rw [if_neg (by simp)]
    refine neat_mkOper _ _ _ rfl rfl (by simp [ha, hb]) (fun e => by cases e) ?_
    rcases lively va ha with ca | hla
    · rcases lively vb hb with cb | hlb
      · rcases consts_same sa sb va vb ca cb hs with ⟨ea, eb⟩ | ⟨e1, e2⟩ | ⟨e1, e2⟩ | ⟨e1, e2⟩
        · have nf : ∀ t ∈ [a, b], t ≠ .ff := by
            rintro t ht rfl
            have := (hm _ ht).2
            simp only [isErr, Term.isFalse, Bool.false_eq_true, if_false, if_true] at this
            split at this <;> simp at this
          have ha' := ea.resolve_right (nf a (by simp))
          have hb' := eb.resolve_right (nf b (by simp))
          subst ha' hb'
          refine .inr fun qs hq => .inr ?_
          have : qs = [.tt, .tt] := by
            have h1 := hq.length_eq
            obtain ⟨x, y, rfl⟩ := len2 h1
            have hx := hq.mem_iff.1 (show x ∈ [x, y] by simp)
            have hy := hq.mem_iff.1 (show y ∈ [x, y] by simp)
            simp only [List.mem_cons, List.not_mem_nil, or_false, or_self] at hx hy
            rw [hx, hy]
          subst this
          rfl
        all_goals
          refine .inl ?_
          show (simp2 c .distinct a b).isUnknown = false
          have hbo : ∀ x : Bool, (ofBool x).isUnknown = false := by intro x; cases x <;> rfl
        · cases a <;> simp [isCInt] at e1; cases b <;> simp [isCInt] at e2; simp [simp2, isCInt, hbo]
        · cases a <;> simp [isCBV] at e1; cases b <;> simp [isCBV] at e2
          simp only [simp2, isCInt, isCReal, Bool.and_self, Bool.false_eq_true, if_false]
          split
          · exact hbo _
          · rename_i h; exact absurd (by simp_all [isCBV]) h
        · cases a <;> simp [isCStr] at e1; cases b <;> simp [isCStr] at e2
          simp only [simp2, isCInt, isCReal, Bool.and_self, Bool.false_eq_true, if_false]
          split
          · exact hbo _
          · split
            · exact hbo _
            · rename_i h; exact absurd (by simp_all [isCStr]) h
      · exact .inr (lv_perm ⟨b, by simp, hlb⟩)
    · exact .inr (lv_perm ⟨a, by simp, hla⟩)

theorem neat_eqOper {a b : Term} (hr : r = false) (va : Ev ρ a) (vb : Ev ρ b) (hs : (val ρ a).sameSort (val ρ b) = true)
    (sa : Std r a = true) (sb : Std r b = true) (ha : Neat r u V a) (hb : Neat r u V b)
    (hne : ¬ ((a = .tt ∨ a = .ff) ∧ (b = .tt ∨ b = .ff))) : Neat r u V (mkOper c .bool .eq [a, b]) := by
  subst hr
  refine neat_mkOper _ _ _ rfl rfl (by simp [ha, hb]) (fun e => by cases e) ?_
  rcases lively va ha with ca | hla
  · rcases lively vb hb with cb | hlb
    · rcases consts_same sa sb va vb ca cb hs with h | ⟨e1, e2⟩ | ⟨e1, e2⟩ | ⟨e1, e2⟩
      · exact absurd h hne
      all_goals
        refine .inl ?_
        show (simp2 c .eq a b).isUnknown = false
        have hbo : ∀ x : Bool, (ofBool x).isUnknown = false := by intro x; cases x <;> rfl
      · cases a <;> simp [isCInt] at e1; cases b <;> simp [isCInt] at e2; simp [simp2, isCInt, hbo]
      · cases a <;> simp [isCBV] at e1; cases b <;> simp [isCBV] at e2
        simp only [simp2, isCInt, isCReal, Bool.and_self, Bool.or_self, Bool.false_eq_true, if_false]
        split
        · exact hbo _
        · rename_i h; exact absurd (by simp_all [isCBV]) h
      · cases a <;> simp [isCStr] at e1; cases b <;> simp [isCStr] at e2
        simp only [simp2, isCInt, isCReal, Bool.and_self, Bool.or_self, Bool.false_eq_true, if_false]
        split
        · exact hbo _
        · split
          · exact hbo _
          · rename_i h; exact absurd (by simp_all [isCStr]) h
    · exact .inr (lv_perm ⟨b, by simp, hlb⟩)
  · exact .inr (lv_perm ⟨a, by simp, hla⟩)

theorem neat_not_eq2 (hf : r = true → c.floating = true ∨ u = true) : ∀ (n : Nat),
    (∀ t : Term, t.size < n → Std r t = true → Neat r u V t → IsB ρ t → Neat r u V (mkNot c t)) ∧
    ∀ a b : Term, a.size + b.size < n → r = false → Ev ρ a → Ev ρ b → (val ρ a).sameSort (val ρ b) = true → Std r a = true → Std r b = true →
      Neat r u V a → Neat r u V b → Neat r u V (mkEq2 c a b) := by
  intro n
  induction n with
  | zero => exact ⟨fun _ h => absurd h (Nat.not_lt_zero _), fun _ _ h => absurd h (Nat.not_lt_zero _)⟩
  | succ n ih =>
    have hnot : ∀ t : Term, t.size < n + 1 → Std r t = true → Neat r u V t → IsB ρ t → Neat r u V (mkNot c t) := by
      intro t hn hst h hB
      have hop : t.isTrue = false → t.isFalse = false → Neat r u V (mkOper c .bool .not [t]) := fun h1 h2 =>
        neat_mkOper _ _ _ rfl rfl (by simpa using h) (fun e => by cases e) (.inr (lv_perm ⟨t, by simp, livelyB hB h h1 h2⟩))
      have cmp : ∀ {k k' : Kind} {s : Srt} {ts : List Term} {refl : Term}, isCmp k = true → isCmp k' = true → t = .app k s ts → Neat r u V refl →
          Neat r u V (mkCmp2 c k' refl (ts.getD 0 .unknown) (ts.getD 1 .unknown)) := by
        rintro k k' s ts refl hk hk' rfl hrefl
        obtain ⟨x, hx⟩ := hB
        rw [eval_app] at hx
        obtain ⟨-, hN, -⟩ := (evalApp_cmp' ρ _ s _ k hk).1 (guardSort_some.1 hx).1
        rw [std_app] at hst
        have h2 : ts.length = 2 := by
          have := hst.1
          cases k <;> simp [isCmp] at hk <;> simpa [relBin] using this
        obtain ⟨a, b, rfl⟩ := len2 h2
        have hh := (neat_app.1 h).2.2
        exact neat_mkCmp2 hk' hf hrefl (hN a (by simp)) (hN b (by simp)) (hst.2 a (by simp)) (hst.2 b (by simp)) (hh a (by simp)) (hh b (by simp))
      rw [mkNot.eq_def]
      split
      · exact neat_unknown
      · split
        · rename_i s ts _
          have := (neat_app.1 h).2.2
          cases ts with
          | nil => exact neat_unknown
          | cons t ts => exact this t (by simp)
        · exact neat_ff
        · exact neat_tt
        · rename_i s ts _
          split
          · obtain ⟨x, hx⟩ := hB
            rw [eval_app] at hx
            obtain ⟨-, hE, hS, -⟩ := (evalApp_eq ρ ts s _).1 (guardSort_some.1 hx).1
            rw [std_app] at hst
            obtain ⟨h1, -, h3⟩ := neat_app.1 h
            obtain ⟨a, b, rfl⟩ := len2 (by simpa [relBin] using hst.1)
            exact neat_distinct (by simpa [topN] using h1) (hE a (by simp)) (hE b (by simp)) (hS a (by simp) b (by simp)) (hst.2 a (by simp))
              (hst.2 b (by simp)) (h3 a (by simp)) (h3 b (by simp))
          · exact hop rfl rfl
        · rename_i s ts _
          split
          · obtain ⟨x, hx⟩ := hB
            rw [eval_app] at hx
            obtain ⟨-, hE, hS, -⟩ := (evalApp_distinct ρ ts s _).1 (guardSort_some.1 hx).1
            rw [std_app] at hst
            obtain ⟨h1, -, h3⟩ := neat_app.1 h
            obtain ⟨a, b, rfl⟩ := len2 (by simpa [relBin] using hst.1)
            rw [mkEqV.eq_def]
            simp only
            refine ih.2 a b ?_ (by simpa [topN] using h1) (hE a (by simp)) (hE b (by simp)) (hS a (by simp) b (by simp)) (hst.2 a (by simp))
              (hst.2 b (by simp)) (h3 a (by simp)) (h3 b (by simp))
            simp only [Term.size, sizeL] at hn
            omega
          · exact hop rfl rfl
        · exact cmp rfl rfl rfl neat_tt
        · exact cmp rfl rfl rfl neat_ff
        · exact cmp rfl rfl rfl neat_tt
        · exact cmp rfl rfl rfl neat_ff
        · rename_i h1 h2 _ _ _ _ _ _ _
          refine hop ?_ ?_
          · cases t <;> simp [Term.isTrue] at *
          · cases t <;> simp [Term.isFalse] at *
    refine ⟨hnot, ?_⟩
    intro a b hn hr va vb hs sa sb ha hb
    have hpos : ∀ t : Term, 1 ≤ t.size := by intro t; cases t <;> simp [Term.size]
    have h1 := hpos a
    have h2 := hpos b
    have isb : ∀ {x y : Term} {z : Bool}, Ev ρ x → eval ρ y = some (.b z) → (val ρ x).sameSort (val ρ y) = true → IsB ρ x := by
      intro x y z hx hy h
      have e : val ρ y = .b z := by simp [val, hy]
      rw [e] at h
      refine ⟨?_, ?_⟩
      · exact match val ρ x with | .b q => q | _ => true
      · rw [hx.eval]
        cases hq : val ρ x <;> simp [hq, Val.sameSort] at h ⊢
    have isb' : ∀ {x y : Term} {z : Bool}, Ev ρ x → eval ρ y = some (.b z) → (val ρ y).sameSort (val ρ x) = true → IsB ρ x := by
      intro x y z hx hy h
      have e : val ρ y = .b z := by simp [val, hy]
      rw [e] at h
      refine ⟨?_, ?_⟩
      · exact match val ρ x with | .b q => q | _ => true
      · rw [hx.eval]
        cases hq : val ρ x <;> simp [hq, Val.sameSort] at h ⊢
    rw [mkEq2.eq_def]
    split
    · exact neat_unknown
    · split
      all_goals first
        | exact neat_tt
        | exact neat_ff
        | assumption
        | skip
      · exact hnot _ (by simp only [Term.size] at hn ⊢; omega) sb hb (isb' (y := .ff) (z := false) vb rfl hs)
      · exact hnot _ (by simp only [Term.size] at hn ⊢; omega) sa ha (isb (y := .ff) (z := false) va rfl hs)
      · rename_i s1 x l1 s2 y l2 _
        obtain ⟨v1, e1⟩ := va
        obtain ⟨v2, e2⟩ := vb
        rw [eval_app] at e1 e2
        obtain ⟨x', hx', bx, -⟩ := (evalApp_not ρ _ _ _).1 (guardSort_some.1 e1).1
        obtain ⟨y', hy', by', -⟩ := (evalApp_not ρ _ _ _).1 (guardSort_some.1 e2).1
        injection hx' with hx1 hx2
        injection hy' with hy1 hy2
        subst hx1 hx2 hy1 hy2
        rw [std_app] at sa sb
        have h3 := (neat_app.1 ha).2.2
        have h4 := (neat_app.1 hb).2.2
        refine ih.2 _ _ ?_ hr bx.ev by'.ev ?_ (sa.2 _ (by simp)) (sb.2 _ (by simp)) (h3 _ (by simp)) (h4 _ (by simp))
        · simp only [Term.size, sizeL] at hn; omega
        · simp [val, bx.eval, by'.eval, Val.sameSort]
      · refine neat_eqOper hr va vb hs sa sb ha hb ?_
        rintro ⟨h5 | h5, h6 | h6⟩ <;> subst h5 h6 <;> simp_all

theorem neat_mkNot (hf : r = true → c.floating = true ∨ u = true) {t : Term} (hs : Std r t = true) (h : Neat r u V t) (hB : IsB ρ t) :
    Neat r u V (mkNot c t) := (neat_not_eq2 hf (t.size + 1)).1 t (by omega) hs h hB

theorem neat_mkEqV {a b : Term} (hr : r = false) (va : Ev ρ a) (vb : Ev ρ b) (hs : (val ρ a).sameSort (val ρ b) = true)
    (sa : Std r a = true) (sb : Std r b = true) (ha : Neat r u V a) (hb : Neat r u V b) : Neat r u V (mkEqV c [a, b]) := by
  rw [mkEqV.eq_def]
  exact (neat_not_eq2 (fun e => by rw [hr] at e; cases e) (a.size + b.size + 1)).2 a b (by omega) hr va vb hs sa sb ha hb

theorem neat_numOper {k : Kind} (hk : k = .add ∨ k = .mul ∨ k = .sub) (s : Srt) {l : List Term} (hne : l ≠ []) (hl : ∀ t ∈ l, Neat r u V t)
    (hN : ∀ t ∈ l, t.isCReal = true ∨ Lv u t) : Neat r u V (mkOper c s k l) := by
  refine neat_mkOper _ _ _ (by rcases hk with rfl | rfl | rfl <;> rfl) (by rcases hk with rfl | rfl | rfl <;> rfl) hl (fun _ => hN) ?_
  by_cases he : ∃ t ∈ l, Lv u t
  · exact .inr (lv_perm he)
  · refine .inl (fold_num hk hne fun t ht => ?_)
    rcases hN t ht with h | h
    · exact h
    · exact absurd ⟨t, ht, h⟩ he

theorem neat_mkAdd {ps : List Term} (hn : ∀ t ∈ ps, IsN ρ t) (hs : ∀ t ∈ ps, Std r t = true) (h : ∀ t ∈ ps, Neat r u V t) :
    Neat r u V (mkAdd c ps) := by
  unfold mkAdd
  split
  · exact neat_unknown
  · exact h _ (by simp)
  · split
    · rename_i hq
      obtain ⟨t, ht, hf⟩ := scan_inl hq
      repeat' split at hf
      all_goals first
        | (simp only [Option.some.injEq, Sum.inl.injEq] at hf; subst hf; first | exact neat_unknown | exact h _ ht)
        | simp at hf
    · repeat' split
      all_goals first | exact neat_creal _ | exact neat_cint _ | exact neat_unknown
    · rename_i p hq; exact h p (scan_mem hq p (by simp)).1
    · rename_i l h1 _ hq
      have hm := fun t ht => (scan_mem hq t ht).1
      split
      · exact neat_unknown
      · exact neat_numOper (.inl rfl) _ (fun e => h1 e) (fun t ht => h t (hm t ht))
          fun t ht => livelyN (hn t (hm t ht)) (hs t (hm t ht)) (h t (hm t ht))

theorem neat_mkMul {ps : List Term} (hn : ∀ t ∈ ps, IsN ρ t) (hs : ∀ t ∈ ps, Std r t = true) (h : ∀ t ∈ ps, Neat r u V t) :
    Neat r u V (mkMul c ps) := by
  unfold mkMul
  split
  · exact neat_unknown
  · exact h _ (by simp)
  · split
    · rename_i hq
      obtain ⟨t, ht, hf⟩ := scan_inl hq
      repeat' split at hf
      all_goals first
        | (simp only [Option.some.injEq, Sum.inl.injEq] at hf; subst hf
           first | exact neat_unknown | exact neat_cint _ | exact neat_creal _ | exact h _ ht)
        | simp at hf
    · repeat' split
      all_goals first | exact neat_creal _ | exact neat_cint _ | exact neat_unknown
    · rename_i p hq; exact h p (scan_mem hq p (by simp)).1
    · rename_i l h1 _ hq
      have hm := fun t ht => (scan_mem hq t ht).1
      have key : ∀ s, Neat r u V (mkOper c s .mul l) := fun s => neat_numOper (.inr (.inl rfl)) _ (fun e => h1 e) (fun t ht => h t (hm t ht))
          fun t ht => livelyN (hn t (hm t ht)) (hs t (hm t ht)) (h t (hm t ht))
      repeat' split
      all_goals first | exact neat_creal _ | exact neat_cint _ | exact neat_unknown | exact key _

theorem neat_mkSub {ps : List Term} (hn : ∀ t ∈ ps, IsN ρ t) (hs : ∀ t ∈ ps, Std r t = true) (h : ∀ t ∈ ps, Neat r u V t) :
    Neat r u V (mkSub c ps) := by
  have lv : ∀ t ∈ ps, t.isCReal = true ∨ Lv u t := fun t ht => livelyN (hn t ht) (hs t ht) (h t ht)
  unfold mkSub
  split
  · exact neat_unknown
  · exact neat_mkNeg (h _ (by simp)) (lv _ (by simp))
  · rename_i hne _
    split
    · rename_i hq
      obtain ⟨t, ht, hf⟩ := scan_inl hq
      repeat' split at hf
      all_goals first
        | (simp only [Option.some.injEq, Sum.inl.injEq] at hf; subst hf; first | exact neat_unknown | exact h _ ht)
        | simp at hf
    · rename_i l hq
      have hk := fun t ht => (scan_mem hq t ht).1
      have hl : l ≠ [] := by
        rintro rfl
        have := (scan_inr hq).1
        obtain ⟨t, l', e⟩ := List.exists_cons_of_ne_nil (show ps ≠ [] from fun e => hne e)
        have hno := (scan_inr hq).2
        rw [e] at this hno
        rw [eq_comm, List.filter_eq_nil_iff] at this
        have h1 := this t (by simp)
        have h2 := hno t (by simp)
        revert h1 h2
        repeat' split
        all_goals simp
      have key : ∀ s, Neat r u V (mkOper c s .sub l) := fun s => neat_numOper (.inr (.inr rfl)) _ hl (fun t ht => h t (hk t ht))
          fun t ht => lv t (hk t ht)
      repeat' split
      all_goals first
        | exact neat_creal _
        | exact neat_cint _
        | exact neat_unknown
        | exact key _
        | exact neat_mkNeg (h _ (hk _ (by simp))) (lv _ (hk _ (by simp)))
        | exact h _ (hk _ (by simp))

end
end SMT.Eval
