import Verif.Eval.Std

/-! # C35: every rule keeps the value -/

namespace SMT.Eval
open SMT SMT.Term

set_option linter.unusedSimpArgs false
set_option linter.unusedVariables false

/-- what a rule must give: the value and the shape -/
def Good (r : Bool) (ρ : Env) (v : Val) (t : Term) : Prop := eval ρ t = some v ∧ Std r t = true

theorem constB {ρ : Env} {t : Term} (hc : t.isConst = true) (hb : IsB ρ t) : t = .tt ∨ t = .ff := by
  obtain ⟨x, hx⟩ := hb
  cases t with
  | tt => exact .inl rfl
  | ff => exact .inr rfl
  | cint i => simp [eval] at hx
  | creal n q => simp [eval] at hx
  | clit s y =>
    simp only [eval] at hx
    have := (guardSort_some.1 hx).1
    cases s <;> simp at this
  | var => simp [isConst] at hc
  | app => simp [isConst] at hc
  | unknown => simp [isConst] at hc
  | err => simp [isConst] at hc

theorem mem_others {us : List Term} {t : Term} : t ∈ others us ↔ t ∈ us ∧ t.isConst = false := by simp [others]
theorem mem_consts {us : List Term} {t : Term} : t ∈ consts us ↔ t ∈ us ∧ t.isConst = true := by simp [consts]

section
variable {r : Bool} {c : Cfg} {ρ : Env} {v : Val} {e : Term} {rs : List R}

theorem good_and (hs : ∀ u ∈ rs.map Prod.fst, Std r u = true) (he : Good r ρ v e) (s : Srt)
    (h : evalApp ρ .and (rs.map Prod.fst) s = some v) : Good r ρ v (evAnd c e rs).1 := by
  obtain ⟨x, rfl⟩ : ∃ x, v = .b x := by obtain ⟨_, rfl⟩ := (evalApp_and ρ _ s v).1 h; exact ⟨_, rfl⟩
  obtain ⟨hb, hx⟩ := (and_mem ρ _ s x).1 h
  unfold evAnd
  split
  · rename_i hf
    rw [List.any_eq_true] at hf
    obtain ⟨p, hp, hf⟩ := hf
    have hm : p.1 ∈ rs.map Prod.fst := List.mem_map_of_mem hp
    rw [isFalse_iff] at hf
    rw [hf] at hm
    have : x = false := by
      cases x with
      | false => rfl
      | true => have := hx.1 rfl _ hm; rw [bval_ff] at this; cases this
    rw [this]
    exact ⟨rfl, by simp [Std, leafOk]⟩
  · rename_i hf
    split
    · exact he
    · have hno : ∀ t ∈ rs.map Prod.fst, t.isConst = true → bval ρ t = true := by
        intro t ht hc
        rcases constB hc (hb t ht) with rfl | rfl
        · rfl
        · exfalso
          apply hf
          rw [List.any_eq_true]
          obtain ⟨p, hp, hp'⟩ := List.mem_map.mp ht
          exact ⟨p, hp, by rw [hp']; rfl⟩
      have hk : evalApp ρ .and (others (rs.map Prod.fst)) .bool = some (.b x) := by
        rw [and_mem]
        refine ⟨fun t ht => hb t (mem_others.1 ht).1, ?_⟩
        rw [hx]
        constructor
        · intro h t ht; exact h t (mem_others.1 ht).1
        · intro h t ht
          cases hq : t.isConst with
          | true => exact hno t ht hq
          | false => exact h t (mem_others.2 ⟨ht, hq⟩)
      have hst : ∀ t ∈ others (rs.map Prod.fst), Std r t = true := fun t ht => hs t (mem_others.1 ht).1
      split
      · rename_i hn
        rw [hn] at hk
        have := ((and_mem ρ _ _ x).1 hk).2.2 (by simp)
        rw [this]
        exact ⟨rfl, by simp [Std, leafOk]⟩
      · rename_i t hn
        rw [hn] at hk hst
        obtain ⟨h1, h2⟩ := (and_mem ρ _ _ x).1 hk
        refine ⟨eval_eq_of_bval (h1 t (by simp)) ?_, hst t (by simp)⟩
        rw [Bool.eq_iff_iff, h2]; simp
      · exact ⟨mkAnd_sound c ρ _ _ hk, std_mkAnd c hst⟩

theorem good_or (hs : ∀ u ∈ rs.map Prod.fst, Std r u = true) (he : Good r ρ v e) (s : Srt)
    (h : evalApp ρ .or (rs.map Prod.fst) s = some v) : Good r ρ v (evOr c e rs).1 := by
  obtain ⟨x, rfl⟩ : ∃ x, v = .b x := by obtain ⟨_, rfl⟩ := (evalApp_or ρ _ s v).1 h; exact ⟨_, rfl⟩
  obtain ⟨hb, hx⟩ := (or_mem ρ _ s x).1 h
  unfold evOr
  split
  · rename_i hf
    rw [List.any_eq_true] at hf
    obtain ⟨p, hp, hf⟩ := hf
    have hm : p.1 ∈ rs.map Prod.fst := List.mem_map_of_mem hp
    rw [isTrue_iff] at hf
    rw [hf] at hm
    have : x = true := hx.2 ⟨_, hm, rfl⟩
    rw [this]
    exact ⟨rfl, by simp [Std, leafOk]⟩
  · rename_i hf
    split
    · exact he
    · have hno : ∀ t ∈ rs.map Prod.fst, t.isConst = true → bval ρ t = false := by
        intro t ht hc
        rcases constB hc (hb t ht) with rfl | rfl
        · exfalso
          apply hf
          rw [List.any_eq_true]
          obtain ⟨p, hp, hp'⟩ := List.mem_map.mp ht
          exact ⟨p, hp, by rw [hp']; rfl⟩
        · rfl
      have hk : evalApp ρ .or (others (rs.map Prod.fst)) .bool = some (.b x) := by
        rw [or_mem]
        refine ⟨fun t ht => hb t (mem_others.1 ht).1, ?_⟩
        rw [hx]
        constructor
        · rintro ⟨t, ht, h⟩
          refine ⟨t, mem_others.2 ⟨ht, ?_⟩, h⟩
          cases hq : t.isConst with
          | true => rw [hno t ht hq] at h; cases h
          | false => rfl
        · rintro ⟨t, ht, h⟩; exact ⟨t, (mem_others.1 ht).1, h⟩
      have hst : ∀ t ∈ others (rs.map Prod.fst), Std r t = true := fun t ht => hs t (mem_others.1 ht).1
      split
      · rename_i hn
        rw [hn] at hk
        have h2 := ((or_mem ρ _ _ x).1 hk).2
        have : x = false := by cases x with | false => rfl | true => simp at h2
        rw [this]
        exact ⟨rfl, by simp [Std, leafOk]⟩
      · rename_i t hn
        rw [hn] at hk hst
        obtain ⟨h1, h2⟩ := (or_mem ρ _ _ x).1 hk
        refine ⟨eval_eq_of_bval (h1 t (by simp)) ?_, hst t (by simp)⟩
        rw [Bool.eq_iff_iff, h2]; simp
      · exact ⟨mkOr_sound c ρ _ _ hk, std_mkOr c hst⟩

/-- parity of the operands equal to `true` -/
theorem xor_split {us : List Term} (hb : ∀ t ∈ us, IsB ρ t) :
    (us.map (bval ρ)).foldl Bool.xor false =
      Bool.xor ((us.filter fun t => t.isTrue).length % 2 == 1) (((others us).map (bval ρ)).foldl Bool.xor false) := by
  induction us with
  | nil => rfl
  | cons t us ih =>
    have ih := ih fun u hu => hb u (List.mem_cons_of_mem _ hu)
    simp only [List.map_cons, List.foldl_cons]
    rw [foldl_xor, ih]
    cases hq : t.isConst with
    | true =>
      rcases constB hq (hb t (by simp)) with rfl | rfl
      · have e1 : ((Term.tt :: us).filter fun t => t.isTrue) = .tt :: us.filter fun t => t.isTrue := rfl
        have e2 : others (Term.tt :: us) = others us := rfl
        rw [e1, e2, bval_tt, List.length_cons]
        generalize ((others us).map (bval ρ)).foldl Bool.xor false = y
        generalize (us.filter fun t => t.isTrue).length = n
        rcases Nat.mod_two_eq_zero_or_one n with h | h
        · have h' : (n + 1) % 2 = 1 := by omega
          rw [h, h']; cases y <;> rfl
        · have h' : (n + 1) % 2 = 0 := by omega
          rw [h, h']; cases y <;> rfl
      · simp [others, isConst, Term.isTrue, bval_ff]
    | false =>
      have ht : t.isTrue = false := by cases t <;> simp_all [isConst, Term.isTrue]
      simp only [others, List.filter_cons, hq, ht, Bool.not_false, if_true, Bool.false_eq_true, if_false, List.map_cons, List.foldl_cons]
      rw [foldl_xor _ (Bool.xor false (bval ρ t))]
      simp only [Bool.false_bne, Bool.bne_assoc]
      generalize ((us.filter fun t => !t.isConst).map (bval ρ)).foldl Bool.xor false = y
      generalize ((us.filter fun t => t.isTrue).length % 2 == 1) = z
      cases bval ρ t <;> cases y <;> cases z <;> rfl

theorem good_xor (hc : NumOk r c) (hs : ∀ u ∈ rs.map Prod.fst, Std r u = true) (he : Good r ρ v e) (s : Srt)
    (h : evalApp ρ .xor (rs.map Prod.fst) s = some v) : Good r ρ v (evXor c e rs).1 := by
  obtain ⟨hb, rfl⟩ := (evalApp_xor ρ _ s v).1 h
  unfold evXor
  split
  · exact he
  · simp only
    rw [xor_split hb] at he ⊢
    have hst : ∀ t ∈ others (rs.map Prod.fst), Std r t = true := fun t ht => hs t (mem_others.1 ht).1
    have hbo : ∀ t ∈ others (rs.map Prod.fst), IsB ρ t := fun t ht => hb t (mem_others.1 ht).1
    generalize (((rs.map Prod.fst).filter fun t => t.isTrue).length % 2 == 1) = odd at *
    generalize others (rs.map Prod.fst) = l at *
    have hnot : ∀ t, IsB ρ t → Std r t = true → Good r ρ (.b (!(bval ρ t))) (mkNot c t) := fun t h1 h2 =>
      ⟨mkNot_sound' c ρ t (std_dfit hc h2) (std_binTop h2) h1, std_mkNot c h2⟩
    match l, hst, hbo with
    | [], _, _ => cases odd <;> exact ⟨rfl, by simp [Std, leafOk]⟩
    | [t], hst, hbo =>
      have h1 := hbo t (by simp)
      have h2 := hst t (by simp)
      cases odd with
      | true => simpa using hnot t h1 h2
      | false => exact ⟨by simpa using h1.eval, h2⟩
    | t :: u :: l, hst, hbo =>
      have hx : eval ρ (mkXor c (t :: u :: l)) = some (.b (((t :: u :: l).map (bval ρ)).foldl Bool.xor false)) :=
        mkXor_sound c ρ _ _ ((evalApp_xor ρ _ .bool _).2 ⟨hbo, rfl⟩)
      have hx2 := std_mkXor c hst
      cases odd with
      | true =>
        have := hnot _ ⟨_, hx⟩ hx2
        rw [bval_of hx] at this
        simpa using this
      | false => exact ⟨by simpa using hx, hx2⟩

theorem std_const {a : Term} (ha : Std r a = true) (ca : a.isConst = true) :
    a = .tt ∨ a = .ff ∨ (∃ i, a = .cint i) ∨ (∃ n q, a = .creal n q ∧ r = true) ∨ (∃ x, a = .clit .str x) ∨ ∃ w x, a = .clit (.bv w) x := by
  cases a with
  | clit s x => cases s <;> simp_all [Std, leafOk]
  | _ => simp_all [isConst, Std, leafOk]

/-- constants of one sort: `constNe` decides -/
theorem constNe_iff (hc : NumOk r c) (o : Opt) {a b : Term} (ha : Std r a = true) (hb : Std r b = true) (ca : a.isConst = true)
    (cb : b.isConst = true) (hs : (val ρ a).sameSort (val ρ b) = true) : constNe c o a b = decide (val ρ a ≠ val ρ b) := by
  have ff : r = true → ∀ q, c.rnd q = q := by intro h; subst h; simpa [NumOk, Exact] using hc
  have ei : ∀ i : Int, val ρ (.cint i) = .n i := fun i => rfl
  have er : ∀ n q, val ρ (.creal n q) = .n q := fun n q => rfl
  have es : ∀ x, val ρ (.clit .str x) = .u .str x := fun x => by simp [val, val_str]
  have eb : ∀ w x, val ρ (.clit (.bv w) x) = .u (.bv w) x := fun w x => by simp [val, val_bv]
  have et : val ρ .tt = .b true := rfl
  have ef : val ρ .ff = .b false := rfl
  rcases std_const ha ca with rfl | rfl | ⟨i, rfl⟩ | ⟨n, q, rfl, hr⟩ | ⟨x, rfl⟩ | ⟨w, x, rfl⟩ <;>
    rcases std_const hb cb with rfl | rfl | ⟨j, rfl⟩ | ⟨n', q', rfl, hr'⟩ | ⟨x', rfl⟩ | ⟨w', x', rfl⟩ <;>
    simp only [ei, er, es, eb, et, ef, Val.sameSort, Bool.false_eq_true] at hs <;>
    simp only [ei, er, es, eb, et, ef, constNe, isCInt, isCReal, Term.isTrue, Term.isFalse, isCStr, isCBV, intVal, text, toReal]
  all_goals try simp [bne, Bool.beq_eq_decide_eq, Rat.intCast_inj]
  all_goals try simp [ff hr]
  all_goals try simp [ff hr']
  all_goals first | done | (simp at hs; done) | (simp at hs; subst hs; simp)

theorem const_inj {a b : Term} (ha : Std false a = true) (hb : Std false b = true) (ca : a.isConst = true)
    (cb : b.isConst = true) (hs : (val ρ a).sameSort (val ρ b) = true) (hv : val ρ a = val ρ b) : a = b := by
  have ei : ∀ i : Int, val ρ (.cint i) = .n i := fun i => rfl
  have es : ∀ x, val ρ (.clit .str x) = .u .str x := fun x => by simp [val, val_str]
  have eb : ∀ w x, val ρ (.clit (.bv w) x) = .u (.bv w) x := fun w x => by simp [val, val_bv]
  have et : val ρ .tt = .b true := rfl
  have ef : val ρ .ff = .b false := rfl
  rcases std_const ha ca with rfl | rfl | ⟨i, rfl⟩ | ⟨n, q, rfl, hr⟩ | ⟨x, rfl⟩ | ⟨w, x, rfl⟩ <;>
    rcases std_const hb cb with rfl | rfl | ⟨j, rfl⟩ | ⟨n', q', rfl, hr'⟩ | ⟨x', rfl⟩ | ⟨w', x', rfl⟩ <;>
    simp [ei, es, eb, et, ef, Rat.intCast_inj] at hv ⊢
  all_goals first | contradiction | exact hv | (cases hr) | (cases hr')

theorem good_eq (hc : NumOk r c) (o : Opt) (hs : ∀ u ∈ rs.map Prod.fst, Std r u = true) (he : Good r ρ v e) (s : Srt)
    (hn : (rs.map Prod.fst).length = 2) (h : evalApp ρ .eq (rs.map Prod.fst) s = some v) : Good r ρ v (evEq c o e rs).1 := by
  obtain ⟨-, hev, hss, rfl⟩ := (evalApp_eq ρ _ s v).1 h
  unfold evEq
  split
  · exact he
  · clear he
    simp only
    generalize rs.map Prod.fst = us at *
    obtain ⟨a, b, rfl⟩ := len2 hn
    have sa := hs a (by simp)
    have sb := hs b (by simp)
    have ea := hev a (by simp)
    have eb := hev b (by simp)
    have hab := hss a (by simp) b (by simp)
    have hv : (decide (∀ t ∈ [a, b], ∀ u ∈ [a, b], val ρ t = val ρ u)) = decide (val ρ a = val ρ b) := by
      rw [decide_eq_decide]; simp; grind
    rw [hv]
    have hmk : ∀ x y : Term, Std r x = true → Std r y = true → Ev ρ x → Ev ρ y → (val ρ x).sameSort (val ρ y) = true →
        Good r ρ (.b (decide (val ρ x = val ρ y))) (mkEqV c [x, y]) := by
      intro x y sx sy ex ey hxy
      refine ⟨?_, std_mkEqV c (by simp [sx, sy]) rfl⟩
      rw [mkEqV.eq_def]
      exact mkEq2_sound' c ρ _ x y (Nat.le_refl _) (std_dfit hc sx) (std_dfit hc sy) (std_binRel _ _ (Nat.le_refl _) sx)
        (std_binRel _ _ (Nat.le_refl _) sy) ex ey hxy
    have htt : ∀ x, Std r (ofBool x) = true := std_ofBool r
    cases ha : a.isConst <;> cases hb : b.isConst <;> simp only [consts, others, List.filter_cons, ha, hb, List.filter_nil,
      Bool.not_true, Bool.not_false, Bool.false_eq_true, if_true, if_false, List.any_nil, List.any_cons, Bool.or_false, List.isEmpty_nil,
      List.isEmpty_cons, List.cons_append, List.nil_append]
    · exact hmk a b sa sb ea eb hab
    · exact hmk a b sa sb ea eb hab
    · have := hmk b a sb sa eb ea (sameSort_symm hab)
      rw [show decide (val ρ a = val ρ b) = decide (val ρ b = val ρ a) by rw [decide_eq_decide]; exact eq_comm]
      exact this
    · rw [constNe_iff hc o sa sb ha hb hab]
      by_cases hq : val ρ a = val ρ b
      · simp only [hq, ne_eq, not_true, decide_false, Bool.false_eq_true, if_false, decide_true]
        exact ⟨rfl, by simp [Std, leafOk]⟩
      · simp only [hq, ne_eq, not_false_eq_true, decide_true, if_true, decide_false]
        exact ⟨rfl, by simp [Std, leafOk]⟩

theorem good_distinct (hc : NumOk false c) (o : Opt) (hs : ∀ u ∈ rs.map Prod.fst, Std false u = true) (he : Good false ρ v e)
    (s : Srt) (hn : (rs.map Prod.fst).length = 2) (h : evalApp ρ .distinct (rs.map Prod.fst) s = some v) :
    Good false ρ v (evDistinct c o e rs).1 := by
  obtain ⟨-, hev, hss, rfl⟩ := (evalApp_distinct ρ _ s v).1 h
  unfold evDistinct
  simp only
  generalize (rs.any fun r => r.2) = ch
  generalize rs.map Prod.fst = us at *
  obtain ⟨a, b, rfl⟩ := len2 hn
  have sa := hs a (by simp)
  have sb := hs b (by simp)
  have ea := hev a (by simp)
  have eb := hev b (by simp)
  have hab := hss a (by simp) b (by simp)
  have hv : (decide ([a, b].Pairwise fun t u => val ρ t ≠ val ρ u)) = decide (val ρ a ≠ val ρ b) := by
    rw [decide_eq_decide]; simp
  rw [hv] at he ⊢
  have hmk : ∀ x y : Term, Std false x = true → Std false y = true → Ev ρ x → Ev ρ y → (val ρ x).sameSort (val ρ y) = true →
      Good false ρ (.b (decide (val ρ x ≠ val ρ y))) (mkDistinctV c [x, y]) := by
    intro x y sx sy ex ey hxy
    refine ⟨?_, std_mkDistinctV c (by simp [sx, sy]) rfl⟩
    refine mkDistinctV_sound' c ρ [x, y] .bool _ ?_ (.inl rfl) ?_
    · intro t ht
      simp only [List.mem_cons, List.not_mem_nil, or_false] at ht
      rcases ht with rfl | rfl
      · exact std_fit hc sx
      · exact std_fit hc sy
    · refine (evalApp_distinct ρ _ _ _).2 ⟨by simp, ?_, ?_, ?_⟩
      · intro t ht; simp at ht; rcases ht with rfl | rfl <;> assumption
      · intro t ht u hu; simp at ht hu
        rcases ht with rfl | rfl <;> rcases hu with rfl | rfl <;>
          first | exact sameSort_refl _ | exact hxy | exact sameSort_symm hxy
      · simp
  have h1 : ∀ x : Term, o.order [x] = [x] := fun x => List.perm_singleton.mp (o.perm [x])
  cases ha : a.isConst <;> cases hb : b.isConst <;> simp only [consts, others, List.filter_cons, ha, hb, List.filter_nil,
    Bool.not_true, Bool.not_false, Bool.false_eq_true, if_true, if_false, List.isEmpty_nil, List.isEmpty_cons, List.cons_append,
    List.nil_append, dedup, List.length_cons, List.length_nil, h1, ne_eq, not_true]
  · split
    · exact he
    · exact hmk a b sa sb ea eb hab
  · split
    · exact he
    · exact hmk a b sa sb ea eb hab
  · split
    · exact he
    · have := hmk b a sb sa eb ea (sameSort_symm hab)
      rw [show decide (¬ val ρ a = val ρ b) = decide (val ρ b ≠ val ρ a) by rw [decide_eq_decide]; exact ⟨fun h q => h q.symm, fun h q => h q.symm⟩]
      exact this
  · by_cases hq : a = b
    · subst hq
      simp only [bne_self_eq_false, Bool.false_eq_true, if_false, List.length_nil, not_true, decide_false]
      simp only [Nat.zero_add, Nat.reduceAdd, Nat.reduceEqDiff, not_false_eq_true, if_true]
      exact ⟨rfl, by simp [Std, leafOk]⟩
    · have hne : val ρ a ≠ val ρ b := fun q => hq (const_inj sa sb ha hb hab q)
      have hq' : (b != a) = true := by simp; exact fun q => hq q.symm
      simp only [hq', if_true, List.length_cons, List.length_nil, not_true, if_false]
      split
      · exact he
      · simp only [hne, not_false_eq_true, decide_true]
        exact ⟨rfl, by simp [Std, leafOk]⟩

theorem good_ite (hs : ∀ u ∈ rs.map Prod.fst, Std r u = true) (he : Good r ρ v e) (s : Srt)
    (h : evalApp ρ .ite (rs.map Prod.fst) s = some v) : Good r ρ v (evIte c e rs).1 := by
  obtain ⟨x, a, b, heq, hb, ea, eb, hss, hv⟩ := (evalApp_ite ρ _ s v).1 h
  rcases rs with _ | ⟨p1, _ | ⟨p2, _ | ⟨p3, _ | ⟨p4, l⟩⟩⟩⟩ <;> simp at heq
  obtain ⟨rfl, rfl, rfl⟩ := heq
  simp only [evIte]
  split
  · exact he
  · split
    · rename_i hcst
      rcases constB hcst hb with hq | hq
      · rw [hq] at hv ⊢
        rw [bval_tt] at hv
        simp only [if_true] at hv
        rw [hv]
        exact ⟨ea.eval, hs p2.1 (by simp)⟩
      · rw [hq] at hv ⊢
        rw [bval_ff] at hv
        simp only [Bool.false_eq_true, if_false] at hv
        rw [hv]
        exact ⟨eb.eval, hs p3.1 (by simp)⟩
    · exact ⟨mkIte_sound c ρ _ _ _ s v h, std_mkIte c (hs _ (by simp)) (hs _ (by simp)) (hs _ (by simp))⟩

theorem good_fix (hc : NumOk r c) (k : Kind) (s : Srt) (n : Nat) (hs : ∀ u ∈ rs.map Prod.fst, Std r u = true) (he : Good r ρ v e)
    (hn : rs.length = n) (h0 : n ≠ 0) (hk : relBin k n = true) (hi : k = .implies → n = 2) (hv : v.hasSort s = true)
    (h : evalApp ρ k (rs.map Prod.fst) s = some v) : Good r ρ v (evFix c k s n e rs).1 := by
  unfold evFix
  have ht : rs.take n = rs := by rw [← hn]; exact List.take_length
  rw [ht]
  split
  · exact he
  · refine ⟨(mkOper_sound3 c ρ k _ s v (fun t ht => std_fit hc (hs t ht)) ?_ ?_ hv h).1, std_mkOper c s k _ (by simpa [hn] using hk) hs⟩
    · intro hq
      rw [List.map_eq_nil_iff] at hq
      rw [hq] at hn
      exact h0 hn.symm
    · intro hk' h3
      rw [List.length_map, hn, hi hk'] at h3
      cases h3

end
end SMT.Eval
