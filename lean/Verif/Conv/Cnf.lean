import Verif.Conv.CnfModel
import Verif.Conv.Tseitin
/-!
# `toCNF`: proofs
-/
namespace SMT

open Term

theorem xInL_iff (p : Term → Bool) (ts : List Term) :
    xInL p ts = true ↔ ∀ t ∈ ts, xIn p t = true := by
  induction ts with
  | nil => simp [xInL]
  | cons t ts ih => simp [xInL, ih]

theorem cnfInL_iff (ts : List Term) : cnfInL ts = true ↔ ∀ t ∈ ts, cnfIn t = true := by
  induction ts with
  | nil => simp [cnfInL]
  | cons t ts ih => simp [cnfInL, ih]

theorem collectAtomsL_mem {x : Term} {ts : List Term} :
    x ∈ collectAtomsL ts ↔ ∃ t ∈ ts, x ∈ collectAtoms t := by
  induction ts with
  | nil => simp [collectAtomsL]
  | cons t ts ih => simp [collectAtomsL, ih]

theorem xIn_dnfIn (p : Term → Bool) : ∀ (n : Nat) (t : Term), t.size ≤ n → xIn p t = true →
    dnfIn t = true := by
  intro n
  induction n with
  | zero => intro t h; cases t <;> simp [size] at h
  | succ n ih =>
    intro t hn h
    cases t with
    | app k s ts =>
      have hL : xInL p ts = true → dnfInL ts = true := by
        intro hl
        rw [xInL_iff] at hl
        rw [dnfInL_iff]
        intro u hu
        have := size_child (k := k) (s := s) hu
        exact ih u (by omega) (hl u hu)
      cases k <;> simp only [xIn, Bool.and_eq_true, Bool.or_eq_true] at h <;>
        simp only [dnfIn, Bool.and_eq_true, Bool.or_eq_true]
      all_goals first
        | exact hL h
        | exact hL h.2
        | exact h.1
        | (simp [atomIn] at h; done)
        | exact h.elim (fun h => .inl h.1) (fun h => .inr ⟨h.1, hL h.2⟩)
    | _ => first | rfl | simp [xIn, atomIn] at h

theorem boolOperand2 {t : Term} (hs : t.sort = .bool) (h : dnfIn t = true) :
    isBVTerm t = false ∧ isFPTerm t = false := by
  cases t with
  | app k s ts =>
    simp only [Term.sort] at hs; subst hs
    cases k <;> simp [isBVTerm, isFPTerm, dnfIn, atomIn] at h ⊢
  | var vk s x => simp only [Term.sort] at hs; subst hs; simp [isBVTerm, isFPTerm]
  | clit s x => simp only [Term.sort] at hs; subst hs; simp [isBVTerm, isFPTerm]
  | _ => simp [isBVTerm, isFPTerm]

theorem boolRel_notAtom {k : Kind} (hk : k = .eq ∨ k = .distinct) {s : Srt} {ts : List Term}
    (hb : ts.all (fun t => t.sort == .bool) = true) (h : ∀ t ∈ ts, dnfIn t = true) :
    isAtom (.app k s ts) = false := by
  cases ts with
  | nil => rcases hk with rfl | rfl <;> rfl
  | cons a l =>
    simp only [List.all_cons, Bool.and_eq_true, beq_iff_eq] at hb
    obtain ⟨h1, h2⟩ := boolOperand hb.1 (h a (by simp))
    obtain ⟨h3, h4⟩ := boolOperand2 hb.1 (h a (by simp))
    rcases hk with rfl | rfl <;> simp [isAtom, h1, h2, h3, h4]

/-- the atoms found by `collectAtoms` are the ones `xIn` asks about -/
theorem xIn_mono (p : Term → Bool) : ∀ (n : Nat) (t : Term), t.size ≤ n →
    xIn (fun _ => true) t = true → (∀ a ∈ collectAtoms t, p a = true) → xIn p t = true := by
  intro n
  induction n with
  | zero => intro t h; cases t <;> simp [size] at h
  | succ n ih =>
    intro t hn h hp
    cases t with
    | app k s ts =>
      by_cases ha : isAtom (.app k s ts) = true
      · have hpt : p (.app k s ts) = true := hp _ (by simp [collectAtoms, ha])
        have hat : atomIn (.app k s ts) = true := by
          cases k <;> simp only [xIn, Bool.and_eq_true, Bool.or_eq_true] at h <;> first
            | (simp [isAtom] at ha; done)
            | exact h.1
            | (refine h.elim (fun h => h.1) (fun h => ?_)
               refine absurd ha (Bool.eq_false_iff.1 (boolRel_notAtom ?_ (s := s) h.1 fun t ht =>
                 xIn_dnfIn _ _ t (Nat.le_refl _) ((xInL_iff _ _).1 h.2 t ht)))
               first | exact .inl rfl | exact .inr rfl)
        cases k <;> first
            | (simp [isAtom] at ha; done)
            | simp only [xIn, hat, hpt, Bool.and_self, Bool.true_or]
      · have hL : xInL (fun _ => true) ts = true → xInL p ts = true := by
          intro hl
          rw [xInL_iff] at hl
          rw [xInL_iff]
          intro u hu
          have := size_child (k := k) (s := s) hu
          refine ih u (by omega) (hl u hu) fun a ha' => hp a ?_
          simp only [collectAtoms, ha, Bool.false_eq_true, if_false]
          exact collectAtomsL_mem.2 ⟨u, hu, ha'⟩
        cases k <;> simp only [xIn, Bool.and_eq_true, Bool.or_eq_true] at h ⊢
        all_goals first
          | exact hL h
          | exact ⟨h.1, hL h.2⟩
          | exact absurd (atomIn_isAtom h.1) ha
          | exact h.elim (fun h => absurd (atomIn_isAtom h.1) ha) (fun h => .inr ⟨h.1, hL h.2⟩)
    | _ => first | rfl | simp [xIn, atomIn] at h

theorem xIn_tsIn (am : VMap) : ∀ (n : Nat) (t : Term), t.size ≤ n →
    xIn (fun t => (am.find t).isSome) t = true → tsIn am false t = true := by
  intro n
  induction n with
  | zero => intro t h; cases t <;> simp [size] at h
  | succ n ih =>
    intro t hn h
    cases t with
    | app k s ts =>
      have hL : xInL (fun t => (am.find t).isSome) ts = true → tsInL am false ts = true := by
        intro hl
        rw [xInL_iff] at hl
        rw [tsInL_iff]
        intro u hu
        have := size_child (k := k) (s := s) hu
        exact ih u (by omega) (hl u hu)
      have hrel : (k = .eq ∨ k = .distinct) → ((atomIn (.app k s ts) = true ∧
          (am.find (.app k s ts)).isSome = true) ∨ (ts.all (fun t => t.sort == .bool) = true ∧
            xInL (fun t => (am.find t).isSome) ts = true)) →
          (if isAtom (.app k s ts) = true then (am.find (.app k s ts)).isSome
            else ts.all (fun t => t.sort == .bool) && tsInL am false ts) = true := by
        intro hk h
        rcases h with h | h
        · rw [if_pos (atomIn_isAtom h.1)]; exact h.2
        · have := boolRel_notAtom hk (s := s) h.1 fun t ht =>
                 xIn_dnfIn _ _ t (Nat.le_refl _) ((xInL_iff _ _).1 h.2 t ht)
          rw [if_neg (by rw [this]; simp), h.1, hL h.2]; rfl
      cases k <;> simp only [xIn, Bool.and_eq_true, Bool.or_eq_true] at h <;>
        simp only [tsIn, Bool.and_eq_true, Bool.or_eq_true]
      all_goals first
        | exact hL h
        | exact ⟨h.1, hL h.2⟩
        | exact h.2
        | exact hrel (by first | exact .inl rfl | exact .inr rfl) h
        | (simp [atomIn] at h; done)
        | exact ⟨by simpa [atomIn] using h.1, h.2⟩
        | (refine .inr ⟨rfl, ?_⟩
           rw [List.all_eq_true]
           exact fun t ht => dnfIn_negBin (xIn_dnfIn _ _ t (Nat.le_refl _) ((xInL_iff _ _).1 h t ht)))
    | _ => first | rfl | simp [xIn, atomIn] at h

/-! ### negation, case by case -/

theorem mkDistinctV_arith (c : Cfg) {ρ : Env} {a b : Term}
    (har : a.isArithTerm = true ∧ b.isArithTerm = true) (h1 : Ev ρ a) (h2 : Ev ρ b) :
    mkDistinctV c [a, b] = mkOper c .bool .distinct [a, b] := by
  have hna := arithTerm_IsN har.1 h1
  have hnb := arithTerm_IsN har.2 h2
  have hev : ∀ u ∈ [a, b], IsN ρ u := by
    intro u hu; simp at hu; rcases hu with rfl | rfl <;> assumption
  have b1 := badSort_nums hev (t := a) (by simp)
  have b2 := badSort_nums hev (t := b) (by simp)
  have f1 : a.isFalse = false := by
    have := hna.sort; cases a <;> simp_all [Term.isFalse, Term.sort, Srt.isNum]
  have f2 : b.isFalse = false := by
    have := hnb.sort; cases b <;> simp_all [Term.isFalse, Term.sort, Srt.isNum]
  simp [mkDistinctV, scan, h1.not_err, h2.not_err, b1, b2, f1, f2]

theorem mkEqV_arith (c : Cfg) {ρ : Env} {a b : Term}
    (har : a.isArithTerm = true ∧ b.isArithTerm = true) (h1 : Ev ρ a) (h2 : Ev ρ b) :
    mkEqV c [a, b] = mkOper c .bool .eq [a, b] := by
  have hna := arithTerm_IsN har.1 h1
  have hnb := arithTerm_IsN har.2 h2
  rw [mkEqV.eq_def]
  simp only
  have := hna.sort; have hbs := hnb.sort
  rw [mkEq2.eq_def, if_neg (by simp [mismatch_num hna.sort hnb.sort])]
  split <;> simp_all [Term.sort, Srt.isNum, isArithTerm]

/-- What `mkNot` of a formula can return: a constant, the operand of a `not`, its argument under `not`,
or (for an atom) an atom over the same operands. -/
theorem mkNot_cases (c : Cfg) (ρ : Env) (t : Term) (hf : DFit c t) (hok : dnfIn t = true)
    (h : IsB ρ t) :
    mkNot c t = .tt ∨ mkNot c t = .ff ∨ (∃ s, t = .app .not s [mkNot c t]) ∨
      mkNot c t = .app .not .bool [t] ∨
      ∃ k k' s us ps, t = .app k s ps ∧ mkNot c t = .app k' .bool us ∧ us.Perm ps ∧
        atomIn t = true ∧ atomIn (mkNot c t) = true := by
  have hB : IsB ρ (mkNot c t) := ⟨_, mkNot_val c ρ t hf (dnfIn_negBin hok) h⟩
  have hnot : t ≠ .tt → t ≠ .ff → mkOper c .bool .not [t] = .app .not .bool [t] := by
    intro h1 h2
    have : simp1 c .not t = .unknown := by
      cases t <;> simp_all [simp1, Term.isTrue, Term.isFalse]
    simp [mkOper, simp, this, isUnknown, isComm]
  have hrel : ∀ {k k' : Kind} {s : Srt} {a b : Term}, isRelK k' = true → t = .app k s [a, b] →
      (isCmp k' = true ∧ isCmp k = true ∨
        ((k = .eq ∨ k = .distinct) ∧ a.isArithTerm = true ∧ b.isArithTerm = true)) →
      mkNot c t = mkOper c .bool k' [a, b] → IsB ρ (mkOper c .bool k' [a, b]) →
      mkNot c t = .tt ∨ mkNot c t = .ff ∨ (∃ s, t = .app .not s [mkNot c t]) ∨
      mkNot c t = .app .not .bool [t] ∨
      ∃ k k' s us ps, t = .app k s ps ∧ mkNot c t = .app k' .bool us ∧ us.Perm ps ∧
        atomIn t = true ∧ atomIn (mkNot c t) = true := by
    intro k k' s a b hk ht ha he hB
    rw [he]
    rcases mkOper_rel c k' hk [a, b] with h | h | h | ⟨us, h, hp⟩
    · exact .inl h
    · exact .inr (.inl h)
    · rw [h] at hB; obtain ⟨x, hx⟩ := hB; simp [eval] at hx
    · refine .inr (.inr (.inr (.inr ⟨k, k', s, us, [a, b], ht, h, hp, ?_, ?_⟩)))
      · rw [ht]
        rcases ha with ha | ha
        · cases k <;> simp [isCmp] at ha <;> simp [atomIn]
        · rcases ha.1 with rfl | rfl <;> simp [atomIn, ha.2]
      · rw [h]
        have hlen : us.length = 2 := hp.length_eq
        rcases ha with ha | ha
        · have ha := ha.1
          cases k' <;> simp [isCmp] at ha <;> simp [atomIn, hlen]
        · have hall : us.all isArithTerm = true := by
            rw [List.all_eq_true]; intro u hu
            have := hp.mem_iff.1 hu; simp at this
            rcases this with rfl | rfl
            · exact ha.2.1
            · exact ha.2.2
          cases k' <;> simp [isRelK, isCmp] at hk <;> simp [atomIn, hlen, -List.all_eq_true, hall]
  have key := @hrel
  revert hB hrel
  rw [mkNot.eq_def, if_neg (by simp [h.sort])]
  split
  · rename_i s ts
    intro _ _
    obtain ⟨u, rfl, h1, h2⟩ := not_child h
    exact .inr (.inr (.inl ⟨s, rfl⟩))
  · intro _ _; simp
  · intro _ _; simp
  · rename_i s ts
    intro hB hrel
    split
    · rename_i hn
      rw [if_pos hn] at hB
      have hb := negBin_neg (dnfIn_negBin hok) hn
      simp only [binTop, beq_iff_eq] at hb
      obtain ⟨a, b, rfl⟩ := len2 hb
      obtain ⟨h1, h2, h3, h4⟩ := ev_eq2 h
      have har : a.isArithTerm = true ∧ b.isArithTerm = true := by
        simp only [dnfIn, atomIn, Bool.or_eq_true, Bool.and_eq_true, List.all_cons, List.all_nil,
          beq_iff_eq, Bool.and_true, List.isEmpty_cons, Bool.not_false, true_and] at hok
        simp only [negatable, Bool.or_eq_true, Bool.and_eq_true] at hn
        rcases hok with ((hk | hk) | hk) | hk
        · exact hk.2
        · have := bvTerm_neg (.inl hk.1); simp [this] at hn
        · have := bvTerm_neg (.inr hk.1); simp [this] at hn
        · have := boolOperand hk.1.1 ((dnfInL_iff _).1 hk.2 a (by simp)); simp [this] at hn
      have := mkDistinctV_arith c har h1 h2
      rw [if_pos hn] at hrel
      rw [this] at hB
      exact hrel rfl rfl (.inr ⟨.inl rfl, har⟩) this hB
    · rename_i hn
      exact .inr (.inr (.inr (.inl (hnot (by simp) (by simp)))))
  · rename_i s ts
    intro hB hrel
    split
    · rename_i hn
      rw [if_pos hn] at hB
      have hb := negBin_neg (dnfIn_negBin hok) hn
      simp only [binTop, beq_iff_eq] at hb
      obtain ⟨a, b, rfl⟩ := len2 hb
      obtain ⟨h1, h2, h3, h4⟩ := ev_distinct2 h
      have har : a.isArithTerm = true ∧ b.isArithTerm = true := by
        simp only [dnfIn, atomIn, Bool.or_eq_true, Bool.and_eq_true, List.all_cons, List.all_nil,
          beq_iff_eq, Bool.and_true, List.isEmpty_cons, Bool.not_false, true_and] at hok
        simp only [negatable] at hn
        rcases hok with ((hk | hk) | hk) | hk
        · exact hk.2
        · have := bvTerm_neg (.inl hk.1); simp [this] at hn
        · have := bvTerm_neg (.inr hk.1); simp [this] at hn
        · have := boolOperand hk.1.1 ((dnfInL_iff _).1 hk.2 a (by simp)); simp [this] at hn
      have := mkEqV_arith c har h1 h2
      rw [if_pos hn] at hrel
      rw [this] at hB
      exact hrel rfl rfl (.inr ⟨.inr rfl, har⟩) this hB
    · rename_i hn
      exact .inr (.inr (.inr (.inl (hnot (by simp) (by simp)))))
  all_goals first
    | (intro _ _; exact .inr (.inr (.inr (.inl (hnot (by assumption) (by assumption))))))
    | skip
  all_goals
    rename_i s ts
    intro hB hrel
    have hb := negBin_neg (dnfIn_negBin hok) rfl
    simp only [binTop, beq_iff_eq] at hb
    obtain ⟨a, b, rfl⟩ := len2 hb
    simp only [List.getD_cons_zero, List.getD_cons_succ, mkGe2, mkGt2, mkLe2, mkLt2, mkCmp2] at hB hrel ⊢
    split at hB
    · split at hB
      · rename_i e1 e2
        rw [if_pos e1, if_pos e2] at hrel ⊢
        exact hrel rfl rfl (.inl ⟨rfl, rfl⟩) rfl hB
      · obtain ⟨x, hx⟩ := hB; simp [eval] at hx
    · split at hB
      · rename_i e1 e2
        rw [if_neg e1, if_pos e2]
        simp
      · rename_i e1 e2
        rw [if_neg e1, if_neg e2] at hrel ⊢
        exact hrel rfl rfl (.inl ⟨rfl, rfl⟩) rfl hB

/-! ### the invariant of the conversion -/

theorem noFresh_app {n : Nat} {k : Kind} {s : Srt} {ts : List Term} (h : ∀ t ∈ ts, noFresh n t) :
    noFresh n (.app k s ts) := by
  intro i hi hx
  simp only [subs, List.mem_cons] at hx
  rcases hx with hx | hx
  · simp [tempVar] at hx
  · obtain ⟨t, ht, hx⟩ := mem_subsL.1 hx
    exact h t ht i hi hx

theorem noFresh_tt (n : Nat) : noFresh n .tt := by intro i _ h; simp [subs, tempVar] at h
theorem noFresh_ff (n : Nat) : noFresh n .ff := by intro i _ h; simp [subs, tempVar] at h

theorem noFresh.mono {n m : Nat} (h : n ≤ m) {t : Term} (ht : noFresh n t) : noFresh m t :=
  fun i hi => ht i (by omega)

/-- a formula the conversion handles, over atoms satisfying `p` and variables that are not fresh -/
structure NX (c : Cfg) (ρ : Env) (n : Nat) (p : Term → Bool) (t : Term) : Prop where
  fit : DFit c t
  ok : xIn p t = true
  isB : IsB ρ t
  fr : noFresh n t

section
variable {c : Cfg} {ρ : Env} {n : Nat} {p : Term → Bool}

theorem NX.tt {u : Term} (h : DFit c u) : NX c ρ n p .tt := ⟨h.other rfl, rfl, IsB_tt ρ, noFresh_tt n⟩
theorem NX.ff {u : Term} (h : DFit c u) : NX c ρ n p .ff := ⟨h.other rfl, rfl, IsB_ff ρ, noFresh_ff n⟩

theorem mkAnd_NX {u : Term} (hu : DFit c u) {ts : List Term} (h : ∀ t ∈ ts, NX c ρ n p t) :
    NX c ρ n p (mkAnd c ts) := by
  have hB : IsB ρ (mkAnd c ts) := ⟨_, mkAnd_val c fun t ht => (h t ht).isB⟩
  rcases mkAnd_cases c ts with h1 | h1 | h1 | h1 | ⟨l, h1, h2, _, h3⟩
  · rw [h1]; exact NX.tt hu
  · rw [h1]; exact NX.ff hu
  · rw [h1] at hB; obtain ⟨x, hx⟩ := hB; simp [eval] at hx
  · exact h _ h1
  · rw [h1] at hB ⊢
    refine ⟨dfit_app (by rintro rfl; simp at h2) fun t ht => (h t (h3 t ht).1).fit, ?_, hB,
      noFresh_app fun t ht => (h t (h3 t ht).1).fr⟩
    simp only [xIn, xInL_iff]; exact fun t ht => (h t (h3 t ht).1).ok

theorem mkOr_NX {u : Term} (hu : DFit c u) {ts : List Term} (h : ∀ t ∈ ts, NX c ρ n p t) :
    NX c ρ n p (mkOr c ts) := by
  have hB : IsB ρ (mkOr c ts) := ⟨_, mkOr_val c fun t ht => (h t ht).isB⟩
  rcases mkOr_cases c ts with h1 | h1 | h1 | h1 | ⟨l, h1, h2, _, h3⟩
  · rw [h1]; exact NX.tt hu
  · rw [h1]; exact NX.ff hu
  · rw [h1] at hB; obtain ⟨x, hx⟩ := hB; simp [eval] at hx
  · exact h _ h1
  · rw [h1] at hB ⊢
    refine ⟨dfit_app (by rintro rfl; simp at h2) fun t ht => (h t (h3 t ht).1).fit, ?_, hB,
      noFresh_app fun t ht => (h t (h3 t ht).1).fr⟩
    simp only [xIn, xInL_iff]; exact fun t ht => (h t (h3 t ht).1).ok

theorem xIn_atom {t : Term} (h : atomIn t = true) (hp : p t = true) : xIn p t = true := by
  cases t with
  | app k s ts =>
    cases k <;> first
      | (simp [atomIn] at h; done)
      | simp only [xIn, h, hp, Bool.and_self, Bool.true_or]
  | _ => simp [atomIn] at h

theorem mkNot_NX {t : Term} (h : NX c ρ n (fun _ => true) t) :
    NX c ρ n (fun _ => true) (mkNot c t) := by
  have hd := xIn_dnfIn _ _ t (Nat.le_refl _) h.ok
  have hB : IsB ρ (mkNot c t) := ⟨_, mkNot_val c ρ t h.fit (dnfIn_negBin hd) h.isB⟩
  rcases mkNot_cases c ρ t h.fit hd h.isB with h1 | h1 | ⟨s, h1⟩ | h1 | ⟨k, k', s, us, ps, h1, h2, h3, h4, h5⟩
  · rw [h1]; exact NX.tt h.fit
  · rw [h1]; exact NX.ff h.fit
  · refine ⟨?_, ?_, hB, ?_⟩
    · have := h.fit; rw [h1] at this; exact this.child (by simp)
    · have := h.ok; rw [h1] at this; simpa [xIn, xInL] using this
    · have := h.fr; rw [h1] at this; exact noFresh_kid this (by simp)
  · rw [h1] at hB ⊢
    exact ⟨dfit_app (by simp) (by simpa using h.fit), by simp [xIn, xInL, h.ok], hB,
      noFresh_app (by simpa using h.fr)⟩
  · have hfit := h.fit
    have hfr := h.fr
    refine ⟨?_, xIn_atom h5 rfl, hB, ?_⟩
    · rw [h2]
      rw [h1] at hfit
      by_cases hne : us = []
      · subst hne
        exact hfit.other (by simp [noReals, noRealsL])
      · exact dfit_app hne fun t ht => hfit.child (h3.mem_iff.1 ht)
    · rw [h2]
      rw [h1] at hfr
      exact noFresh_app fun t ht => noFresh_kid hfr (h3.mem_iff.1 ht)

theorem cnfIn_binary : ∀ (n : Nat) (t : Term), t.size ≤ n → cnfIn t = true → binary t = true := by
  intro n
  induction n with
  | zero => intro t h; cases t <;> simp [size] at h
  | succ n ih =>
    intro t hn h
    cases t with
    | app k s ts =>
      have hL : cnfInL ts = true → binaryL ts = true := by
        intro hl
        rw [cnfInL_iff] at hl
        rw [binaryL_iff]
        intro u hu
        have := size_child (k := k) (s := s) hu
        exact ih u (by omega) (hl u hu)
      cases k <;> simp only [cnfIn, Bool.and_eq_true] at h <;>
        simp only [binary, Bool.and_eq_true] <;> first
        | exact hL h
        | exact ⟨h.1, hL h.2⟩
        | exact dnfIn_negBin (xIn_dnfIn _ _ _ (Nat.le_refl _) h)
    | _ => simp [binary, negBin]

theorem nnf_NX : ∀ (m : Nat) (t : Term) (neg : Bool), t.size ≤ m → DFit c t → cnfIn t = true →
    IsB ρ t → noFresh n t → NX c ρ n (fun _ => true) (nnf c neg t) := by
  intro m
  induction m with
  | zero => intro t _ h; cases t <;> simp [size] at h
  | succ m ih =>
    intro t neg hm hf hb h hfr
    have hrec : ∀ (k : Kind) (s : Srt) (ts : List Term), t = .app k s ts → cnfInL ts = true →
        ∀ u ∈ ts, IsB ρ u → ∀ neg, NX c ρ n (fun _ => true) (nnf c neg u) := by
      rintro k s ts rfl hl u hu hB neg
      have := size_child (k := k) (s := s) hu
      exact ih u neg (by omega) (hf.child hu) ((cnfInL_iff ts).1 hl u hu) hB (noFresh_kid hfr hu)
    unfold nnf
    split
    · rename_i s u us
      obtain ⟨v, hv, h1, h2⟩ := not_child h
      simp at hv; obtain ⟨rfl, rfl⟩ := hv
      exact hrec _ _ _ rfl (by simpa [cnfIn] using hb) u (by simp) h1 _
    · rename_i s ts
      obtain ⟨h1, h2⟩ := and_node h
      have h3 : ∀ u ∈ nnfL c neg ts, NX c ρ n (fun _ => true) u := by
        rw [nnfL_map]; intro u hu
        obtain ⟨v, hv, rfl⟩ := List.mem_map.1 hu
        exact hrec _ _ _ rfl (by simpa [cnfIn] using hb) v hv (h1 v hv) neg
      split
      · exact mkOr_NX hf h3
      · exact mkAnd_NX hf h3
    · rename_i s ts
      obtain ⟨h1, h2⟩ := or_node h
      have h3 : ∀ u ∈ nnfL c neg ts, NX c ρ n (fun _ => true) u := by
        rw [nnfL_map]; intro u hu
        obtain ⟨v, hv, rfl⟩ := List.mem_map.1 hu
        exact hrec _ _ _ rfl (by simpa [cnfIn] using hb) v hv (h1 v hv) neg
      split
      · exact mkAnd_NX hf h3
      · exact mkOr_NX hf h3
    · rename_i s a b l
      simp only [cnfIn, Bool.and_eq_true, beq_iff_eq] at hb
      have hl : l = [] := by cases l <;> simp_all
      subst hl
      obtain ⟨h1, h2, h3⟩ := implies_node2 h
      have ra := hrec _ _ _ rfl hb.2 a (by simp) h1
      have rb := hrec _ _ _ rfl hb.2 b (by simp) h2
      split
      · refine mkAnd_NX hf ?_
        intro u hu; simp at hu; rcases hu with rfl | rfl
        · exact ra _
        · exact rb _
      · refine mkOr_NX hf ?_
        intro u hu; simp at hu; rcases hu with rfl | rfl
        · exact ra _
        · exact rb _
    · rename_i s a b d l
      obtain ⟨a', b', d', he, h1, h2, h3, h4⟩ := ite_node h
      simp only [List.cons.injEq] at he
      obtain ⟨rfl, rfl, rfl, rfl⟩ := he
      have hb : cnfInL [a, b, d] = true := by simpa [cnfIn] using hb
      have ra := hrec _ _ _ rfl hb a (by simp) h1
      have rb := hrec _ _ _ rfl hb b (by simp) h2
      have rd := hrec _ _ _ rfl hb d (by simp) h3
      rw [if_pos (by simp [h2.sort])]
      refine mkOr_NX hf ?_
      intro u hu; simp at hu; rcases hu with rfl | rfl
      · refine mkAnd_NX hf ?_
        intro u hu; simp at hu; rcases hu with rfl | rfl
        · exact ra _
        · exact rb _
      · refine mkAnd_NX hf ?_
        intro u hu; simp at hu; rcases hu with rfl | rfl
        · exact ra _
        · exact rd _
    · rename_i x1 x2 x3 x4 x5
      have hx : xIn (fun _ => true) t = true := by
        unfold cnfIn at hb
        split at hb
        · rename_i s ts
          obtain ⟨v, rfl, _⟩ := not_child h
          exact absurd rfl (x1 s v [])
        · rename_i s ts; exact absurd rfl (x2 s ts)
        · rename_i s ts; exact absurd rfl (x3 s ts)
        · rename_i s ts
          obtain ⟨a', b', d', rfl, _⟩ := ite_node h
          exact absurd rfl (x5 s a' b' d' [])
        · rename_i s ts
          simp only [Bool.and_eq_true, beq_iff_eq] at hb
          obtain ⟨a, b, rfl⟩ := len2 hb.1
          exact absurd rfl (x4 s a b [])
        · exact hb
      have hn : NX c ρ n (fun _ => true) t := ⟨hf, hx, h, hfr⟩
      cases neg
      · simpa using hn
      · simpa using mkNot_NX hn

end

end SMT
