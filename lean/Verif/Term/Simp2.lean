import Verif.Term.Simp
/-!
# Folding three or more operands, and `mkOper`
-/
namespace SMT
open Term

/-- the left-associative kinds that `simp_oper` folds pair by pair -/
def isLeft : Kind → Bool
  | .and | .or | .xor | .add | .mul | .sub => true
  | _ => false

attribute [local simp] Rat.add_zero Rat.zero_add Rat.mul_one Rat.one_mul rat_zero_sub rat_sub_zero

theorem bval_of {ρ : Env} {t : Term} {x : Bool} (h : eval ρ t = some (.b x)) : bval ρ t = x := by
  simp [bval, h]
theorem nval_of {ρ : Env} {t : Term} {x : Rat} (h : eval ρ t = some (.n x)) : nval ρ t = x := by
  simp [nval, h]

theorem left_assoc (ρ : Env) (k : Kind) (hk : isLeft k = true) (l m : Term) (ts : List Term)
    (s : Srt) (v : Val) (hts : ts ≠ []) (h : evalApp ρ k (l :: m :: ts) s = some v) :
    ∃ w, evalApp ρ k [l, m] s = some w ∧
      ∀ a, eval ρ a = some w → evalApp ρ k (a :: ts) s = some v := by
  cases k <;> simp [isLeft] at hk
  · obtain ⟨h1, rfl⟩ := (evalApp_and ρ _ s v).1 h
    refine ⟨_, (evalApp_and ρ _ s _).2 ⟨fun t ht => h1 t (by simp at ht ⊢; grind), rfl⟩, ?_⟩
    intro a ha
    refine (evalApp_and ρ _ s _).2 ⟨?_, ?_⟩
    · intro t ht
      rcases List.mem_cons.1 ht with rfl | ht
      · exact ⟨_, ha⟩
      · exact h1 t (by simp [ht])
    · have := bval_of ha; simp_all [Bool.and_assoc]
  · obtain ⟨h1, rfl⟩ := (evalApp_or ρ _ s v).1 h
    refine ⟨_, (evalApp_or ρ _ s _).2 ⟨fun t ht => h1 t (by simp at ht ⊢; grind), rfl⟩, ?_⟩
    intro a ha
    refine (evalApp_or ρ _ s _).2 ⟨?_, ?_⟩
    · intro t ht
      rcases List.mem_cons.1 ht with rfl | ht
      · exact ⟨_, ha⟩
      · exact h1 t (by simp [ht])
    · have := bval_of ha; simp_all [Bool.or_assoc]
  · obtain ⟨h1, rfl⟩ := (evalApp_xor ρ _ s v).1 h
    refine ⟨_, (evalApp_xor ρ _ s _).2 ⟨fun t ht => h1 t (by simp at ht ⊢; grind), rfl⟩, ?_⟩
    intro a ha
    refine (evalApp_xor ρ _ s _).2 ⟨?_, ?_⟩
    · intro t ht
      rcases List.mem_cons.1 ht with rfl | ht
      · exact ⟨_, ha⟩
      · exact h1 t (by simp [ht])
    · have := bval_of ha; simp_all
  · obtain ⟨_, h1, rfl⟩ := (evalApp_add ρ _ s v).1 h
    refine ⟨_, (evalApp_add ρ _ s _).2 ⟨by simp, fun t ht => h1 t (by simp at ht ⊢; grind), rfl⟩, ?_⟩
    intro a ha
    refine (evalApp_add ρ _ s _).2 ⟨by simp, ?_, ?_⟩
    · intro t ht
      rcases List.mem_cons.1 ht with rfl | ht
      · exact ⟨_, ha⟩
      · exact h1 t (by simp [ht])
    · have := nval_of ha; simp_all; grind
  · obtain ⟨_, h1, rfl⟩ := (evalApp_mul ρ _ s v).1 h
    refine ⟨_, (evalApp_mul ρ _ s _).2 ⟨by simp, fun t ht => h1 t (by simp at ht ⊢; grind), rfl⟩, ?_⟩
    intro a ha
    refine (evalApp_mul ρ _ s _).2 ⟨by simp, ?_, ?_⟩
    · intro t ht
      rcases List.mem_cons.1 ht with rfl | ht
      · exact ⟨_, ha⟩
      · exact h1 t (by simp [ht])
    · have := nval_of ha; simp_all [ratProd]; grind
  · obtain ⟨_, h1, rfl⟩ := (evalApp_sub ρ _ s v).1 h
    refine ⟨_, (evalApp_sub ρ _ s _).2 ⟨by simp, fun t ht => h1 t (by simp at ht ⊢; grind), rfl⟩, ?_⟩
    intro a ha
    refine (evalApp_sub ρ _ s _).2 ⟨?_, ?_, ?_⟩
    · cases ts <;> simp_all
    · intro t ht
      rcases List.mem_cons.1 ht with rfl | ht
      · exact ⟨_, ha⟩
      · exact h1 t (by simp [ht])
    · have := nval_of ha; simp_all [ratSub]; grind

theorem simpFold_sound (c : Cfg) (ρ : Env) (k : Kind) (hk : isLeft k = true) (s : Srt) (v : Val) :
    ∀ (ts : List Term) (acc t : Term), Fit c acc → (∀ u ∈ t :: ts, Fit c u) →
      evalApp ρ k (acc :: t :: ts) s = some v → Right c ρ v (simpFold c k acc (t :: ts)) := by
  intro ts
  induction ts with
  | nil =>
    intro acc t fa ft h
    have := simp2_sound c ρ k acc t s v fa (ft t (by simp)) h
    simp only [simpFold]
    split
    · exact .inl rfl
    · exact this
  | cons u ts ih =>
    intro acc t fa ft h
    obtain ⟨w, hw, hrec⟩ := left_assoc ρ k hk acc t (u :: ts) s v (by simp) h
    have := simp2_sound c ρ k acc t s w fa (ft t (by simp)) hw
    rw [simpFold]
    split
    · exact .inl rfl
    · rename_i hu
      rcases this with h | ⟨h1, h2⟩
      · rw [h] at hu; simp [isUnknown] at hu
      · exact ih _ u h2 (fun x hx => ft x (by simp [List.mem_cons] at hx ⊢; grind)) (hrec _ h1)

/-! ### equality of many -/

theorem eqRest_sound (c : Cfg) (ρ : Env) (k0 : Term) (f0 : Fit c k0) (ts : List Term)
    (ft : ∀ t ∈ ts, Fit c t) (hs : ∀ t ∈ ts, (val ρ k0).sameSort (val ρ t) = true) :
    match eqRest c k0 ts with
    | none => ∃ t ∈ ts, val ρ k0 ≠ val ρ t
    | some qs => (∀ q ∈ qs, q ∈ ts) ∧ ∀ t ∈ ts, t ∉ qs → val ρ k0 = val ρ t := by
  induction ts with
  | nil => simp [eqRest]
  | cons t ts ih =>
    have ih := ih (fun u hu => ft u (by simp [hu])) (fun u hu => hs u (by simp [hu]))
    have h2 := simp2_eqfold c ρ k0 t f0 (ft t (by simp)) (hs t (by simp))
    rw [eqRest]
    rcases h2 with h2 | h2
    · simp only [h2, isUnknown, if_true]
      cases h3 : eqRest c k0 ts with
      | none => rw [h3] at ih; obtain ⟨u, hu, h4⟩ := ih; exact ⟨u, by simp [hu], h4⟩
      | some qs =>
        rw [h3] at ih
        simp only [Option.map_some]
        refine ⟨?_, ?_⟩
        · intro q hq; rcases List.mem_cons.1 hq with rfl | hq
          · simp
          · simp [ih.1 q hq]
        · intro u hu hn; rcases List.mem_cons.1 hu with rfl | hu
          · simp at hn
          · exact ih.2 u hu (by simp at hn; grind)
    · by_cases he : val ρ k0 = val ρ t
      · simp only [he, decide_true, ofBool, if_true] at h2
        simp only [h2, isUnknown, Term.isTrue, Bool.false_eq_true, if_false, if_true]
        cases h3 : eqRest c k0 ts with
        | none => rw [h3] at ih; obtain ⟨u, hu, h4⟩ := ih; exact ⟨u, by simp [hu], h4⟩
        | some qs =>
          rw [h3] at ih
          refine ⟨fun q hq => by simp [ih.1 q hq], ?_⟩
          intro u hu hn; rcases List.mem_cons.1 hu with rfl | hu
          · exact he
          · exact ih.2 u hu hn
      · simp only [he, decide_false, ofBool, Bool.false_eq_true, if_false] at h2
        simp only [h2, isUnknown, Term.isTrue, Term.isFalse, Bool.false_eq_true, if_false, if_true]
        exact ⟨t, by simp, he⟩

theorem mem_eraseIdx_or {ts : List Term} {i : Nat} (hi : i < ts.length) (t : Term) :
    t ∈ ts ↔ t = ts.getD i .unknown ∨ t ∈ ts.eraseIdx i := by
  have h : ts.getD i .unknown = ts[i] := by simp [List.getD, hi]
  rw [h]
  constructor
  · intro ht
    obtain ⟨j, hj, rfl⟩ := List.getElem_of_mem ht
    by_cases hji : j = i
    · subst hji; exact .inl rfl
    · right; exact (List.mem_eraseIdx_iff_getElem).2 ⟨j, hj, hji, rfl⟩
  · rintro (rfl | ht)
    · exact List.getElem_mem hi
    · exact List.mem_of_mem_eraseIdx ht

theorem simpEqN_sound (c : Cfg) (ρ : Env) (s : Srt) : ∀ (ps : List Term) (v : Val),
    (∀ t ∈ ps, Fit c t) → evalApp ρ .eq ps s = some v → Right c ρ v (simpEqN c ps) := by
  intro ps
  induction hn : ps.length using Nat.strongRecOn generalizing ps with
  | ind n ih =>
  intro v ft h
  obtain ⟨hl, hev, hs, rfl⟩ := (evalApp_eq ρ _ s v).1 h
  rw [simpEqN]
  split
  · exact .inl rfl
  · rename_i i hi
    have hlt := firstConst_lt ps i hi
    have hmem := mem_eraseIdx_or hlt
    have hk0 : ps.getD i .unknown ∈ ps := (hmem _).2 (.inl rfl)
    have f0 := ft _ hk0
    generalize hk : ps.getD i .unknown = k0 at *
    have key := eqRest_sound c ρ k0 f0 (ps.eraseIdx i)
      (fun t ht => ft t ((hmem t).2 (.inr ht)))
      (fun t ht => hs k0 hk0 t ((hmem t).2 (.inr ht)))
    split
    · rename_i h2
      rw [h2] at key
      obtain ⟨t, ht, hne⟩ := key
      refine right_ofBool f0 false _ ?_
      symm; rw [decide_eq_false_iff_not]
      intro hall; exact hne (hall _ hk0 _ ((hmem t).2 (.inr ht)))
    · rename_i h2
      rw [h2] at key
      refine right_ofBool f0 true _ ?_
      symm; rw [decide_eq_true_eq]
      have : ∀ t ∈ ps, val ρ k0 = val ρ t := by
        intro t ht; rcases (hmem t).1 ht with rfl | ht
        · rfl
        · exact key.2 t ht (by simp)
      intro t ht u hu; rw [← this t ht, this u hu]
    · rename_i q h2
      rw [h2] at key
      have hq : q ∈ ps := (hmem q).2 (.inr (key.1 q (by simp)))
      refine simp2_sound c ρ .eq q k0 s _ (ft q hq) f0 ?_
      refine (evalApp_eq ρ _ s _).2 ⟨by simp, ?_, ?_, ?_⟩
      · intro t ht; simp at ht; rcases ht with rfl | rfl <;> exact hev _ (by assumption)
      · intro t ht u hu; simp at ht hu
        rcases ht with rfl | rfl <;> rcases hu with rfl | rfl <;>
          exact hs _ (by assumption) _ (by assumption)
      · congr 1; rw [decide_eq_decide]
        constructor
        · intro h t ht u hu; simp at ht hu
          rcases ht with rfl | rfl <;> rcases hu with rfl | rfl <;>
            exact h _ (by assumption) _ (by assumption)
        · intro h
          have hqk : val ρ k0 = val ρ q := h _ (by simp) _ (by simp)
          have : ∀ t ∈ ps, val ρ k0 = val ρ t := by
            intro t ht; rcases (hmem t).1 ht with rfl | ht
            · rfl
            · by_cases htq : t = q
              · rw [htq]; exact hqk
              · exact key.2 t ht (by simpa using htq)
          intro t ht u hu; rw [← this t ht, this u hu]
    · rename_i q1 q2 qs h2
      rw [h2] at key
      split
      · exact .inl rfl
      · rename_i hlen
        have hle := eqRest_length c _ _ _ h2
        rw [List.length_eraseIdx_of_lt hlt] at hle
        have hsub : ∀ t ∈ q1 :: q2 :: qs ++ [k0], t ∈ ps := by
          intro t ht
          rcases List.mem_append.1 ht with ht | ht
          · exact (hmem t).2 (.inr (key.1 t ht))
          · simp at ht; rw [ht]; exact hk0
        refine ih _ ?_ _ rfl _ (fun t ht => ft t (hsub t ht)) ?_
        · simp at hle hlen ⊢; omega
        · refine (evalApp_eq ρ _ s _).2 ⟨by simp, fun t ht => hev t (hsub t ht),
            fun t ht u hu => hs t (hsub t ht) u (hsub u hu), ?_⟩
          congr 1; rw [decide_eq_decide]
          constructor
          · intro h t ht u hu; exact h t (hsub t ht) u (hsub u hu)
          · intro h
            have : ∀ t ∈ ps, val ρ k0 = val ρ t := by
              intro t ht; rcases (hmem t).1 ht with rfl | ht
              · rfl
              · by_cases htq : t ∈ q1 :: q2 :: qs
                · exact h _ (by simp) _ (List.mem_append_left _ htq)
                · exact key.2 t ht htq
            intro t ht u hu; rw [← this t ht, this u hu]

/-! ### distinct -/

theorem distRow_sound (c : Cfg) (ρ : Env) (x : Term) (fx : Fit c x) (ts : List Term)
    (ft : ∀ t ∈ ts, Fit c t) (hs : ∀ t ∈ ts, (val ρ x).sameSort (val ρ t) = true) :
    match distRow c x ts with
    | none => ∃ t ∈ ts, val ρ x = val ρ t
    | some true => True
    | some false => ∀ t ∈ ts, val ρ x ≠ val ρ t := by
  induction ts with
  | nil => simp [distRow]
  | cons t ts ih =>
    have ih := ih (fun u hu => ft u (by simp [hu])) (fun u hu => hs u (by simp [hu]))
    have h2 := simp2_distfold c ρ x t fx (ft t (by simp)) (hs t (by simp))
    rw [distRow]
    rcases h2 with h2 | h2
    · simp only [h2, isUnknown, if_true]
      cases h3 : distRow c x ts with
      | none => rw [h3] at ih; obtain ⟨u, hu, h4⟩ := ih; exact ⟨u, by simp [hu], h4⟩
      | some b => simp
    · by_cases he : val ρ x = val ρ t
      · simp only [he, ne_eq, not_true, decide_false, ofBool, Bool.false_eq_true, if_false] at h2
        simp only [h2, isUnknown, Term.isFalse, Bool.false_eq_true, if_false, if_true]
        exact ⟨t, by simp, he⟩
      · simp only [ne_eq, he, not_false_iff, decide_true, ofBool, if_true] at h2
        simp only [h2, isUnknown, Term.isFalse, Bool.false_eq_true, if_false]
        cases h3 : distRow c x ts with
        | none => rw [h3] at ih; obtain ⟨u, hu, h4⟩ := ih; exact ⟨u, by simp [hu], h4⟩
        | some b =>
          rw [h3] at ih
          cases b with
          | true => trivial
          | false =>
            intro u hu; rcases List.mem_cons.1 hu with rfl | hu
            · exact he
            · exact ih u hu

theorem distRows_sound (c : Cfg) (ρ : Env) (ts : List Term)
    (ft : ∀ t ∈ ts, Fit c t) (hs : ∀ t ∈ ts, ∀ u ∈ ts, (val ρ t).sameSort (val ρ u) = true) :
    match distRows c ts with
    | none => ¬ ts.Pairwise (fun t u => val ρ t ≠ val ρ u)
    | some true => True
    | some false => ts.Pairwise (fun t u => val ρ t ≠ val ρ u) := by
  induction ts with
  | nil => simp [distRows]
  | cons t ts ih =>
    have ih := ih (fun u hu => ft u (by simp [hu]))
      (fun u hu w hw => hs u (by simp [hu]) w (by simp [hw]))
    have hr := distRow_sound c ρ t (ft t (by simp)) ts (fun u hu => ft u (by simp [hu]))
      (fun u hu => hs t (by simp) u (by simp [hu]))
    rw [distRows]
    cases h1 : distRow c t ts with
    | none =>
      rw [h1] at hr; obtain ⟨u, hu, he⟩ := hr
      simp only [List.pairwise_cons]
      intro h; exact h.1 u hu he
    | some a =>
      rw [h1] at hr
      cases h2 : distRows c ts with
      | none => rw [h2] at ih; simp only [Option.map_none, List.pairwise_cons]; grind
      | some b =>
        rw [h2] at ih
        simp only [Option.map_some]
        cases a <;> cases b <;> simp at hr ih ⊢
        exact ⟨hr, ih⟩

/-! ### implication -/

theorem simpImpN_sound (ρ : Env) : ∀ (ts : List Term), ts ≠ [] →
    simpImpN ts = .unknown ∨ simpImpN ts = ofBool (impChain (ts.map (bval ρ))) := by
  intro ts
  induction ts with
  | nil => simp
  | cons t ts ih =>
    intro _
    cases ts with
    | nil =>
      simp only [simpImpN, isTrue_iff, isFalse_iff]
      split
      · rename_i h; subst h; right; simp [bval_tt, impChain, ofBool]
      · split
        · rename_i h; subst h; right; simp [bval_ff, impChain, ofBool]
        · exact .inl rfl
    | cons u ts =>
      have ih := ih (by simp)
      simp only [simpImpN, isTrue_iff, isFalse_iff]
      split
      · rename_i h; subst h; right; simp [bval_ff, impChain, ofBool]
      · split
        · rename_i h
          right
          rcases ih with ih | ih
          · rw [ih] at h; cases h
          · rw [ih] at h
            simp only [List.map_cons, impChain] at *
            cases h3 : impChain (bval ρ u :: ts.map (bval ρ)) <;> simp_all [ofBool]
        · split
          · rename_i h; subst h
            simp only [List.map_cons, impChain, bval_tt, Bool.not_true, Bool.false_or] at *
            exact ih
          · exact .inl rfl

theorem Right.fits {c : Cfg} {ρ : Env} {v : Val} {t : Term} (h : Right c ρ v t)
    (hu : ¬ t.isUnknown = true) : eval ρ t = some v ∧ Fit c t := by
  rcases h with h | h
  · rw [h] at hu; simp [isUnknown] at hu
  · exact h

theorem ofBool_tt {x : Bool} (h : Term.tt = ofBool x) : x = true := by
  cases x <;> simp [ofBool] at h ⊢

/-- `unknown` as the accumulated left operand of a three-operand fold -/
theorem simp2_unknown (c : Cfg) (k : Kind) (hk : isLeft k = true) (r : Term) :
    simp2 c k .unknown r = .unknown ∨ (k = .and ∧ r = .ff ∧ simp2 c k .unknown r = .ff) ∨
      (k = .or ∧ r = .tt ∧ simp2 c k .unknown r = .tt) := by
  cases k <;> simp [isLeft] at hk
  · simp only [simp2, Term.isFalse, Term.isTrue, Bool.false_or, Bool.false_and]
    cases r <;> simp [Term.isFalse]
  · simp only [simp2, Term.isFalse, Term.isTrue, Bool.false_or, Bool.false_and]
    cases r <;> simp [Term.isTrue]
  all_goals
    left
    simp only [simp2, isCInt, isCReal, isZero, Term.isTrue, Term.isFalse, Bool.false_and,
      Bool.false_eq_true, if_false, ite_self]
    try exact ite_self _

theorem simp3_sound (c : Cfg) (ρ : Env) (k : Kind) (l m r : Term) (s : Srt) (v : Val)
    (fl : Fit c l) (fm : Fit c m) (fr : Fit c r)
    (hi : k = .implies → l ≠ .tt ∧ l ≠ .ff ∧ m ≠ .tt ∧ m ≠ .ff)
    (h : evalApp ρ k [l, m, r] s = some v) : Right c ρ v (simp3 c k l m r) := by
  have hleft : isLeft k = true → Right c ρ v (simp2 c k (simp2 c k l m) r) := by
    intro hk
    obtain ⟨w, hw, hrec⟩ := left_assoc ρ k hk l m [r] s v (by simp) h
    rcases simp2_sound c ρ k l m s w fl fm hw with h1 | ⟨h1, h2⟩
    · rw [h1]
      rcases simp2_unknown c k hk r with h2 | ⟨rfl, rfl, h2⟩ | ⟨rfl, rfl, h2⟩
      · exact .inl h2
      · rw [h2]
        obtain ⟨_, rfl⟩ := (evalApp_and ρ _ s v).1 h
        exact right_ofBool fl false _ (by simp [bval_ff])
      · rw [h2]
        obtain ⟨_, rfl⟩ := (evalApp_or ρ _ s v).1 h
        exact right_ofBool fl true _ (by simp [bval_tt])
    · exact simp2_sound c ρ k _ r s v h2 fr (hrec _ h1)
  cases k with
  | and => exact hleft rfl
  | or => exact hleft rfl
  | xor => exact hleft rfl
  | add => exact hleft rfl
  | mul => exact hleft rfl
  | sub => exact hleft rfl
  | implies =>
    obtain ⟨h1, h2, h3, h4⟩ := hi rfl
    obtain ⟨_, _, rfl⟩ := (evalApp_implies ρ _ s v).1 h
    simp only [simp3]
    have : simp2 c .implies l m = .unknown := by
      simp [simp2, isTrue_iff, isFalse_iff, h1, h2, h3, h4]
    rw [this]
    simp only [simp2, Term.isTrue, Term.isFalse, Bool.false_and, Bool.false_or]
    cases hr : r <;> simp [Right]
    exact ⟨by simp [eval, impChain, bval_tt], fl.of_noReal trivial⟩
  | ite =>
    obtain ⟨c', x, y, heq, hc', hx, hy, hs, rfl⟩ := (evalApp_ite ρ _ s v).1 h
    simp only [List.cons.injEq, and_true] at heq
    obtain ⟨rfl, rfl, rfl⟩ := heq
    simp only [simp3, isTrue_iff, isFalse_iff]
    by_cases h1 : l = .tt
    · subst h1; rw [if_pos rfl]; exact .inr ⟨by simp [bval_tt, hx.eval], fm⟩
    · rw [if_neg h1]
      by_cases h2 : l = .ff
      · subst h2; rw [if_pos rfl]; exact .inr ⟨by simp [bval_ff, hy.eval], fr⟩
      · rw [if_neg h2]; exact .inl rfl
  | eq =>
    obtain ⟨_, hev, hs, rfl⟩ := (evalApp_eq ρ _ s v).1 h
    simp only [List.mem_cons, List.not_mem_nil, or_false, forall_eq_or_imp, forall_eq] at hs
    obtain ⟨⟨_, hlm, _⟩, ⟨_, _, hmr⟩, _⟩ := hs
    have h3 : decide (∀ t ∈ [l, m, r], ∀ u ∈ [l, m, r], val ρ t = val ρ u) =
        (decide (val ρ l = val ρ m) && decide (val ρ m = val ρ r)) := by
      rw [Bool.eq_iff_iff]; simp; grind
    rw [h3]
    simp only [simp3]
    split
    · rename_i hi'
      simp only [Bool.and_eq_true] at hi'
      obtain ⟨i, rfl⟩ := (isCInt_iff l).1 hi'.1.1
      obtain ⟨j, rfl⟩ := (isCInt_iff m).1 hi'.1.2
      obtain ⟨k, rfl⟩ := (isCInt_iff r).1 hi'.2
      refine right_ofBool fl _ _ ?_
      simp only [val_of_IsN (IsN_cint ρ _), nval_cint, Val.n.injEq, Rat.intCast_inj, intVal]
      rw [Bool.beq_eq_decide_eq, Bool.beq_eq_decide_eq]
    · rename_i hn
      split
      · rename_i hr
        simp only [Bool.and_eq_true] at hr
        have hc : Exact c := by
          rcases isCReal_cases hr.1.1 fl with ⟨i, rfl⟩ | ⟨_, h⟩
          · rcases isCReal_cases hr.1.2 fm with ⟨i, rfl⟩ | ⟨_, h⟩
            · rcases isCReal_cases hr.2 fr with ⟨i, rfl⟩ | ⟨_, h⟩
              · simp [isCInt] at hn
              · exact h
            · exact h
          · exact h
        refine right_ofBool fl _ _ ?_
        rw [toReal_exact hc hr.1.1 (ρ := ρ), toReal_exact hc hr.1.2 (ρ := ρ),
          toReal_exact hc hr.2 (ρ := ρ), val_of_IsN (isCReal_IsN hr.1.1),
          val_of_IsN (isCReal_IsN hr.1.2), val_of_IsN (isCReal_IsN hr.2)]
        simp only [Val.n.injEq]
        rw [Bool.beq_eq_decide_eq, Bool.beq_eq_decide_eq]
      · split
        · rename_i h2
          simp only [Bool.and_eq_true, isTrue_iff] at h2
          have e1 := simp2_eqfold c ρ l m fl fm hlm
          have e2 := simp2_eqfold c ρ m r fm fr hmr
          rw [h2.1] at e1; rw [h2.2] at e2
          refine right_ofBool fl true _ ?_
          have t1 : decide (val ρ l = val ρ m) = true := ofBool_tt (e1.resolve_left (by simp))
          have t2 : decide (val ρ m = val ρ r) = true := ofBool_tt (e2.resolve_left (by simp))
          rw [t1, t2]; rfl
        · exact .inl rfl
  | distinct =>
    obtain ⟨_, hev, hs, rfl⟩ := (evalApp_distinct ρ _ s v).1 h
    simp only [List.mem_cons, List.not_mem_nil, or_false, forall_eq_or_imp, forall_eq] at hs ⊢
    obtain ⟨⟨_, hlm, hlr⟩, ⟨_, _, hmr⟩, _⟩ := hs
    have h3 : decide ([l, m, r].Pairwise (fun t u => val ρ t ≠ val ρ u)) =
        (decide (val ρ l ≠ val ρ m) && decide (val ρ l ≠ val ρ r) && decide (val ρ m ≠ val ρ r)) := by
      rw [Bool.eq_iff_iff]; simp
    rw [h3]
    simp only [simp3]
    split
    · rename_i hi'
      simp only [Bool.and_eq_true] at hi'
      obtain ⟨i, rfl⟩ := (isCInt_iff l).1 hi'.1.1
      obtain ⟨j, rfl⟩ := (isCInt_iff m).1 hi'.1.2
      obtain ⟨k, rfl⟩ := (isCInt_iff r).1 hi'.2
      refine right_ofBool fl _ _ ?_
      simp only [val_of_IsN (IsN_cint ρ _), nval_cint, ne_eq, Val.n.injEq, Rat.intCast_inj, intVal,
        decide_not, Bool.beq_eq_decide_eq]
    · rename_i hn
      split
      · rename_i hr
        simp only [Bool.and_eq_true] at hr
        have hc : Exact c := by
          rcases isCReal_cases hr.1.1 fl with ⟨i, rfl⟩ | ⟨_, h⟩
          · rcases isCReal_cases hr.1.2 fm with ⟨i, rfl⟩ | ⟨_, h⟩
            · rcases isCReal_cases hr.2 fr with ⟨i, rfl⟩ | ⟨_, h⟩
              · simp [isCInt] at hn
              · exact h
            · exact h
          · exact h
        refine right_ofBool fl _ _ ?_
        rw [toReal_exact hc hr.1.1 (ρ := ρ), toReal_exact hc hr.1.2 (ρ := ρ),
          toReal_exact hc hr.2 (ρ := ρ), val_of_IsN (isCReal_IsN hr.1.1),
          val_of_IsN (isCReal_IsN hr.1.2), val_of_IsN (isCReal_IsN hr.2)]
        simp only [ne_eq, Val.n.injEq, decide_not, Bool.beq_eq_decide_eq]
      · split
        · rename_i h2
          simp only [Bool.and_eq_true, isTrue_iff] at h2
          have e1 := simp2_distfold c ρ l m fl fm hlm
          have e2 := simp2_distfold c ρ l r fl fr hlr
          have e3 := simp2_distfold c ρ m r fm fr hmr
          rw [h2.1.1] at e1; rw [h2.1.2] at e2; rw [h2.2] at e3
          refine right_ofBool fl true _ ?_
          have t1 : decide (val ρ l ≠ val ρ m) = true := ofBool_tt (e1.resolve_left (by simp))
          have t2 : decide (val ρ l ≠ val ρ r) = true := ofBool_tt (e2.resolve_left (by simp))
          have t3 : decide (val ρ m ≠ val ρ r) = true := ofBool_tt (e3.resolve_left (by simp))
          rw [t1, t2, t3]; rfl
        · exact .inl rfl
  | _ => exact .inl rfl

theorem simp1_sound (c : Cfg) (ρ : Env) (k : Kind) (p : Term) (s : Srt) (v : Val)
    (fp : Fit c p) (h : evalApp ρ k [p] s = some v) : Right c ρ v (simp1 c k p) := by
  cases k with
  | not =>
    obtain ⟨t, ht, hb, rfl⟩ := (evalApp_not ρ _ s v).1 h
    simp at ht; subst ht
    simp only [simp1, isTrue_iff, isFalse_iff]
    split
    · rename_i h1; subst h1; exact right_ofBool fp false _ (by simp [bval_tt])
    · split
      · rename_i h1; subst h1; exact right_ofBool fp true _ (by simp [bval_ff])
      · exact .inl rfl
  | neg =>
    obtain ⟨t, ht, hb, rfl⟩ := (evalApp_neg ρ _ s v).1 h
    simp at ht; subst ht
    have := mkNeg_right fp hb
    unfold mkNeg mkOper1 at this
    split at this
    · exact .inr this
    · rename_i h1; simp [isUnknown_iff] at h1; exact .inl h1
  | and =>
    obtain ⟨hb, rfl⟩ := (evalApp_and ρ _ s v).1 h
    exact .inr ⟨by simp [simp1, (hb p (by simp)).eval], fp⟩
  | or =>
    obtain ⟨hb, rfl⟩ := (evalApp_or ρ _ s v).1 h
    exact .inr ⟨by simp [simp1, (hb p (by simp)).eval], fp⟩
  | xor =>
    obtain ⟨hb, rfl⟩ := (evalApp_xor ρ _ s v).1 h
    exact .inr ⟨by simp [simp1, (hb p (by simp)).eval], fp⟩
  | implies => have := ((evalApp_implies ρ _ s v).1 h).1; simp at this
  | add =>
    obtain ⟨_, hb, rfl⟩ := (evalApp_add ρ _ s v).1 h
    exact .inr ⟨by simp [simp1, (hb p (by simp)).eval], fp⟩
  | mul =>
    obtain ⟨_, hb, rfl⟩ := (evalApp_mul ρ _ s v).1 h
    exact .inr ⟨by simp [simp1, (hb p (by simp)).eval, ratProd], fp⟩
  | sub => have := ((evalApp_sub ρ _ s v).1 h).1; simp at this
  | _ => exact .inl rfl

theorem simpN_sound (c : Cfg) (ρ : Env) (k : Kind) (ps : List Term) (s : Srt) (v : Val)
    (ft : ∀ t ∈ ps, Fit c t) (h2 : 2 ≤ ps.length)
    (h : evalApp ρ k ps s = some v) : Right c ρ v (simpN c k ps) := by
  obtain ⟨a, b, l, rfl⟩ : ∃ a b l, ps = a :: b :: l := by
    rcases ps with _ | ⟨a, _ | ⟨b, l⟩⟩
    · simp at h2
    · simp at h2
    · exact ⟨a, b, l, rfl⟩
  have fa := ft a (by simp)
  have hleft : isLeft k = true → Right c ρ v (simpFold c k a (b :: l)) := fun hk =>
    simpFold_sound c ρ k hk s v l a b fa (fun u hu => ft u (List.mem_cons_of_mem _ hu)) h
  cases k with
  | and => exact hleft rfl
  | or => exact hleft rfl
  | xor => exact hleft rfl
  | add => exact hleft rfl
  | mul => exact hleft rfl
  | sub => exact hleft rfl
  | eq => exact simpEqN_sound c ρ s _ v ft h
  | distinct =>
    obtain ⟨_, _, hs, rfl⟩ := (evalApp_distinct ρ _ s v).1 h
    have := distRows_sound c ρ _ ft hs
    simp only [simpN]
    cases h3 : distRows c (a :: b :: l) with
    | none => rw [h3] at this; exact right_ofBool fa false _ (by simp only [this, decide_false])
    | some x =>
      rw [h3] at this
      cases x with
      | true => exact .inl rfl
      | false => exact right_ofBool fa true _ (by simp only [this, decide_true])
  | implies =>
    obtain ⟨_, _, rfl⟩ := (evalApp_implies ρ _ s v).1 h
    rcases simpImpN_sound ρ (a :: b :: l) (by simp) with h3 | h3
    · exact .inl h3
    · simp only [simpN]; rw [h3]; exact right_ofBool fa _ _ rfl
  | _ => exact .inl rfl

/-! ### reordering -/

theorem evalApp_perm (ρ : Env) (k : Kind) (hk : isComm k = true) {ts us : List Term}
    (hp : us.Perm ts) (s : Srt) (v : Val) (h : evalApp ρ k ts s = some v) :
    evalApp ρ k us s = some v := by
  have hm : ∀ t, t ∈ us ↔ t ∈ ts := fun t => hp.mem_iff
  have hmap : ∀ {β : Type} (f : Term → β), (us.map f).Perm (ts.map f) := fun f => hp.map f
  cases k <;> simp [isComm] at hk
  · obtain ⟨h1, rfl⟩ := (evalApp_and ρ _ s v).1 h
    refine (evalApp_and ρ _ s _).2 ⟨fun t ht => h1 t ((hm t).1 ht), ?_⟩
    congr 1; rw [Bool.eq_iff_iff]; simp only [List.all_eq_true]
    exact forall_congr' fun x => by rw [(hmap _).mem_iff]
  · obtain ⟨h1, rfl⟩ := (evalApp_or ρ _ s v).1 h
    refine (evalApp_or ρ _ s _).2 ⟨fun t ht => h1 t ((hm t).1 ht), ?_⟩
    congr 1; rw [Bool.eq_iff_iff]; simp only [List.any_eq_true]
    exact exists_congr fun x => by rw [(hmap _).mem_iff]
  · obtain ⟨h1, rfl⟩ := (evalApp_xor ρ _ s v).1 h
    refine (evalApp_xor ρ _ s _).2 ⟨fun t ht => h1 t ((hm t).1 ht), ?_⟩
    congr 1
    refine (List.Perm.foldl_eq' (hmap _) ?_ _).symm
    intro x _ y _ z; cases x <;> cases y <;> cases z <;> rfl
  · obtain ⟨h0, h1, h2, rfl⟩ := (evalApp_eq ρ _ s v).1 h
    refine (evalApp_eq ρ _ s _).2 ⟨by rw [hp.length_eq]; exact h0,
      fun t ht => h1 t ((hm t).1 ht), fun t ht u hu => h2 t ((hm t).1 ht) u ((hm u).1 hu), ?_⟩
    congr 1; rw [decide_eq_decide]; simp only [hm]
  · obtain ⟨h0, h1, h2, rfl⟩ := (evalApp_distinct ρ _ s v).1 h
    refine (evalApp_distinct ρ _ s _).2 ⟨by rw [hp.length_eq]; exact h0,
      fun t ht => h1 t ((hm t).1 ht), fun t ht u hu => h2 t ((hm t).1 ht) u ((hm u).1 hu), ?_⟩
    congr 1; rw [decide_eq_decide]
    exact (hp.pairwise_iff (fun {x y} h => Ne.symm h)).symm
  · obtain ⟨h0, h1, rfl⟩ := (evalApp_add ρ _ s v).1 h
    refine (evalApp_add ρ _ s _).2 ⟨?_, fun t ht => h1 t ((hm t).1 ht), ?_⟩
    · intro h; subst h; exact h0 (List.nil_perm.1 hp)
    · congr 1
      refine (List.Perm.foldr_eq' (hmap _) ?_ _).symm
      intro x _ y _ z; grind
  · obtain ⟨h0, h1, rfl⟩ := (evalApp_mul ρ _ s v).1 h
    refine (evalApp_mul ρ _ s _).2 ⟨?_, fun t ht => h1 t ((hm t).1 ht), ?_⟩
    · intro h; subst h; exact h0 (List.nil_perm.1 hp)
    · congr 1; unfold ratProd
      refine (List.Perm.foldr_eq' (hmap _) ?_ _).symm
      intro x _ y _ z; grind

/-- `mkOper` returns a term with the value of the operator applied to the operands; the three-operand
`=>` must not have literal premises. -/
theorem mkOper_sound3 (c : Cfg) (ρ : Env) (k : Kind) (ps : List Term) (s : Srt) (v : Val)
    (ft : ∀ t ∈ ps, Fit c t) (hne : ps ≠ [])
    (hi : k = .implies → ps.length = 3 → ∀ t ∈ ps.dropLast, t ≠ .tt ∧ t ≠ .ff)
    (hs : v.hasSort s = true)
    (h : evalApp ρ k ps s = some v) :
    eval ρ (mkOper c s k ps) = some v ∧ Fit c (mkOper c s k ps) := by
  unfold mkOper
  rw [if_neg (by simpa using hne)]
  have key : Right c ρ v (simp c k ps) := by
    rcases ps with _ | ⟨a, _ | ⟨b, _ | ⟨d, _ | ⟨e, l⟩⟩⟩⟩
    · exact absurd rfl hne
    · exact simp1_sound c ρ k a s v (ft a (by simp)) h
    · exact simp2_sound c ρ k a b s v (ft a (by simp)) (ft b (by simp)) h
    · refine simp3_sound c ρ k a b d s v (ft a (by simp)) (ft b (by simp)) (ft d (by simp)) ?_ h
      intro hk
      have := hi hk (by simp)
      simp at this; grind
    · exact simpN_sound c ρ k _ s v ft (by simp) h
  split
  · rename_i h1; exact key.fits (by simpa using h1)
  · refine ⟨?_, ?_⟩
    · rw [eval_app, guardSort_some]
      refine ⟨?_, hs⟩
      split
      · rename_i hk; exact evalApp_perm ρ k hk (c.perm ps) s v h
      · exact h
    · obtain ⟨a, l, rfl⟩ := List.exists_cons_of_ne_nil hne
      exact (ft a (by simp)).of_noReal trivial

/-- The same with the side condition for every number of operands. -/
theorem mkOper_sound (c : Cfg) (ρ : Env) (k : Kind) (ps : List Term) (s : Srt) (v : Val)
    (ft : ∀ t ∈ ps, Fit c t) (hne : ps ≠ [])
    (hi : k = .implies → ∀ t ∈ ps.dropLast, t ≠ .tt ∧ t ≠ .ff)
    (hs : v.hasSort s = true)
    (h : evalApp ρ k ps s = some v) :
    eval ρ (mkOper c s k ps) = some v ∧ Fit c (mkOper c s k ps) :=
  mkOper_sound3 c ρ k ps s v ft hne (fun hk _ => hi hk) hs h

end SMT
