import Verif.Term.Cons
/-!
# Relations and arithmetic constructors preserve values: lemmas
-/
namespace SMT
open Term

attribute [local simp] Rat.add_zero Rat.zero_add Rat.mul_one Rat.one_mul rat_zero_sub rat_sub_zero

mutual
/-- no real literal anywhere in the term -/
def Term.noReals : Term → Bool
  | .creal _ _ => false
  | .app _ _ ts => noRealsL ts
  | _ => true
/-- `noReals` on all -/
def Term.noRealsL : List Term → Bool
  | [] => true
  | t :: ts => noReals t && noRealsL ts
end

/-- Either real arithmetic is exact at the configured precision, or the term contains no real
literal. -/
def DFit (c : Cfg) (t : Term) : Prop := Exact c ∨ (IntOK c ∧ t.noReals = true)

theorem noRealsL_iff (ts : List Term) : noRealsL ts = true ↔ ∀ t ∈ ts, t.noReals = true := by
  induction ts with
  | nil => simp [noRealsL]
  | cons t ts ih => simp [noRealsL, ih]

theorem DFit.fit {c : Cfg} {t : Term} (h : DFit c t) : Fit c t := by
  rcases h with h | ⟨h1, h2⟩
  · exact .inl h
  · exact .inr ⟨by cases t <;> simp_all [NoReal, noReals], h1⟩

theorem DFit.child {c : Cfg} {k : Kind} {s : Srt} {ts : List Term} (h : DFit c (.app k s ts))
    {t : Term} (ht : t ∈ ts) : DFit c t := by
  rcases h with h | ⟨h1, h2⟩
  · exact .inl h
  · simp only [noReals] at h2
    exact .inr ⟨h1, (noRealsL_iff ts).1 h2 t ht⟩

/-! ### the type checks -/

theorem eqTo_refl (s : Srt) : s.eqTo s = true := by cases s <;> simp [Srt.eqTo]

theorem mismatch_num {s t : Srt} (hs : s.isNum = true) (ht : t.isNum = true) :
    mismatch s t = false := by
  cases s <;> simp [Srt.isNum] at hs <;> cases t <;> simp [Srt.isNum] at ht <;> rfl

theorem mismatch_refl (s : Srt) : mismatch s s = false := by simp [mismatch, eqTo_refl]

theorem same_cases {ρ : Env} {t u : Term} (ht : Ev ρ t) (hu : Ev ρ u)
    (h : (val ρ t).sameSort (val ρ u) = true) :
    (t.sort.isNum = true ∧ u.sort.isNum = true) ∨ t.sort = u.sort := by
  have h1 := eval_hasSort ht.eval
  have h2 := eval_hasSort hu.eval
  cases e1 : val ρ t <;> cases e2 : val ρ u <;> rw [e1, e2] at h <;> simp [Val.sameSort] at h <;>
    rw [e1] at h1 <;> rw [e2] at h2
  · right; cases h3 : t.sort <;> simp_all [Val.hasSort]
    cases h4 : u.sort <;> simp_all [Val.hasSort]
  · left; cases h3 : t.sort <;> simp_all [Val.hasSort, Srt.isNum] <;>
      cases h4 : u.sort <;> simp_all [Val.hasSort]
  · right; simp [Val.hasSort] at h1 h2; grind

theorem same_mismatch {ρ : Env} {t u : Term} (ht : Ev ρ t) (hu : Ev ρ u)
    (h : (val ρ t).sameSort (val ρ u) = true) : mismatch t.sort u.sort = false := by
  rcases same_cases ht hu h with h | h
  · exact mismatch_num h.1 h.2
  · rw [h]; exact mismatch_refl _

theorem badSort_false {ρ : Env} {ts : List Term} (hev : ∀ t ∈ ts, Ev ρ t)
    (hs : ∀ t ∈ ts, ∀ u ∈ ts, (val ρ t).sameSort (val ρ u) = true) {t : Term} (ht : t ∈ ts) :
    badSort (getSort ts) t = false := by
  cases ts with
  | nil => simp at ht
  | cons a l =>
    simp only [getSort]
    by_cases hn : a.sort.isNum = true
    · simp only [hn, if_true, badSort]
      refine mismatch_num ?_ (by split <;> rfl)
      rcases same_cases (hev a (by simp)) (hev t ht) (hs a (by simp) t ht) with h | h
      · exact h.2
      · rw [← h]; exact hn
    · simp only [hn, Bool.false_eq_true, if_false]
      cases hf : (a :: l).find? (fun t => !t.isConst) with
      | none => rfl
      | some u =>
        have hu : u ∈ a :: l := List.mem_of_find?_eq_some hf
        simp only [Option.map_some, badSort]
        exact same_mismatch (hev t ht) (hev u hu) (hs t ht u hu)

theorem nums_same {ρ : Env} {ts : List Term} (hn : ∀ t ∈ ts, IsN ρ t) :
    ∀ t ∈ ts, ∀ u ∈ ts, (val ρ t).sameSort (val ρ u) = true := by
  intro t ht u hu
  rw [val_of_IsN (hn t ht), val_of_IsN (hn u hu)]; rfl

theorem badSort_nums {ρ : Env} {ts : List Term} (hn : ∀ t ∈ ts, IsN ρ t) {t : Term} (ht : t ∈ ts) :
    badSort (getSort ts) t = false :=
  badSort_false (fun u hu => (hn u hu).ev) (nums_same hn) ht

theorem getSort_nums {ρ : Env} {ts : List Term} (hne : ts ≠ []) (hn : ∀ t ∈ ts, IsN ρ t) :
    ∃ s, getSort ts = some s ∧ s.isNum = true ∧ s ≠ .ior := by
  cases ts with
  | nil => exact absurd rfl hne
  | cons a l =>
    simp only [getSort, (hn a (by simp)).sort, if_true]
    refine ⟨_, rfl, ?_, ?_⟩ <;> split <;> simp [Srt.isNum]

/-! ### comparisons -/

theorem mkCmp2_sound' (c : Cfg) (ρ : Env) (k : Kind) (hk : isCmp k = true) (refl l r : Term)
    (hr : refl = ofBool (cmpRel k 0 0)) (fl : Fit c l) (fr : Fit c r)
    (hl : IsN ρ l) (hr' : IsN ρ r) :
    eval ρ (mkCmp2 c k refl l r) = some (.b (cmpRel k (nval ρ l) (nval ρ r))) := by
  have hop : eval ρ (mkOper c .bool k [l, r]) = some (.b (cmpRel k (nval ρ l) (nval ρ r))) := by
    refine (mkOper_sound c ρ k [l, r] .bool _ ?_ (by simp) ?_ rfl ?_).1
    · intro t ht; simp at ht; rcases ht with rfl | rfl <;> assumption
    · rintro rfl; simp [isCmp] at hk
    · refine (evalApp_cmp' ρ _ _ _ k hk).2 ⟨by simp, ?_, ?_⟩
      · intro t ht; simp at ht; rcases ht with rfl | rfl <;> assumption
      · simp [chain]
  unfold mkCmp2
  have hm := mismatch_num hl.sort hr'.sort
  split
  · rename_i h1
    rw [if_pos]
    · exact hop
    · simp [mismatch] at hm h1; exact hm h1
  · split
    · rename_i h2; subst h2
      rw [hr, ofBool_eval]
      have hirr : ∀ q : Rat, ¬ (q < q) := fun q => by grind
      have hrf : ∀ q : Rat, q ≤ q := fun q => by grind
      cases k <;> simp [isCmp] at hk <;> simp [cmpRel, hirr, hrf]
    · exact hop

theorem cmpPairs_sound (c : Cfg) (ρ : Env) (k : Kind) (mk : Term → Term → Term) (so : Option Srt)
    (hmk : ∀ l r, Fit c l → Fit c r → IsN ρ l → IsN ρ r →
      eval ρ (mk l r) = some (.b (cmpRel k (nval ρ l) (nval ρ r)))) :
    ∀ ts : List Term, (∀ t ∈ ts, Fit c t) → (∀ t ∈ ts, IsN ρ t) → (∀ t ∈ ts, badSort so t = false) →
    ∃ l, cmpPairs mk so ts = .inr l ∧ (∀ t ∈ l, IsB ρ t) ∧
      (l.map (bval ρ)).all id = chain (cmpRel k) (ts.map (nval ρ)) := by
  intro ts
  induction ts with
  | nil => intro _ _ _; exact ⟨[], rfl, by simp, rfl⟩
  | cons t ts ih =>
    intro hf hn hb
    cases ts with
    | nil => exact ⟨[], rfl, by simp, rfl⟩
    | cons u ts =>
      obtain ⟨l, h1, h2, h3⟩ := ih (fun x hx => hf x (List.mem_cons_of_mem _ hx))
        (fun x hx => hn x (List.mem_cons_of_mem _ hx)) (fun x hx => hb x (List.mem_cons_of_mem _ hx))
      have hm := hmk t u (hf t (by simp)) (hf u (by simp)) (hn t (by simp)) (hn u (by simp))
      refine ⟨mk t u :: l, ?_, ?_, ?_⟩
      · simp only [cmpPairs]
        rw [if_neg (by simp [(hn t (by simp)).ev.not_err]), if_neg (by simp [hb t (by simp)]),
          if_neg (by simp [Ev.not_err ⟨_, hm⟩]), h1]
      · intro x hx; rcases List.mem_cons.1 hx with rfl | hx
        · exact ⟨_, hm⟩
        · exact h2 x hx
      · simp only [List.map_cons, List.all_cons, chain, bval_of hm, id] at h3 ⊢
        rw [h3]

theorem mkCmpV_sound' (c : Cfg) (ρ : Env) (k : Kind) (hk : isCmp k = true)
    (mk : Term → Term → Term)
    (hmk : ∀ l r, Fit c l → Fit c r → IsN ρ l → IsN ρ r →
      eval ρ (mk l r) = some (.b (cmpRel k (nval ρ l) (nval ρ r))))
    (ts : List Term) (s : Srt) (v : Val) (hf : ∀ t ∈ ts, Fit c t)
    (h : evalApp ρ k ts s = some v) : eval ρ (mkCmpV c mk ts) = some v := by
  obtain ⟨hlen, hn, rfl⟩ := (evalApp_cmp' ρ ts s v k hk).1 h
  unfold mkCmpV
  split
  · simp at hlen
  · simp at hlen
  · rename_i l r
    rw [hmk l r (hf l (by simp)) (hf r (by simp)) (hn l (by simp)) (hn r (by simp))]
    simp [chain]
  · obtain ⟨l, h1, h2, h3⟩ := cmpPairs_sound c ρ k mk (getSort ts) hmk ts hf hn
      (fun t ht => badSort_nums hn ht)
    rw [h1]
    refine mkAnd_sound' c ρ l .bool _ ?_
    exact (evalApp_and ρ l _ _).2 ⟨h2, by rw [h3]⟩

/-! ### distinct and equality of several operands -/

theorem mkDistinctV_sound' (c : Cfg) (ρ : Env) (ts : List Term) (s : Srt) (v : Val)
    (hf : ∀ t ∈ ts, Fit c t) (h2 : ts.length = 2 ∨ .ff ∉ ts)
    (h : evalApp ρ .distinct ts s = some v) : eval ρ (mkDistinctV c ts) = some v := by
  obtain ⟨hlen, hev, hs, rfl⟩ := (evalApp_distinct ρ ts s v).1 h
  unfold mkDistinctV
  rw [if_neg (by omega)]
  have hff : ∀ t ∈ ts, (if t.isErr then some (Sum.inl t)
        else if badSort (getSort ts) t then some (Sum.inl unknown)
        else if t.isFalse then some (Sum.inr ()) else none) =
        if t = .ff then some (.inr ()) else none := by
    intro t ht
    rw [if_neg (by simp [(hev t ht).not_err]), if_neg (by simp [badSort_false hev hs ht])]
    simp only [isFalse_iff]
  have hop : ∀ l, l = ts → eval ρ (if l.length > 100 then .app .distinct .bool l
      else mkOper c .bool .distinct l) =
      some (.b (decide (ts.Pairwise (fun t u => val ρ t ≠ val ρ u)))) := by
    rintro l rfl
    have he : evalApp ρ .distinct l .bool =
        some (.b (decide (l.Pairwise (fun t u => val ρ t ≠ val ρ u)))) :=
      (evalApp_distinct ρ l _ _).2 ⟨hlen, hev, hs, rfl⟩
    split
    · rw [eval_app, he]; rfl
    · exact (mkOper_sound c ρ .distinct l .bool _ hf (by rintro rfl; simp at hlen) (by simp)
        rfl he).1
  have hfilt : ∀ l, scan (fun t => if t.isErr then some (Sum.inl t)
        else if badSort (getSort ts) t then some (Sum.inl unknown)
        else if t.isFalse then some (Sum.inr ()) else none) ts = .inr l →
      l = ts.filter (· ≠ .ff) := by
    intro l hl
    rw [(scan_inr hl).1]
    apply List.filter_congr
    intro t ht; rw [hff t ht]; by_cases h : t = .ff <;> simp [h]
  split
  · rename_i r hr
    obtain ⟨t, ht, h1⟩ := scan_inl hr
    rw [hff t ht] at h1; split at h1 <;> simp at h1
  · rename_i hl
    have hl := hfilt _ hl
    rcases h2 with h2 | h2
    · rcases ts with _ | ⟨a, _ | ⟨b, _ | ⟨d, l⟩⟩⟩ <;> simp at h2
      have ha : a = .ff := by
        apply Classical.byContradiction; intro h; simp [List.filter_cons, h] at hl
      have hb : b = .ff := by
        apply Classical.byContradiction; intro h; simp [List.filter_cons, h, ha] at hl
      subst ha hb
      simp [eval, val]
    · rw [List.filter_eq_self.2] at hl
      · simp [← hl] at hlen
      · intro t ht; simp; rintro rfl; exact h2 ht
  · rename_i p hl
    have hl := hfilt _ hl
    rcases h2 with h2 | h2
    · rcases ts with _ | ⟨a, _ | ⟨b, _ | ⟨d, l⟩⟩⟩ <;> simp at h2
      have key : ∀ t u, (val ρ t).sameSort (val ρ u) = true → u = .ff → Ev ρ t →
          eval ρ t = some (.b (decide (val ρ t ≠ val ρ u))) := by
        rintro t u hs rfl ht
        rw [show val ρ .ff = .b false from rfl] at hs ⊢
        rw [ht.eval]
        cases e : val ρ t with
        | b x => cases x <;> simp
        | n x => rw [e] at hs; simp [Val.sameSort] at hs
        | u a x => rw [e] at hs; simp [Val.sameSort] at hs
      by_cases ha : a = .ff
      · by_cases hb : b = .ff
        · simp [ha, hb] at hl
        · simp [List.filter_cons, ha, hb] at hl
          subst hl
          rw [key p a (hs _ (by simp) _ (by simp)) ha (hev _ (by simp))]
          simp [eq_comm]
      · by_cases hb : b = .ff
        · simp [List.filter_cons, ha, hb] at hl
          subst hl
          rw [key p b (hs _ (by simp) _ (by simp)) hb (hev _ (by simp))]
          simp
        · simp [List.filter_cons, ha, hb] at hl
    · rw [List.filter_eq_self.2] at hl
      · simp [← hl] at hlen
      · intro t ht; simp; rintro rfl; exact h2 ht
  · rename_i l hne hne1 hl
    have hl := hfilt _ hl
    refine hop l ?_
    rcases h2 with h2 | h2
    · rcases ts with _ | ⟨a, _ | ⟨b, _ | ⟨d, l'⟩⟩⟩ <;> simp at h2
      by_cases ha : a = .ff
      · by_cases hb : b = .ff
        · simp [ha, hb] at hl; exact absurd hl hne
        · simp [List.filter_cons, ha, hb] at hl; exact absurd hl (hne1 _)
      · by_cases hb : b = .ff
        · simp [List.filter_cons, ha, hb] at hl; exact absurd hl (hne1 _)
        · simp [List.filter_cons, ha, hb] at hl; exact hl
    · rw [hl, List.filter_eq_self.2]
      intro t ht; simp; rintro rfl; exact h2 ht

/-- `mkEq` of two numbers -/
theorem mkEq2_nums (c : Cfg) (ρ : Env) (l r : Term) (fl : Fit c l) (fr : Fit c r)
    (hl : IsN ρ l) (hr : IsN ρ r) :
    eval ρ (mkEq2 c l r) = some (.b (decide (val ρ l = val ρ r))) := by
  have hop : eval ρ (mkOper c .bool .eq [l, r]) = some (.b (decide (val ρ l = val ρ r))) := by
    refine (mkOper_sound c ρ .eq [l, r] .bool _ ?_ (by simp) (by simp) rfl ?_).1
    · intro t ht; simp at ht; rcases ht with rfl | rfl <;> assumption
    · refine (evalApp_eq ρ _ _ _).2 ⟨by simp, ?_, ?_, ?_⟩
      · intro t ht; simp at ht; rcases ht with rfl | rfl
        · exact hl.ev
        · exact hr.ev
      · apply nums_same; intro t ht; simp at ht; rcases ht with rfl | rfl <;> assumption
      · congr 1; rw [decide_eq_decide]; simp; grind
  have hnl : l.sort ≠ .bool := fun h => by have := hl.sort; rw [h] at this; simp [Srt.isNum] at this
  have hnr : r.sort ≠ .bool := fun h => by have := hr.sort; rw [h] at this; simp [Srt.isNum] at this
  rw [mkEq2.eq_def, mismatch_num hl.sort hr.sort]
  simp only [Bool.false_eq_true, if_false]
  split
  any_goals (exfalso; first | exact hnl rfl | exact hnr rfl)
  · rename_i s a l' s' b l''
    exfalso
    obtain ⟨q, hq⟩ := hl
    rw [eval_app] at hq
    have := (guardSort_some.1 hq).1
    rw [evalApp_not] at this; obtain ⟨_, _, _, h⟩ := this; cases h
  · exact hop

/-! ### negation -/

/-- Under any number of negations, an `=`, `distinct` or comparison node has two operands. -/
def binRel : Term → Bool
  | .app .not _ (t :: _) => binRel t
  | .app .eq _ ts => ts.length == 2
  | .app .distinct _ ts => ts.length == 2
  | .app .le _ ts => ts.length == 2
  | .app .lt _ ts => ts.length == 2
  | .app .ge _ ts => ts.length == 2
  | .app .gt _ ts => ts.length == 2
  | _ => true

theorem arithTerm_IsN {ρ : Env} {t : Term} (h : t.isArithTerm = true) (he : Ev ρ t) : IsN ρ t := by
  cases t with
  | tt => simp [isArithTerm] at h
  | ff => simp [isArithTerm] at h
  | cint i => exact ⟨_, rfl⟩
  | creal _ q => exact ⟨_, rfl⟩
  | clit s x => simp [isArithTerm] at h
  | var k s x =>
    refine he.isN ?_
    simp [isArithTerm] at h; rcases h with rfl | rfl <;> rfl
  | unknown => simp [isArithTerm] at h
  | err => simp [isArithTerm] at h
  | app k s ts =>
    obtain ⟨v, hv⟩ := he
    have hv' := hv
    rw [eval_app] at hv'
    have h1 := (guardSort_some.1 hv').1
    cases k <;> simp only [isArithTerm, Bool.false_eq_true] at h
    case ite => exact Ev.isN ⟨v, hv⟩ h
    case uf => exact Ev.isN ⟨v, hv⟩ h
    case add => obtain ⟨_, _, rfl⟩ := (evalApp_add ρ _ _ _).1 h1; exact ⟨_, hv⟩
    case mul => obtain ⟨_, _, rfl⟩ := (evalApp_mul ρ _ _ _).1 h1; exact ⟨_, hv⟩
    case sub => obtain ⟨_, _, rfl⟩ := (evalApp_sub ρ _ _ _).1 h1; exact ⟨_, hv⟩
    case neg => obtain ⟨_, _, _, rfl⟩ := (evalApp_neg ρ _ _ _).1 h1; exact ⟨_, hv⟩
    case arith i =>
      unfold evalApp at h1
      split at h1
      · simp only [apply] at h1
        split at h1
        · simp at h1; subst h1; exact ⟨_, hv⟩
        · cases h1
      · cases h1

theorem cmp_app {ρ : Env} {k : Kind} (hk : isCmp k = true) {s : Srt} {ts : List Term}
    (hb : ts.length = 2) (h : IsB ρ (.app k s ts)) :
    ∃ a b, ts = [a, b] ∧ IsN ρ a ∧ IsN ρ b ∧
      bval ρ (.app k s ts) = cmpRel k (nval ρ a) (nval ρ b) := by
  rcases ts with _ | ⟨a, _ | ⟨b, _ | ⟨d, l⟩⟩⟩ <;> simp at hb
  have h1 := h.eval
  rw [eval_app] at h1
  obtain ⟨_, hn, hv⟩ := (evalApp_cmp' ρ _ _ _ k hk).1 (guardSort_some.1 h1).1
  refine ⟨a, b, rfl, hn a (by simp), hn b (by simp), ?_⟩
  simpa [chain] using hv

theorem ev_eq2 {ρ : Env} {s : Srt} {a b : Term} (h : IsB ρ (.app .eq s [a, b])) :
    Ev ρ a ∧ Ev ρ b ∧ (val ρ a).sameSort (val ρ b) = true ∧
      bval ρ (.app .eq s [a, b]) = decide (val ρ a = val ρ b) := by
  have h1 := h.eval
  rw [eval_app] at h1
  obtain ⟨_, hev, hs, hv⟩ := (evalApp_eq ρ _ _ _).1 (guardSort_some.1 h1).1
  refine ⟨hev a (by simp), hev b (by simp), hs a (by simp) b (by simp), ?_⟩
  simp only [Val.b.injEq] at hv
  rw [hv, decide_eq_decide]; simp; grind

theorem ev_distinct2 {ρ : Env} {s : Srt} {a b : Term} (h : IsB ρ (.app .distinct s [a, b])) :
    Ev ρ a ∧ Ev ρ b ∧ (val ρ a).sameSort (val ρ b) = true ∧
      bval ρ (.app .distinct s [a, b]) = decide (val ρ a ≠ val ρ b) := by
  have h1 := h.eval
  rw [eval_app] at h1
  obtain ⟨_, hev, hs, hv⟩ := (evalApp_distinct ρ _ _ _).1 (guardSort_some.1 h1).1
  refine ⟨hev a (by simp), hev b (by simp), hs a (by simp) b (by simp), ?_⟩
  simp only [Val.b.injEq] at hv
  rw [hv, decide_eq_decide]; simp

theorem mk_not_oper (c : Cfg) {ρ : Env} {t : Term} (h : IsB ρ t) :
    eval ρ (mkOper c .bool .not [t]) = some (.b (!(bval ρ t))) :=
  mkOper_conn c ρ .not rfl _ _ _ (by simp) (by simp) rfl ((evalApp_not ρ _ _ _).2 ⟨t, rfl, h, rfl⟩)

theorem not_child {ρ : Env} {s : Srt} {ts : List Term} (h : IsB ρ (.app .not s ts)) :
    ∃ t, ts = [t] ∧ IsB ρ t ∧ bval ρ (.app .not s ts) = !(bval ρ t) := by
  have h1 := h.eval
  rw [eval_app] at h1
  obtain ⟨t, rfl, hb, hv⟩ := (evalApp_not ρ _ _ _).1 (guardSort_some.1 h1).1
  exact ⟨t, rfl, hb, by simpa using hv⟩

/-- a relation node at the top has two operands -/
def binTop : Term → Bool
  | .app .eq _ ts => ts.length == 2
  | .app .distinct _ ts => ts.length == 2
  | .app .le _ ts => ts.length == 2
  | .app .lt _ ts => ts.length == 2
  | .app .ge _ ts => ts.length == 2
  | .app .gt _ ts => ts.length == 2
  | _ => true

theorem binRel_top {t : Term} (h : binRel t = true) : binTop t = true := by
  unfold binRel at h; unfold binTop; split at h <;> simp_all

theorem len2 {ts : List Term} (h : ts.length = 2) : ∃ a b, ts = [a, b] := by
  rcases ts with _ | ⟨a, _ | ⟨b, _ | ⟨d, l⟩⟩⟩ <;> simp at h
  exact ⟨a, b, rfl⟩

theorem mkNot_sound' (c : Cfg) (ρ : Env) (t : Term) (hf : DFit c t) (hb : binTop t = true)
    (h : IsB ρ t) : eval ρ (mkNot c t) = some (.b (!(bval ρ t))) := by
  rw [mkNot.eq_def, if_neg (by simp [h.sort])]
  split
  · rename_i s ts
    obtain ⟨t, rfl, h1, h2⟩ := not_child h
    rw [h2]; simp only [List.headD_cons, Bool.not_not]; exact h1.eval
  · simp [eval, bval_tt]
  · simp [eval, bval_ff]
  · rename_i s ts
    split
    · simp only [binTop, beq_iff_eq] at hb
      obtain ⟨a, b, rfl⟩ := len2 hb
      obtain ⟨h1, h2, h3, h4⟩ := ev_eq2 h
      refine mkDistinctV_sound' c ρ [a, b] .bool _ ?_ (.inl rfl) ?_
      · intro t ht; exact (hf.child ht).fit
      · refine (evalApp_distinct ρ _ _ _).2 ⟨by simp, ?_, ?_, ?_⟩
        · intro t ht; simp at ht; rcases ht with rfl | rfl <;> assumption
        · intro t ht u hu; simp at ht hu
          rcases ht with rfl | rfl <;> rcases hu with rfl | rfl <;>
            first | exact sameSort_refl _ | exact h3 | exact sameSort_symm h3
        · rw [h4]; simp
    · exact mk_not_oper c h
  · rename_i s ts
    split
    · rename_i hn
      simp only [binTop, beq_iff_eq] at hb
      obtain ⟨a, b, rfl⟩ := len2 hb
      obtain ⟨h1, h2, h3, h4⟩ := ev_distinct2 h
      simp only [negatable] at hn
      have ha := arithTerm_IsN hn h1
      have hb' : IsN ρ b := by
        refine h2.isN ?_
        rcases same_cases h1 h2 h3 with h | h
        · exact h.2
        · rw [← h]; exact ha.sort
      rw [mkEqV.eq_def]
      simp only
      rw [mkEq2_nums c ρ a b (hf.child (by simp)).fit (hf.child (by simp)).fit ha hb', h4]
      simp
    · exact mk_not_oper c h
  all_goals try exact mk_not_oper c h
  all_goals
    rename_i s ts
    simp only [binTop, beq_iff_eq] at hb
    obtain ⟨a, b, rfl, h1, h2, h3⟩ := cmp_app rfl hb h
    rw [h3]
    have fa := (hf.child (t := a) (by simp)).fit
    have fb := (hf.child (t := b) (by simp)).fit
    simp only [List.getD_cons_zero, List.getD_cons_succ]
  · rw [mkGe2, mkCmp2_sound' c ρ .ge rfl _ a b (by simp [cmpRel, ofBool]) fa fb h1 h2]
    simp only [cmpRel]; congr 2; rw [Bool.eq_iff_iff]; simp; grind
  · rw [mkGt2, mkCmp2_sound' c ρ .gt rfl _ a b (by simp [cmpRel, ofBool]) fa fb h1 h2]
    simp only [cmpRel]; congr 2; rw [Bool.eq_iff_iff]; simp; grind
  · rw [mkLe2, mkCmp2_sound' c ρ .le rfl _ a b (by simp [cmpRel, ofBool]) fa fb h1 h2]
    simp only [cmpRel]; congr 2; rw [Bool.eq_iff_iff]; simp; grind
  · rw [mkLt2, mkCmp2_sound' c ρ .lt rfl _ a b (by simp [cmpRel, ofBool]) fa fb h1 h2]
    simp only [cmpRel]; congr 2; rw [Bool.eq_iff_iff]; simp; grind

end SMT
