import Verif.Conv.DnfSpec
import Verif.Conv.Nnf
/-!
# C29: elimination of `xor`, `=>`, `ite`, `=` and `distinct`
-/
namespace SMT

open Term

theorem dnfInL_iff (ts : List Term) : dnfInL ts = true ↔ ∀ t ∈ ts, dnfIn t = true := by
  induction ts with
  | nil => simp [dnfInL]
  | cons t ts ih => simp [dnfInL, ih]

theorem dfit_app {c : Cfg} {k : Kind} {s : Srt} {ts : List Term} (hne : ts ≠ [])
    (h : ∀ t ∈ ts, DFit c t) : DFit c (.app k s ts) := by
  obtain ⟨a, l, rfl⟩ := List.exists_cons_of_ne_nil hne
  rcases h a (by simp) with h1 | ⟨h1, _⟩
  · exact .inl h1
  · by_cases he : Exact c
    · exact .inl he
    · refine .inr ⟨h1, ?_⟩
      simp only [noReals, noRealsL_iff]
      intro t ht
      rcases h t ht with h2 | h2
      · exact absurd h2 he
      · exact h2.2

theorem DFit.other {c : Cfg} {t u : Term} (h : DFit c t) (hu : u.noReals = true) : DFit c u := by
  rcases h with h | h
  · exact .inl h
  · exact .inr ⟨h.1, hu⟩

/-- kinds the elimination removes -/
def isSpecial : Kind → Bool
  | .implies | .ite | .xor | .eq | .distinct => true
  | _ => false

/-- kinds the elimination rebuilds -/
def isPlain : Kind → Bool
  | .not | .and | .or => true
  | _ => false

mutual
/-- every node the elimination would remove is in `S` -/
def spIn (S : List Term) : Term → Bool
  | .app k s ts =>
    atomIn (.app k s ts) || (isPlain k && spInL S ts)
      || (isSpecial k && decide (.app k s ts ∈ S) && spInL S ts)
  | _ => true
/-- every formula of the list -/
def spInL (S : List Term) : List Term → Bool
  | [] => true
  | t :: ts => spIn S t && spInL S ts
end

theorem spInL_iff (S ts : List Term) : spInL S ts = true ↔ ∀ t ∈ ts, spIn S t = true := by
  induction ts with
  | nil => simp [spInL]
  | cons t ts ih => simp [spInL, ih]

mutual
/-- all subterms -/
def subs : Term → List Term
  | .app k s ts => .app k s ts :: subsL ts
  | t => [t]
/-- all subterms of a list -/
def subsL : List Term → List Term
  | [] => []
  | t :: ts => subs t ++ subsL ts
end

theorem mem_subsL {x : Term} {ts : List Term} : x ∈ subsL ts ↔ ∃ t ∈ ts, x ∈ subs t := by
  induction ts with
  | nil => simp [subsL]
  | cons t ts ih => simp [subsL, ih]

theorem spIn_subs (S : List Term) : ∀ (n : Nat) (t : Term), t.size ≤ n → dnfIn t = true →
    (∀ x ∈ subs t, x ∈ S) → spIn S t = true := by
  intro n
  induction n with
  | zero => intro t h; cases t <;> simp [size] at h
  | succ n ih =>
    intro t hn hd hS
    cases t with
    | app k s ts =>
      have hself : .app k s ts ∈ S := hS _ (by simp [subs])
      have hL : dnfInL ts = true → spInL S ts = true := by
        intro hl
        rw [spInL_iff]
        intro u hu
        have := size_child (k := k) (s := s) hu
        refine ih u (by omega) ((dnfInL_iff ts).1 hl u hu) ?_
        intro x hx
        exact hS x (by simp only [subs, List.mem_cons]; exact .inr (mem_subsL.2 ⟨u, hu, hx⟩))
      cases k <;> simp only [dnfIn, Bool.or_eq_true, Bool.and_eq_true] at hd <;>
        simp [spIn, isPlain, isSpecial, hself]
      all_goals grind
    | _ => simp [spIn]

/-- what is known of every formula the elimination returns -/
structure Out (c : Cfg) (ρ : Env) (S : List Term) (r : Term) : Prop where
  fit : DFit c r
  ok : dnfIn r = true
  isB : IsB ρ r
  sp : spIn S r = true

theorem atomIn_isAtom {t : Term} (h : atomIn t = true) : isAtom t = true := by
  cases t with
  | app k s ts =>
    cases k <;> simp [atomIn] at h <;> simp [isAtom, h]
    all_goals
      cases ts with
      | nil => simp at h
      | cons a l => simp at h ⊢; grind
  | _ => simp [atomIn] at h

theorem bvTerm_neg {t : Term} (h : isBVTerm t = true ∨ isFPTerm t = true) :
    t.isArithTerm = false ∧ t.isStrTerm = false := by
  cases t with
  | app k s ts =>
    cases k <;> cases s <;> simp [isBVTerm, isFPTerm] at h <;>
      simp [isArithTerm, isStrTerm, Srt.isNum]
  | var vk s x => cases s <;> simp [isBVTerm, isFPTerm] at h <;> simp [isArithTerm, isStrTerm]
  | clit s x => cases s <;> simp [isBVTerm, isFPTerm] at h <;> simp [isArithTerm, isStrTerm]
  | _ => simp [isBVTerm, isFPTerm] at h

/-- Boolean operands the conversion accepts are neither arithmetic nor string terms. -/
theorem boolOperand {t : Term} (hs : t.sort = .bool) (h : dnfIn t = true) :
    t.isArithTerm = false ∧ t.isStrTerm = false := by
  cases t with
  | app k s ts =>
    simp only [Term.sort] at hs; subst hs
    cases k <;> simp [dnfIn, atomIn] at h <;> simp [isArithTerm, isStrTerm, Srt.isNum]
  | var vk s x => simp only [Term.sort] at hs; subst hs; simp [isArithTerm, isStrTerm]
  | clit s x => simp [dnfIn, atomIn] at h
  | cint i => simp [Term.sort] at hs
  | creal n q => simp [Term.sort] at hs
  | _ => simp [isArithTerm, isStrTerm]

theorem dnfIn_negBin {t : Term} (h : dnfIn t = true) : negBin t = true := by
  cases t with
  | app k s ts =>
    cases k <;> simp [dnfIn, atomIn] at h <;> simp [negBin, h]
    · rcases h with ((h | h) | h) | h
      · exact .inl h.1
      · right; cases ts with
        | nil => simp
        | cons a l => simp at h ⊢; have := bvTerm_neg (.inl h.1); simp [this]
      · right; cases ts with
        | nil => simp
        | cons a l => simp at h ⊢; have := bvTerm_neg (.inr h.1); simp [this]
      · right; cases ts with
        | nil => simp
        | cons a l =>
          simp at h ⊢
          have := boolOperand h.1.1 ((dnfInL_iff _).1 h.2 a (by simp)); simp [this]
    · rcases h with ((h | h) | h) | h
      · exact .inl h.1
      · right; cases ts with
        | nil => simp
        | cons a l => simp at h ⊢; have := bvTerm_neg (.inl h.1); simp [this]
      · right; cases ts with
        | nil => simp
        | cons a l => simp at h ⊢; have := bvTerm_neg (.inr h.1); simp [this]
      · right; cases ts with
        | nil => simp
        | cons a l =>
          simp at h ⊢
          have := boolOperand h.1.1 ((dnfInL_iff _).1 h.2 a (by simp)); simp [this]
  | _ => simp [negBin]

theorem mkOper_rel_out {c : Cfg} {ρ : Env} {S : List Term} {k : Kind} (hk : isRelK k = true)
    {a b : Term} (fa : DFit c a) (fb : DFit c b)
    (ha : isCmp k = true ∨ (a.isArithTerm = true ∧ b.isArithTerm = true))
    (hB : IsB ρ (mkOper c .bool k [a, b])) : Out c ρ S (mkOper c .bool k [a, b]) := by
  have hat : ∀ us : List Term, us.Perm [a, b] → atomIn (.app k .bool us) = true := by
    intro us hp
    have hlen : us.length = 2 := hp.length_eq
    rcases ha with ha | ha
    · cases k <;> simp [isCmp] at ha <;> simp [atomIn, hlen]
    · have hall : us.all isArithTerm = true := by
        rw [List.all_eq_true]; intro u hu
        have := hp.mem_iff.1 hu; simp at this
        rcases this with rfl | rfl
        · exact ha.1
        · exact ha.2
      cases k <;> simp [isRelK, isCmp] at hk <;> simp [atomIn, hlen, -List.all_eq_true, hall]
  rcases mkOper_rel c k hk [a, b] with h | h | h | ⟨us, h, hp⟩
  · rw [h]; exact ⟨fa.other rfl, rfl, IsB_tt ρ, rfl⟩
  · rw [h]; exact ⟨fa.other rfl, rfl, IsB_ff ρ, rfl⟩
  · rw [h] at hB; obtain ⟨x, hx⟩ := hB; simp [eval] at hx
  · rw [h] at hB ⊢
    refine ⟨?_, ?_, hB, ?_⟩
    · refine dfit_app (by intro e; rw [e] at hp; simpa using hp.length_eq) ?_
      intro u hu
      have := hp.mem_iff.1 hu; simp at this
      rcases this with rfl | rfl <;> assumption
    · have := hat us hp
      cases k <;> simp [isRelK, isCmp] at hk <;> simp [dnfIn, this]
    · simp [spIn, hat us hp]

theorem mkNot_out {c : Cfg} {ρ : Env} {S : List Term} {t : Term} (h : Out c ρ S t) :
    Out c ρ S (mkNot c t) ∧ bval ρ (mkNot c t) = !bval ρ t := by
  have hv := mkNot_val c ρ t h.fit (dnfIn_negBin h.ok) h.isB
  refine ⟨?_, bval_of hv⟩
  have hB : IsB ρ (mkNot c t) := ⟨_, hv⟩
  have hnot : t ≠ .tt → t ≠ .ff → mkOper c .bool .not [t] = .app .not .bool [t] := by
    intro h1 h2
    have : simp1 c .not t = .unknown := by
      cases t <;> simp_all [simp1, Term.isTrue, Term.isFalse]
    simp [mkOper, simp, this, isUnknown, isComm]
  have hno : t ≠ .tt → t ≠ .ff → IsB ρ (mkOper c .bool .not [t]) →
      Out c ρ S (mkOper c .bool .not [t]) := by
    intro h1 h2 hB
    rw [hnot h1 h2] at hB ⊢
    refine ⟨dfit_app (by simp) (by simpa using h.fit), by simp [dnfIn, dnfInL, h.ok], hB, ?_⟩
    simp [spIn, isPlain, spInL, h.sp]
  revert hB
  rw [mkNot.eq_def, if_neg (by simp [h.isB.sort])]
  split
  · rename_i s ts
    intro _
    obtain ⟨u, rfl, h1, h2⟩ := not_child h.isB
    refine ⟨h.fit.child (by simp), ?_, h1, ?_⟩
    · have := h.ok; simp [dnfIn, dnfInL] at this; exact this
    · have := h.sp; simp [spIn, atomIn, isSpecial, spInL] at this; exact this.2
  · intro _; exact ⟨h.fit.other rfl, rfl, IsB_ff ρ, rfl⟩
  · intro _; exact ⟨h.fit.other rfl, rfl, IsB_tt ρ, rfl⟩
  · rename_i s ts
    intro hB
    split
    · rename_i hn
      rw [if_pos hn] at hB
      have hb := negBin_neg (dnfIn_negBin h.ok) hn
      simp only [binTop, beq_iff_eq] at hb
      obtain ⟨a, b, rfl⟩ := len2 hb
      obtain ⟨h1, h2, h3, h4⟩ := ev_eq2 h.isB
      have hok := h.ok
      have har : a.isArithTerm = true ∧ b.isArithTerm = true := by
        simp only [dnfIn, atomIn, Bool.or_eq_true, Bool.and_eq_true, List.all_cons, List.all_nil,
          beq_iff_eq, Bool.and_true, List.isEmpty_cons, Bool.not_false, true_and] at hok
        simp only [negatable, Bool.or_eq_true, Bool.and_eq_true] at hn
        rcases hok with ((hk | hk) | hk) | hk
        · exact hk.2
        · have := bvTerm_neg (.inl hk.1); simp [this] at hn
        · have := bvTerm_neg (.inr hk.1); simp [this] at hn
        · have := boolOperand hk.1.1 ((dnfInL_iff _).1 hk.2 a (by simp)); simp [this] at hn
      have hna := arithTerm_IsN har.1 h1
      have hnb := arithTerm_IsN har.2 h2
      have : mkDistinctV c [a, b] = mkOper c .bool .distinct [a, b] := by
        have hev : ∀ u ∈ [a, b], IsN ρ u := by
          intro u hu; simp at hu; rcases hu with rfl | rfl <;> assumption
        have b1 := badSort_nums hev (t := a) (by simp)
        have b2 := badSort_nums hev (t := b) (by simp)
        have f1 : a.isFalse = false := by
          have := hna.sort; cases a <;> simp_all [Term.isFalse, Term.sort, Srt.isNum]
        have f2 : b.isFalse = false := by
          have := hnb.sort; cases b <;> simp_all [Term.isFalse, Term.sort, Srt.isNum]
        simp [mkDistinctV, scan, h1.not_err, h2.not_err, b1, b2, f1, f2]
      rw [this] at hB ⊢
      exact mkOper_rel_out rfl (h.fit.child (by simp)) (h.fit.child (by simp)) (.inr har) hB
    · rename_i hn
      rw [if_neg hn] at hB
      exact hno (by simp) (by simp) hB
  · rename_i s ts
    intro hB
    split
    · rename_i hn
      rw [if_pos hn] at hB
      have hb := negBin_neg (dnfIn_negBin h.ok) hn
      simp only [binTop, beq_iff_eq] at hb
      obtain ⟨a, b, rfl⟩ := len2 hb
      obtain ⟨h1, h2, h3, h4⟩ := ev_distinct2 h.isB
      have hok := h.ok
      have har : a.isArithTerm = true ∧ b.isArithTerm = true := by
        simp only [dnfIn, atomIn, Bool.or_eq_true, Bool.and_eq_true, List.all_cons, List.all_nil,
          beq_iff_eq, Bool.and_true, List.isEmpty_cons, Bool.not_false, true_and] at hok
        simp only [negatable] at hn
        rcases hok with ((hk | hk) | hk) | hk
        · exact hk.2
        · have := bvTerm_neg (.inl hk.1); simp [this] at hn
        · have := bvTerm_neg (.inr hk.1); simp [this] at hn
        · have := boolOperand hk.1.1 ((dnfInL_iff _).1 hk.2 a (by simp)); simp [this] at hn
      have hna := arithTerm_IsN har.1 h1
      have hnb := arithTerm_IsN har.2 h2
      have : mkEqV c [a, b] = mkOper c .bool .eq [a, b] := by
        rw [mkEqV.eq_def]
        simp only
        have := hna.sort; have hbs := hnb.sort
        rw [mkEq2.eq_def, if_neg (by simp [mismatch_num hna.sort hnb.sort])]
        split <;> simp_all [Term.sort, Srt.isNum, isArithTerm]
      rw [this] at hB ⊢
      exact mkOper_rel_out rfl (h.fit.child (by simp)) (h.fit.child (by simp)) (.inr har) hB
    · rename_i hn
      rw [if_neg hn] at hB
      exact hno (by simp) (by simp) hB
  all_goals first
    | (intro hB; exact hno (by assumption) (by assumption) hB)
    | skip
  all_goals
    rename_i s ts
    intro hB
    have hb := negBin_neg (dnfIn_negBin h.ok) rfl
    simp only [binTop, beq_iff_eq] at hb
    obtain ⟨a, b, rfl⟩ := len2 hb
    simp only [List.getD_cons_zero, List.getD_cons_succ, mkGe2, mkGt2, mkLe2, mkLt2, mkCmp2] at hB ⊢
    split at hB
    · split at hB
      · rename_i e1 e2
        rw [if_pos e1, if_pos e2]
        exact mkOper_rel_out rfl (h.fit.child (by simp)) (h.fit.child (by simp)) (.inl rfl) hB
      · obtain ⟨x, hx⟩ := hB; simp [eval] at hx
    · split at hB
      · rename_i e1 e2
        rw [if_neg e1, if_pos e2]
        first
          | exact ⟨h.fit.other rfl, rfl, IsB_tt ρ, rfl⟩
          | exact ⟨h.fit.other rfl, rfl, IsB_ff ρ, rfl⟩
      · rename_i e1 e2
        rw [if_neg e1, if_neg e2]
        exact mkOper_rel_out rfl (h.fit.child (by simp)) (h.fit.child (by simp)) (.inl rfl) hB

theorem mkAnd_out {c : Cfg} {ρ : Env} {S : List Term} {ts : List Term} (hc : ∃ u, DFit c u)
    (h : ∀ t ∈ ts, Out c ρ S t) :
    Out c ρ S (mkAnd c ts) ∧ bval ρ (mkAnd c ts) = ts.all (bval ρ) := by
  have hv := mkAnd_val c (fun t ht => (h t ht).isB)
  refine ⟨?_, bval_of hv⟩
  obtain ⟨u, hu⟩ := hc
  have hB : IsB ρ (mkAnd c ts) := ⟨_, hv⟩
  rcases mkAnd_cases c ts with h1 | h1 | h1 | h1 | ⟨l, h1, h2, _, h3⟩
  · rw [h1]; exact ⟨hu.other rfl, rfl, IsB_tt ρ, rfl⟩
  · rw [h1]; exact ⟨hu.other rfl, rfl, IsB_ff ρ, rfl⟩
  · rw [h1] at hB; obtain ⟨x, hx⟩ := hB; simp [eval] at hx
  · exact h _ h1
  · rw [h1] at hB ⊢
    refine ⟨dfit_app (by rintro rfl; simp at h2) fun t ht => (h t (h3 t ht).1).fit, ?_, hB, ?_⟩
    · simp only [dnfIn, dnfInL_iff]; exact fun t ht => (h t (h3 t ht).1).ok
    · have : spInL S l = true := (spInL_iff S l).2 fun t ht => (h t (h3 t ht).1).sp
      simp [spIn, isPlain, this]

theorem mkOr_out {c : Cfg} {ρ : Env} {S : List Term} {ts : List Term} (hc : ∃ u, DFit c u)
    (h : ∀ t ∈ ts, Out c ρ S t) :
    Out c ρ S (mkOr c ts) ∧ bval ρ (mkOr c ts) = ts.any (bval ρ) := by
  have hv := mkOr_val c (fun t ht => (h t ht).isB)
  refine ⟨?_, bval_of hv⟩
  obtain ⟨u, hu⟩ := hc
  have hB : IsB ρ (mkOr c ts) := ⟨_, hv⟩
  rcases mkOr_cases c ts with h1 | h1 | h1 | h1 | ⟨l, h1, h2, _, h3⟩
  · rw [h1]; exact ⟨hu.other rfl, rfl, IsB_tt ρ, rfl⟩
  · rw [h1]; exact ⟨hu.other rfl, rfl, IsB_ff ρ, rfl⟩
  · rw [h1] at hB; obtain ⟨x, hx⟩ := hB; simp [eval] at hx
  · exact h _ h1
  · rw [h1] at hB ⊢
    refine ⟨dfit_app (by rintro rfl; simp at h2) fun t ht => (h t (h3 t ht).1).fit, ?_, hB, ?_⟩
    · simp only [dnfIn, dnfInL_iff]; exact fun t ht => (h t (h3 t ht).1).ok
    · have : spInL S l = true := (spInL_iff S l).2 fun t ht => (h t (h3 t ht).1).sp
      simp [spIn, isPlain, this]

end SMT
