import Verif.Eval.Const

/-!
# C81: what the constructors return is what evaluation handles

`Neat`: a term whose nodes are evaluated by the rules that are correct, and each of whose nodes changes when all variables get values, so that
evaluation in a total model cannot stop at it.
-/

namespace SMT.Eval
open SMT SMT.Term

set_option linter.unusedSimpArgs false
set_option linter.unusedVariables false

/-- `(distinct true true)`, which the constructors keep and evaluation decides -/
def twice : Kind → List Term → Bool
  | .distinct, [.tt, .tt] => true
  | _, _ => false

mutual
/-- the term changes when all variables get values -/
def live : Term → Bool
  | .var _ _ _ => true
  | .app k _ ts => twice k ts || liveL ts
  | _ => false
/-- a term of the list does -/
def liveL : List Term → Bool
  | [] => false
  | t :: ts => live t || liveL ts
end

/-- the kinds of node: `=` and `distinct` only without reals, `=>` with two operands, functions only if `u`; connectives have an operand -/
def topN (r u : Bool) : Kind → Nat → Bool
  | .eq, _ => !r
  | .distinct, _ => !r
  | .implies, n => n == 2
  | .uf _, _ => u
  | .and, n => n != 0
  | .or, n => n != 0
  | .xor, n => n != 0
  | k, _ => interp k

mutual
/-- all nodes are of these kinds and, if there are no functions, live; the variables are such as `V` says -/
def Neat (r u : Bool) (V : VK → Srt → String → Prop) : Term → Prop
  | .app k _ ts => topN r u k ts.length = true ∧ (u = true ∨ (twice k ts || liveL ts) = true) ∧ NeatL r u V ts
  | .var vk s x => V vk s x
  | _ => True
/-- the terms of a list -/
def NeatL (r u : Bool) (V : VK → Srt → String → Prop) : List Term → Prop
  | [] => True
  | t :: ts => Neat r u V t ∧ NeatL r u V ts
end

/-- not stuck -/
def Lv (u : Bool) (t : Term) : Prop := u = true ∨ live t = true

section
variable {r u : Bool} {V : VK → Srt → String → Prop} {c : Cfg} {ρ : Env}

theorem neatL_iff {ts : List Term} : NeatL r u V ts ↔ ∀ t ∈ ts, Neat r u V t := by
  induction ts with
  | nil => simp [NeatL]
  | cons t ts ih => simp [NeatL, ih]

theorem neat_app {k : Kind} {s : Srt} {ts : List Term} : Neat r u V (.app k s ts) ↔
    topN r u k ts.length = true ∧ Lv u (.app k s ts) ∧ ∀ t ∈ ts, Neat r u V t := by
  simp only [Neat, neatL_iff, Lv, live]

theorem liveL_iff {ts : List Term} : liveL ts = true ↔ ∃ t ∈ ts, live t = true := by
  induction ts with
  | nil => simp [liveL]
  | cons t ts ih => simp [liveL, ih]

theorem lv_app {k : Kind} {s : Srt} {ts : List Term} (h : ∃ t ∈ ts, Lv u t) : Lv u (.app k s ts) := by
  obtain ⟨t, ht, h⟩ := h
  rcases h with h | h
  · exact .inl h
  · refine .inr ?_
    simp only [live, Bool.or_eq_true]
    exact .inr (liveL_iff.2 ⟨t, ht, h⟩)

theorem neat_const {t : Term} (h : t.isConst = true) : Neat r u V t := by
  cases t <;> simp_all [Neat, isConst]

theorem neat_unknown : Neat r u V .unknown := by simp [Neat]
theorem neat_tt : Neat r u V .tt := by simp [Neat]
theorem neat_ff : Neat r u V .ff := by simp [Neat]
theorem neat_cint (i : Int) : Neat r u V (.cint i) := by simp [Neat]
theorem neat_creal (q : Rat) : Neat r u V (mkConstReal c q) := by simp [Neat, mkConstReal]
theorem neat_ofBool (b : Bool) : Neat r u V (ofBool b) := by cases b <;> simp [Neat, ofBool]

/-- a term with a value is a constant or not stuck -/
theorem lively {t : Term} (h : Ev ρ t) (hn : Neat r u V t) : t.isConst = true ∨ Lv u t := by
  obtain ⟨v, h⟩ := h
  cases t with
  | app k s ts => exact .inr (neat_app.1 hn).2.1
  | var vk s x => exact .inr (.inr (by simp [live]))
  | unknown => simp [eval] at h
  | err => simp [eval] at h
  | _ => exact .inl rfl

theorem livelyB {t : Term} (h : IsB ρ t) (hn : Neat r u V t) (h1 : t.isTrue = false) (h2 : t.isFalse = false) : Lv u t := by
  rcases lively h.ev hn with hc | hl
  · rcases constB hc h with rfl | rfl
    · cases h1
    · cases h2
  · exact hl

theorem livelyN {t : Term} (h : IsN ρ t) (hs : Std r t = true) (hn : Neat r u V t) : t.isCReal = true ∨ Lv u t := by
  rcases lively h.ev hn with hc | hl
  · rcases constN hs hc h with ⟨i, rfl⟩ | ⟨n, q, rfl, _⟩
    · exact .inl rfl
    · exact .inl rfl
  · exact .inr hl

theorem neat_mkNeg {t : Term} (hn : Neat r u V t) (h : t.isCReal = true ∨ Lv u t) : Neat r u V (mkNeg c t) := by
  unfold mkNeg mkOper1
  cases hq : simp1 c .neg t with
  | unknown =>
    simp only [isUnknown, Bool.not_true, Bool.false_eq_true, if_false]
    rw [neat_app]
    refine ⟨rfl, ?_, by simpa using hn⟩
    rcases h with h | h
    · exfalso
      cases t <;> simp [isCReal] at h <;> simp [simp1, isCInt, isCReal, mkConstReal] at hq
    · exact lv_app ⟨t, by simp, h⟩
  | _ =>
    simp only [isUnknown, Bool.not_false, if_true]
    refine neat_const ?_
    have : (simp1 c .neg t).isUnknown = true ∨ (simp1 c .neg t).isConst = true := by
      unfold simp1
      dsimp only
      repeat' split
      all_goals simp [isUnknown, isConst, mkConstReal]
    rw [hq] at this
    simpa [isUnknown] using this

theorem neat_simp2 (k : Kind) {p q : Term} (hp : Neat r u V p) (hq : Neat r u V q) (hN : k = .sub → q.isCReal = true ∨ Lv u q) :
    Neat r u V (simp2 c k p q) := by
  unfold simp2
  split
  all_goals repeat' split
  all_goals first
    | exact neat_ofBool _
    | exact neat_unknown
    | exact neat_tt
    | exact neat_ff
    | exact neat_cint _
    | exact neat_creal _
    | assumption
    | exact neat_mkNeg hq (hN rfl)

theorem neat_simpFold (k : Kind) : ∀ (ts : List Term) (a : Term), Neat r u V a → (∀ t ∈ ts, Neat r u V t) →
    (k = .sub → ∀ t ∈ ts, t.isCReal = true ∨ Lv u t) → Neat r u V (simpFold c k a ts) := by
  intro ts
  induction ts with
  | nil => intro a h _ _; exact h
  | cons t ts ih =>
    intro a h hts hN
    simp only [simpFold]
    split
    · exact neat_unknown
    · exact ih _ (neat_simp2 k h (hts t (by simp)) fun e => hN e t (by simp)) (fun v hv => hts v (List.mem_cons_of_mem _ hv))
        fun e v hv => hN e v (List.mem_cons_of_mem _ hv)

theorem neat_simp (k : Kind) (ps : List Term) (hk : relBin k ps.length = true) (h : ∀ t ∈ ps, Neat r u V t)
    (hN : k = .sub → ∀ t ∈ ps, t.isCReal = true ∨ Lv u t) : Neat r u V (simp c k ps) := by
  rcases ps with _ | ⟨a, _ | ⟨b, _ | ⟨d, _ | ⟨e, l⟩⟩⟩⟩
  · exact neat_unknown
  · show Neat r u V (simp1 c k a)
    have ha := h a (by simp)
    unfold simp1
    split
    all_goals repeat' split
    all_goals first | exact neat_tt | exact neat_ff | exact neat_unknown | exact neat_cint _ | exact neat_creal _ | exact ha
  · exact neat_simp2 k (h a (by simp)) (h b (by simp)) fun e => hN e b (by simp)
  · have h2 := neat_simp2 (c := c) k (neat_simp2 (c := c) k (h a (by simp)) (h b (by simp)) fun e => hN e b (by simp)) (h d (by simp)) fun e => hN e d (by simp)
    show Neat r u V (simp3 c k a b d)
    cases k <;> simp only [simp3] <;> first
      | exact h2
      | exact neat_unknown
      | (repeat' split
         all_goals first | exact h b (by simp) | exact h d (by simp) | exact neat_unknown
         done)
      | exact absurd hk (by simp [relBin])
  · show Neat r u V (simpN c k (a :: b :: d :: e :: l))
    have h2 := neat_simpFold (c := c) k (b :: d :: e :: l) a (h a (by simp)) (fun v hv => h v (List.mem_cons_of_mem _ hv))
      fun e v hv => hN e v (List.mem_cons_of_mem _ hv)
    cases k <;> simp only [simpN] <;> first
      | exact h2
      | exact neat_unknown
      | (rcases simpImpN_cases (a :: b :: d :: e :: l) with h | h | h <;> rw [h] <;> simp [Neat]
         done)
      | exact absurd hk (by simp [relBin])

/-- `mkOper`: folded, or a node that is not stuck -/
theorem neat_mkOper (s : Srt) (k : Kind) (ps : List Term) (hk : relBin k ps.length = true) (ht : topN r u k ps.length = true)
    (h : ∀ t ∈ ps, Neat r u V t) (hN : k = .sub → ∀ t ∈ ps, t.isCReal = true ∨ Lv u t)
    (hl : (simp c k ps).isUnknown = false ∨ ∀ qs : List Term, qs.Perm ps → Lv u (.app k s qs)) : Neat r u V (mkOper c s k ps) := by
  unfold mkOper
  split
  · exact neat_unknown
  · split
    · exact neat_simp k ps hk h hN
    · rename_i hu
      rcases hl with hl | hl
      · simp [hl] at hu
      · rw [neat_app]
        split
        · exact ⟨by rw [(c.perm ps).length_eq]; exact ht, hl _ (c.perm ps), fun t ht => h t ((c.perm ps).mem_iff.mp ht)⟩
        · exact ⟨ht, hl _ (.refl _), h⟩

theorem lv_perm {s : Srt} {k : Kind} {ps : List Term} (h : ∃ t ∈ ps, Lv u t) (qs : List Term) (hq : qs.Perm ps) : Lv u (.app k s qs) := by
  obtain ⟨t, ht, hl⟩ := h
  exact lv_app ⟨t, hq.mem_iff.2 ht, hl⟩

/-! ## Folding constants -/

theorem real_simp2 {k : Kind} (hk : k = .add ∨ k = .mul ∨ k = .sub) {a b : Term} (ha : a.isCReal = true) (hb : b.isCReal = true) :
    (simp2 c k a b).isCReal = true := by
  cases a <;> simp [isCReal] at ha <;> cases b <;> simp [isCReal] at hb <;> rcases hk with rfl | rfl | rfl <;>
    simp [simp2, isCInt, isCReal, mkConstReal]

theorem real_notUnknown {a : Term} (h : a.isCReal = true) : a.isUnknown = false := by
  cases a <;> simp [isCReal] at h <;> rfl

theorem real_fold {k : Kind} (hk : k = .add ∨ k = .mul ∨ k = .sub) : ∀ (ts : List Term) (a : Term), a.isCReal = true →
    (∀ t ∈ ts, t.isCReal = true) → (simpFold c k a ts).isCReal = true := by
  intro ts
  induction ts with
  | nil => intro a h _; exact h
  | cons t ts ih =>
    intro a h hts
    have h2 := real_simp2 (c := c) hk h (hts t (by simp))
    simp only [simpFold, real_notUnknown h2, Bool.false_eq_true, if_false]
    exact ih _ h2 fun v hv => hts v (List.mem_cons_of_mem _ hv)

/-- sums, products and differences of number literals are computed -/
theorem fold_num {k : Kind} (hk : k = .add ∨ k = .mul ∨ k = .sub) {ps : List Term} (hne : ps ≠ []) (h : ∀ t ∈ ps, t.isCReal = true) :
    (simp c k ps).isUnknown = false := by
  rcases ps with _ | ⟨a, _ | ⟨b, _ | ⟨d, _ | ⟨e, l⟩⟩⟩⟩
  · exact absurd rfl hne
  · have := real_notUnknown (h a (by simp))
    rcases hk with rfl | rfl | rfl <;> exact this
  · exact real_notUnknown (real_simp2 hk (h a (by simp)) (h b (by simp)))
  · have := real_notUnknown (real_simp2 (c := c) hk (real_simp2 (c := c) hk (h a (by simp)) (h b (by simp))) (h d (by simp)))
    rcases hk with rfl | rfl | rfl <;> exact this
  · have := real_notUnknown (real_fold (c := c) hk (b :: d :: e :: l) a (h a (by simp)) fun v hv => h v (List.mem_cons_of_mem _ hv))
    rcases hk with rfl | rfl | rfl <;> exact this

theorem xor_fold : ∀ (ts : List Term) (b : Bool), (∀ t ∈ ts, t.isTrue = true) → (simpFold c .xor (ofBool b) ts).isUnknown = false := by
  intro ts
  induction ts with
  | nil => intro b _; cases b <;> rfl
  | cons t ts ih =>
    intro b h
    have ht := h t (by simp)
    cases t <;> simp [Term.isTrue] at ht
    have : simp2 c .xor (ofBool b) .tt = ofBool !b := by cases b <;> rfl
    simp only [simpFold, this]
    rw [if_neg (by cases b <;> simp [ofBool, isUnknown])]
    exact ih _ fun v hv => h v (List.mem_cons_of_mem _ hv)

theorem fold_xor {ps : List Term} (hne : ps ≠ []) (h : ∀ t ∈ ps, t.isTrue = true) : (simp c .xor ps).isUnknown = false := by
  rcases ps with _ | ⟨a, l⟩
  · exact absurd rfl hne
  · have ha := h a (by simp)
    cases a <;> simp [Term.isTrue] at ha
    have h2 := xor_fold (c := c) l true fun v hv => h v (List.mem_cons_of_mem _ hv)
    rcases l with _ | ⟨b, _ | ⟨d, _ | ⟨e, l⟩⟩⟩
    · rfl
    · have hb := h b (by simp)
      cases b <;> simp [Term.isTrue] at hb
      rfl
    · have hb := h b (by simp)
      have hd := h d (by simp)
      cases b <;> simp [Term.isTrue] at hb
      cases d <;> simp [Term.isTrue] at hd
      rfl
    · exact h2

end

end SMT.Eval
