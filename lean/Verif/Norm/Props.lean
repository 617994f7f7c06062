import Verif.Norm.Model
import Verif.Subst.Props
import Verif.Eval.Std

/-! # C50: arithmetic normalisation -/

namespace SMT.Norm
open SMT SMT.Term SMT.Eval

set_option linter.unusedSimpArgs false
set_option linter.unusedVariables false

mutual
/-- Terms without `let`; `=>` does not have three operands, only uninterpreted functions may have none. -/
def Ok (o : Opt) : Term → Prop
  | .app k _ ts => o.isLet k = false ∧ (k = .implies → ts.length ≠ 3) ∧ (ts = [] → ∃ i, k = .uf i) ∧ OkL o ts
  | _ => True
/-- all terms of a list -/
def OkL (o : Opt) : List Term → Prop
  | [] => True
  | t :: ts => Ok o t ∧ OkL o ts
end

/-- an equation does not compare rounded literals -/
def EqFit (c : Cfg) : Term → Prop
  | .app .eq _ [a, b] => (Fit c a ∧ Fit c b) ∨ a.isConst = false ∨ b.isConst = false
  | _ => True

/-- a result that is as good as the original -/
structure Good (c : Cfg) (ρ : Env) (v : Val) (t : Term) : Prop where
  ev : eval ρ t = some v
  fit : Fit c t
  std : Std true t = true
  eqf : EqFit c t

/-- what `simplifyArray` has to keep; see C26 -/
def ArrOK (c : Cfg) (o : Opt) : Prop := ∀ ρ v t, Good c ρ v t → Good c ρ v (o.simplifyArray t)

/-! ## `EqFit` of built terms -/

theorem eqFit_ofBool (c : Cfg) (x : Bool) : EqFit c (ofBool x) := by cases x <;> simp [ofBool, EqFit]

theorem eqFit_simp1 (c : Cfg) (k : Kind) {p : Term} (h : EqFit c p) : EqFit c (simp1 c k p) := by
  unfold simp1
  split
  all_goals repeat' split
  all_goals first | exact h | simp [EqFit, mkConstReal]

theorem eqFit_mkNeg (c : Cfg) {p : Term} (h : EqFit c p) : EqFit c (mkNeg c p) := by
  unfold mkNeg mkOper1
  split
  · exact eqFit_simp1 c _ h
  · simp [EqFit]

theorem eqFit_simp2 (c : Cfg) (k : Kind) {p q : Term} (hp : EqFit c p) (hq : EqFit c q) : EqFit c (simp2 c k p q) := by
  have hb := eqFit_ofBool c
  unfold simp2
  split
  all_goals repeat' split
  all_goals first | exact hb _ | exact hp | exact eqFit_mkNeg c hq | simp [EqFit, mkConstReal]

theorem eqFit_simpFold (c : Cfg) (k : Kind) : ∀ (ts : List Term) (a : Term), EqFit c a → (∀ t ∈ ts, EqFit c t) →
    EqFit c (simpFold c k a ts) := by
  intro ts
  induction ts with
  | nil => intro a h _; exact h
  | cons t ts ih =>
    intro a h hts
    simp only [simpFold]
    split
    · simp [EqFit]
    · exact ih _ (eqFit_simp2 c k h (hts t (by simp))) fun u hu => hts u (List.mem_cons_of_mem _ hu)

theorem eqFit_simp (c : Cfg) (k : Kind) (ps : List Term) (hk : relBin k ps.length = true) (h : ∀ t ∈ ps, EqFit c t) :
    EqFit c (simp c k ps) := by
  have hu : EqFit c .unknown := by simp [EqFit]
  rcases ps with _ | ⟨a, _ | ⟨b, _ | ⟨d, _ | ⟨e, l⟩⟩⟩⟩
  · exact hu
  · exact eqFit_simp1 c k (h a (by simp))
  · exact eqFit_simp2 c k (h a (by simp)) (h b (by simp))
  · have h2 := eqFit_simp2 c k (eqFit_simp2 c k (h a (by simp)) (h b (by simp))) (h d (by simp))
    show EqFit c (simp3 c k a b d)
    cases k <;> simp only [simp3] <;> first
      | exact h2
      | exact hu
      | (repeat' split
         all_goals first | exact h b (by simp) | exact h d (by simp) | exact hu
         done)
      | exact absurd hk (by simp [relBin])
  · show EqFit c (simpN c k (a :: b :: d :: e :: l))
    have h2 := eqFit_simpFold c k (b :: d :: e :: l) a (h a (by simp)) fun u hu => h u (List.mem_cons_of_mem _ hu)
    cases k <;> simp only [simpN] <;> first
      | exact h2
      | exact hu
      | (rcases simpImpN_cases (a :: b :: d :: e :: l) with h | h | h <;> rw [h] <;> simp [EqFit]
         done)
      | exact absurd hk (by simp [relBin])

theorem eqFit_one {c : Cfg} {s : Srt} {a b : Term} {l : List Term} (h : l.Perm [a, b]) (ha : a.isConst = false) :
    EqFit c (.app .eq s l) := by
  have hn := h.length_eq
  rcases l with _ | ⟨x, _ | ⟨y, _ | ⟨d, l⟩⟩⟩ <;> simp at hn
  have hm : a ∈ [x, y] := h.mem_iff.mpr (by simp)
  simp only [List.mem_cons, List.not_mem_nil, or_false] at hm
  rcases hm with rfl | rfl
  · exact .inr (.inl ha)
  · exact .inr (.inr ha)

theorem eqFit_mkOper (c : Cfg) (s : Srt) (k : Kind) (ps : List Term) (hk : relBin k ps.length = true)
    (h : ∀ t ∈ ps, EqFit c t) (hf : ∀ t ∈ ps, Fit c t) : EqFit c (mkOper c s k ps) := by
  unfold mkOper
  split
  · simp [EqFit]
  · split
    · exact eqFit_simp c k ps hk h
    · have hq : ∀ t ∈ (if isComm k = true then c.sort ps else ps), Fit c t := by
        intro t ht
        split at ht
        · exact hf t ((c.perm ps).mem_iff.mp ht)
        · exact hf t ht
      generalize (if isComm k = true then c.sort ps else ps) = l at hq
      cases k <;> try (simp [EqFit]; done)
      rcases l with _ | ⟨a, _ | ⟨b, _ | ⟨d, l⟩⟩⟩ <;> try (simp [EqFit]; done)
      exact .inl ⟨hq a (by simp), hq b (by simp)⟩

theorem good_mkOper {c : Cfg} {ρ : Env} {k : Kind} {s : Srt} {ps : List Term} {v : Val} (hne : ps ≠ [])
    (h3 : k = .implies → ps.length ≠ 3) (hk : relBin k ps.length = true) (hf : ∀ t ∈ ps, Fit c t)
    (hs : ∀ t ∈ ps, Std true t = true) (hq : ∀ t ∈ ps, EqFit c t) (hv : v.hasSort s = true) (h : evalApp ρ k ps s = some v) :
    Good c ρ v (mkOper c s k ps) := by
  obtain ⟨h1, h2⟩ := mkOper_sound3 c ρ k ps s v hf hne (fun a b => absurd b (h3 a)) hv h
  exact ⟨h1, h2, std_mkOper c s k ps hk hs, eqFit_mkOper c s k ps hk hq hf⟩

/-! ## Comparisons -/

theorem mem2 {P : Term → Prop} {a b : Term} (ha : P a) (hb : P b) : ∀ t ∈ [a, b], P t := by
  intro t ht
  simp only [List.mem_cons, List.not_mem_nil, or_false] at ht
  rcases ht with rfl | rfl <;> assumption

/-- moving everything to the left keeps the value -/
theorem cmp_shift {ρ : Env} {k : Kind} {l r d z : Term} {s : Srt} {v : Val} {a b : Rat}
    (hk : isCmp k = true ∨ k = .eq ∨ k = .distinct) (hl : eval ρ l = some (.n a)) (hr : eval ρ r = some (.n b))
    (hd : eval ρ d = some (.n (a - b))) (hz : eval ρ z = some (.n 0)) (h : evalApp ρ k [l, r] s = some v) :
    evalApp ρ k [d, z] s = some v := by
  have e1 : a - b ≤ 0 ↔ a ≤ b := by grind
  have e2 : a - b < 0 ↔ a < b := by grind
  have e3 : 0 ≤ a - b ↔ b ≤ a := by grind
  have e4 : 0 < a - b ↔ b < a := by grind
  have e5 : a - b = 0 ↔ a = b := by grind
  unfold evalApp at h ⊢
  simp only [evalL, hl, hr, hd, hz] at h ⊢
  rcases hk with hk | rfl | rfl
  · cases k <;> simp [isCmp] at hk <;> simp_all [apply, cmpChain, numsOf, chain]
  · simp_all [apply, homog, chain, Val.sameSort]
  · simp_all [apply, homog, pairw, Val.sameSort]

theorem isCmp_kind {k : Kind} {s : Srt} {ts : List Term} (h : isArithComp (.app k s ts) = true) :
    isCmp k = true ∨ k = .eq ∨ k = .distinct := by
  cases k <;> simp_all [isArithComp, isCmp]

theorem arithTerm_num {ρ : Env} {t : Term} {v : Val} (h : t.isArithTerm = true) (he : eval ρ t = some v) : ∃ a, v = .n a := by
  have hs := eval_hasSort he
  cases t with
  | cint i => exact ⟨i, by simpa [eval] using he.symm⟩
  | creal n q => exact ⟨q, by simpa [eval] using he.symm⟩
  | var vk s x =>
    have : s = .int ∨ s = .real := by simpa [isArithTerm] using h
    rcases this with rfl | rfl <;> cases v <;> simp [Term.sort, Val.hasSort] at hs
    · exact ⟨_, rfl⟩
    · simp [Srt.isNum] at hs
    · exact ⟨_, rfl⟩
    · simp [Srt.isNum] at hs
  | app k s ts =>
    obtain ⟨h1, h2⟩ := guardSort_some.1 (by rw [eval_app] at he; exact he)
    have hn : s.isNum = true → ∃ a, v = .n a := by
      intro hn
      cases v with
      | n q => exact ⟨q, rfl⟩
      | b x => cases s <;> simp_all [Srt.isNum, Val.hasSort]
      | u s' x => cases s <;> simp_all [Srt.isNum, Val.hasSort]
    unfold evalApp at h1
    cases hl : evalL ρ ts with
    | none => rw [hl] at h1; cases h1
    | some vs =>
      rw [hl] at h1
      cases k <;> simp [isArithTerm] at h <;> try exact hn h
      all_goals
        simp only [apply] at h1
        split at h1 <;> first
          | exact ⟨_, (Option.some.inj h1).symm⟩
          | cases h1
  | _ => simp [isArithTerm] at h

/-- both sides of a comparison are numbers -/
theorem comp_num {ρ : Env} {k : Kind} {s s' : Srt} {l r : Term} {v a b : Val} (h : isArithComp (.app k s [l, r]) = true)
    (hl : eval ρ l = some a) (hr : eval ρ r = some b) (he : evalApp ρ k [l, r] s' = some v) :
    (∃ x, a = .n x) ∧ ∃ x, b = .n x := by
  unfold evalApp at he
  simp only [evalL, hl, hr] at he
  have hq : l.isArithTerm = true → homog [a, b] = true → (∃ x, a = .n x) ∧ ∃ x, b = .n x := by
    intro h1 h2
    obtain ⟨x, rfl⟩ := arithTerm_num h1 hl
    cases b <;> simp [homog, Val.sameSort] at h2
    exact ⟨⟨_, rfl⟩, _, rfl⟩
  have hc : ∀ f, cmpChain f [a, b] = some v → (∃ x, a = .n x) ∧ ∃ x, b = .n x := by
    intro f hf
    cases a <;> cases b <;> simp [cmpChain, numsOf] at hf
    exact ⟨⟨_, rfl⟩, _, rfl⟩
  cases k <;> simp [isArithComp] at h
  · simp only [apply] at he; split at he
    · rename_i h2; exact hq h h2
    · cases he
  · simp only [apply] at he; split at he
    · rename_i h2; exact hq h h2
    · cases he
  all_goals exact hc _ he

theorem hasSort_n {q : Rat} {s : Srt} (h : (Val.n q).hasSort s = true) : s.isNum = true := by
  cases s <;> simp_all [Val.hasSort, Srt.isNum]

theorem getZero_eval (c : Cfg) (ρ : Env) {s : Srt} (h : s.isNum = true) : eval ρ (getZero c s) = some (.n 0) ∧
    Std true (getZero c s) = true ∧ EqFit c (getZero c s) := by
  cases s <;> simp_all [Srt.isNum, getZero, mkConstReal, eval, Std, leafOk, EqFit]

theorem num_hasSort_bool {k : Kind} {ρ : Env} {s : Srt} {ts : List Term} {v : Val} (hk : isCmp k = true ∨ k = .eq ∨ k = .distinct)
    (h : evalApp ρ k ts s = some v) : v.hasSort .bool = true := by
  unfold evalApp at h
  cases hl : evalL ρ ts with
  | none => rw [hl] at h; cases h
  | some vs =>
    rw [hl] at h
    rcases hk with hk | rfl | rfl
    · have hc : ∀ f, cmpChain f vs = some v → v.hasSort .bool = true := by
        intro f hf
        unfold cmpChain at hf
        split at hf
        · obtain rfl := Option.some.inj hf; rfl
        · cases hf
      cases k <;> simp [isCmp] at hk <;> exact hc _ h
    · simp only [apply] at h; split at h
      · obtain rfl := Option.some.inj h; rfl
      · cases h
    · simp only [apply] at h; split at h
      · obtain rfl := Option.some.inj h; rfl
      · cases h

theorem relBin2 (k : Kind) : relBin k 2 = true := by cases k <;> rfl

theorem sub_app {c : Cfg} {l r : Term} (hl : l.isConst = false) (hr : r.isConst = false) :
    mkOper c l.sort .sub [l, r] = .app .sub l.sort [l, r] := by
  have h1 : l.isCInt = false := by cases l <;> simp_all [isConst, isCInt]
  have h2 : l.isCReal = false := by cases l <;> simp_all [isConst, isCReal]
  have h3 : r.isCReal = false := by cases r <;> simp_all [isConst, isCReal]
  have h4 : r.isCInt = false := by cases r <;> simp_all [isConst, isCInt]
  simp [mkOper, simp, simp2, h1, h2, h3, h4, isZero, isUnknown, isComm]

theorem cmp_app {c : Cfg} {k k' : Kind} {s : Srt} {us : List Term} {z : Term} (hk : isCmp k = true ∨ k = .eq ∨ k = .distinct) :
    mkOper c .bool k [.app k' s us, z] = .app k .bool (if isComm k then c.sort [.app k' s us, z] else [.app k' s us, z]) := by
  have : simp c k [.app k' s us, z] = .unknown := by
    rcases hk with hk | rfl | rfl
    · cases k <;> simp [isCmp] at hk <;> simp [simp, simp2, isCInt, isCReal]
    · simp [simp, simp2, isCInt, isCReal, isCBV, isCStr]
    · simp [simp, simp2, isCInt, isCReal, isCBV, isCStr]
  simp [mkOper, this, isUnknown]

/-- the rewritten comparison -/
theorem shifted_good {c : Cfg} {ρ : Env} {k : Kind} {l r : Term} {s : Srt} {v : Val} {a b : Rat} (hI : IntOK c)
    (hk : isCmp k = true ∨ k = .eq ∨ k = .distinct) (hl : Good c ρ (.n a) l) (hr : Good c ρ (.n b) r) (hrc : r.isConst = false)
    (h : evalApp ρ k [l, r] s = some v) :
    Good c ρ v (mkOper c .bool k [mkOper c l.sort .sub [l, r], getZero c l.sort]) := by
  have hsn := hasSort_n (eval_hasSort hl.ev)
  have hlr : ∀ (P : Term → Prop), P l → P r → ∀ t ∈ [l, r], P t := fun P => mem2
  have hsub : evalApp ρ .sub [l, r] l.sort = some (.n (a - b)) := by
    unfold evalApp
    simp [evalL, hl.ev, hr.ev, apply, numsOf, Rat.add_zero]
  have gd : Good c ρ (.n (a - b)) (mkOper c l.sort .sub [l, r]) :=
    good_mkOper (by simp) (by simp) rfl (mem2 hl.fit hr.fit) (mem2 hl.std hr.std) (mem2 hl.eqf hr.eqf) (hasSort_num hsn) hsub
  obtain ⟨z1, z2, z3⟩ := getZero_eval c ρ hsn
  have hev := cmp_shift (s := .bool) hk hl.ev hr.ev gd.ev z1 (by
    rcases hk with hk | rfl | rfl
    · cases k <;> simp [isCmp] at hk <;> exact h
    · exact h
    · exact h)
  have hb := num_hasSort_bool hk hev
  have easy : Fit c (getZero c l.sort) → Good c ρ v (mkOper c .bool k [mkOper c l.sort .sub [l, r], getZero c l.sort]) := by
    intro hz
    exact good_mkOper (by simp) (by simp) (relBin2 k) (mem2 gd.fit hz) (mem2 gd.std z2) (mem2 gd.eqf z3) hb hev
  rcases hl.fit with hx | ⟨hn, _⟩
  · exact easy (.inl hx)
  · by_cases hreal : l.sort = .real
    · have hlc : l.isConst = false := by
        have := hl.ev
        have hst := hl.std
        cases l <;> simp_all [Term.isConst, NoReal, Term.sort, Std, leafOk, eval]
      rw [sub_app hlc hrc] at gd hev ⊢
      refine ⟨?_, ?_, ?_, ?_⟩
      · rw [cmp_app hk, eval_app]
        refine guardSort_some.2 ⟨?_, hb⟩
        split
        · rename_i hcm; exact evalApp_perm ρ k hcm (c.perm _) .bool v hev
        · exact hev
      · rw [cmp_app hk]; exact Subst.fit_app hI _ _ _
      · exact std_mkOper c _ _ _ (relBin2 k) (mem2 gd.std z2)
      · by_cases hke : k = .eq
        · subst hke
          rw [cmp_app hk]
          exact eqFit_one (c.perm _) (by simp [Term.isConst])
        · rw [cmp_app hk]; cases k <;> simp [EqFit] at hke ⊢
    · refine easy (.inr ⟨?_, hI⟩)
      have : l.sort = .int ∨ l.sort = .ior := by
        generalize l.sort = s at hsn hreal
        cases s <;> simp_all [Srt.isNum]
      rcases this with h | h <;> rw [h] <;> trivial

/-! ## The traversal -/

theorem dfit_child {c : Cfg} {k : Kind} {s : Srt} {ts : List Term} (h : DFit c (.app k s ts)) : ∀ t ∈ ts, DFit c t := by
  intro t ht
  rcases h with h | ⟨h1, h2⟩
  · exact .inl h
  · exact .inr ⟨h1, (noRealsL_iff ts).1 (by simpa [noReals] using h2) t ht⟩

theorem good_self {c : Cfg} {ρ : Env} {v : Val} {k : Kind} {s : Srt} {ts : List Term} (hd : DFit c (.app k s ts))
    (hs : Std true (.app k s ts) = true) (h : eval ρ (.app k s ts) = some v) : Good c ρ v (.app k s ts) := by
  refine ⟨h, hd.fit, hs, ?_⟩
  cases k <;> try (simp [EqFit]; done)
  rcases ts with _ | ⟨a, _ | ⟨b, _ | ⟨d, l⟩⟩⟩ <;> try (simp [EqFit]; done)
  exact .inl ⟨(dfit_child hd a (by simp)).fit, (dfit_child hd b (by simp)).fit⟩

theorem good_leaf {c : Cfg} {ρ : Env} {v : Val} {t : Term} (hd : DFit c t) (ha : ∀ k s ts, t ≠ .app k s ts)
    (hs : Std true t = true) (h : eval ρ t = some v) : Good c ρ v t := by
  refine ⟨h, hd.fit, hs, ?_⟩
  cases t <;> try (simp [EqFit]; done)
  exact absurd rfl (ha _ _ _)

/-- all results of a list -/
inductive Goods (c : Cfg) (ρ : Env) : List Val → List R → Prop where
  | nil : Goods c ρ [] []
  | cons {v vs u b rs} : Good c ρ v u → Goods c ρ vs rs → Goods c ρ (v :: vs) ((some u, b) :: rs)

theorem goods_all {c : Cfg} {ρ : Env} {vs : List Val} {rs : List R} (h : Goods c ρ vs rs) :
    ∃ us, allSome rs = some us ∧ evalL ρ us = some vs ∧ us.length = vs.length ∧
      ∀ t ∈ us, Fit c t ∧ Std true t = true ∧ EqFit c t := by
  induction h with
  | nil => exact ⟨[], rfl, rfl, rfl, by simp⟩
  | cons g _ ih =>
    obtain ⟨us, h1, h2, h3, h4⟩ := ih
    refine ⟨_ :: us, by simp [allSome, h1]; rfl, by simp [evalL, g.ev, h2], by simp [h3], ?_⟩
    intro t ht
    rcases List.mem_cons.mp ht with rfl | ht
    · exact ⟨g.fit, g.std, g.eqf⟩
    · exact h4 t ht

theorem eqSimp_good {c : Cfg} {ρ : Env} {v : Val} {t : Term} (us : List Term) (hI : IntOK c) (g : Good c ρ v t)
    (h : (eqSimp c us t).isUnknown = false) : Good c ρ v (eqSimp c us t) := by
  unfold eqSimp at h ⊢
  split at h
  · rename_i s a b
    obtain ⟨h1, h2⟩ := guardSort_some.1 (by have := g.ev; rw [eval_app] at this; exact this)
    have hs := g.std
    rw [std_app] at hs
    rcases g.eqf with ⟨fa, fb⟩ | hc | hc
    · rcases simp2_sound c ρ .eq a b s v fa fb h1 with hu | ⟨h3, h4⟩
      · rw [hu] at h; cases h
      · refine ⟨h3, h4, std_simp2 c _ (hs.2 a (by simp)) (hs.2 b (by simp)), ?_⟩
        simp only [simp2]
        repeat' split
        all_goals first | exact eqFit_ofBool c _ | simp [EqFit]
    · exfalso
      have : simp2 c .eq a b = .unknown := by
        cases a <;> simp [Term.isConst] at hc <;> simp [simp2, isCInt, isCReal, isCBV, isCStr]
      rw [this] at h; cases h
    · exfalso
      have : simp2 c .eq a b = .unknown := by
        cases b <;> simp [Term.isConst] at hc <;> simp [simp2, isCInt, isCReal, isCBV, isCStr]
      rw [this] at h; cases h
  · have hs := g.std
    simp [Std, relBin] at hs
  · cases h

theorem after_good {c : Cfg} {o : Opt} {ρ : Env} {v : Val} {t : Term} (hI : IntOK c) (ho : ArrOK c o) (us : List Term) (ch : Bool)
    (g : Good c ρ v t) : ∃ u b, after c o us t ch = (some u, b) ∧ Good c ρ v u := by
  have g' := ho ρ v t g
  unfold after
  simp only
  cases h : (eqSimp c us (o.simplifyArray t)).isUnknown with
  | true => exact ⟨_, _, by rw [if_pos rfl], g'⟩
  | false => exact ⟨_, _, by rw [if_neg (by simp)], eqSimp_good us hI g' h⟩

theorem build_good {c : Cfg} {ρ : Env} {k : Kind} {s : Srt} {us : List Term} {vs : List Val} {v : Val} (hI : IntOK c)
    (hu : evalL ρ us = some vs) (hg : ∀ t ∈ us, Fit c t ∧ Std true t = true ∧ EqFit c t) (hk : relBin k us.length = true)
    (h3 : k = .implies → us.length ≠ 3) (hne : us = [] → ∃ i, k = .uf i) (h : guardSort s (apply ρ k s vs) = some v) :
    ∃ t, Subst.build c k s us = .ok t ∧ Good c ρ v t := by
  obtain ⟨t, h1, h2, h4⟩ := Subst.oper_gives hI hu (fun t ht => (hg t ht).1) h h3 hne
  suffices hx : Std true t = true ∧ EqFit c t from ⟨t, h1, h2, h4, hx.1, hx.2⟩
  by_cases hk' : ∃ i, k = .uf i
  · obtain ⟨i, rfl⟩ := hk'
    obtain rfl : Term.app (.uf i) s us = t := by simpa [Subst.build] using h1
    exact ⟨std_app.2 ⟨rfl, fun t ht => (hg t ht).2.1⟩, by simp [EqFit]⟩
  · have he : us.isEmpty = false := by
      cases us with
      | nil => exact absurd (hne rfl) hk'
      | cons => rfl
    have : t = mkOper c s k us := by
      unfold Subst.build at h1
      cases k <;> first
        | (exact absurd ⟨_, rfl⟩ hk')
        | (simp only [he, Bool.false_eq_true, if_false, Res.ok.injEq] at h1; exact h1.symm)
    subst this
    exact ⟨std_mkOper c s k us hk fun t ht => (hg t ht).2.1,
      eqFit_mkOper c s k us hk (fun t ht => (hg t ht).2.2) fun t ht => (hg t ht).1⟩

theorem eqFit_app {c : Cfg} {k : Kind} {s : Srt} {us : List Term} (hg : ∀ t ∈ us, Fit c t) : EqFit c (.app k s us) := by
  cases k <;> try (simp [EqFit]; done)
  rcases us with _ | ⟨a, _ | ⟨b, _ | ⟨d, l⟩⟩⟩ <;> try (simp [EqFit]; done)
  exact .inl ⟨hg a (by simp), hg b (by simp)⟩

theorem normL_length (c : Cfg) (o : Opt) : ∀ {ts : List Term} {rs : List R}, normL c o ts = .ok rs → rs.length = ts.length
  | [], rs, h => by simp only [normL, Res.ok.injEq] at h; subst h; rfl
  | t :: ts, rs, h => by
    simp only [normL] at h
    cases h1 : norm c o t <;> rw [h1] at h <;> simp only [Res.bind] at h <;> try cases h
    cases h2 : normL c o ts <;> rw [h2] at h <;> simp only [Res.bind] at h <;> try cases h
    simp [normL_length c o h2]

mutual
theorem norm_good (c : Cfg) (o : Opt) (ρ : Env) (hI : IntOK c) (ho : ArrOK c o) :
    (t : Term) → Ok o t → DFit c t → Std true t = true → ∀ v, eval ρ t = some v →
      ∃ u b, norm c o t = .ok (some u, b) ∧ Good c ρ v u
  | .app k s ts, hok, hd, hs, v, h => by
    simp only [Ok] at hok
    obtain ⟨hl, h3, hne, hts⟩ := hok
    simp only [norm]
    by_cases ha : (Term.app k s ts).isArithTerm = true
    · rw [if_pos ha]; exact ⟨_, _, rfl, good_self hd hs h⟩
    · rw [if_neg ha, hl]
      simp only [Bool.false_eq_true, if_false]
      obtain ⟨hr, hss⟩ := std_app.1 hs
      have hev := h
      simp only [eval] at hev
      cases hvs : evalL ρ ts with
      | none => rw [hvs] at hev; cases hev
      | some vs =>
        rw [hvs] at hev
        simp only at hev
        obtain ⟨rs, h1, h2⟩ := normL_good c o ρ hI ho ts hts (dfit_child hd) hss vs hvs
        rw [h1]
        simp only [Res.bind]
        obtain ⟨us, e1, e2, e3, e4⟩ := goods_all h2
        have hlen : us.length = ts.length := by rw [e3]; exact Subst.evalL_length hvs
        obtain ⟨hap, hv⟩ := guardSort_some.1 hev
        by_cases hc : isArithComp (.app k s ts) = true
        · rw [if_pos hc]
          have hkk := isCmp_kind hc
          have h2' : ts.length = 2 := by
            rcases hkk with hk | rfl | rfl
            · cases k <;> simp [isCmp] at hk <;> simpa [relBin] using hr
            · simpa [relBin] using hr
            · simpa [relBin] using hr
          have hevA : evalApp ρ k ts s = some v := by unfold evalApp; rw [hvs]; exact hap
          obtain ⟨t1, t2, rfl⟩ : ∃ t1 t2, ts = [t1, t2] := by
            rcases ts with _ | ⟨a, _ | ⟨b, _ | ⟨d, l⟩⟩⟩ <;> simp at h2'
            exact ⟨a, b, rfl⟩
          have hvl := Subst.evalL_length hvs
          obtain ⟨v1, v2, rfl⟩ : ∃ v1 v2, vs = [v1, v2] := by
            rcases vs with _ | ⟨a, _ | ⟨b, _ | ⟨d, l⟩⟩⟩ <;> simp at hvl
            exact ⟨a, b, rfl⟩
          cases h2 with
          | @cons _ _ l b1 _ gl h2 =>
          cases h2 with
          | @cons _ _ r b2 _ gr h2 =>
          cases h2
          have hv12 : eval ρ t1 = some v1 ∧ eval ρ t2 = some v2 := by
            simp only [evalL] at hvs
            cases q1 : eval ρ t1 <;> cases q2 : eval ρ t2 <;> simp [q1, q2] at hvs
            exact ⟨congrArg some hvs.1, congrArg some hvs.2⟩
          obtain ⟨⟨a, rfl⟩, b, rfl⟩ := comp_num hc hv12.1 hv12.2 hevA
          have hevB : evalApp ρ k [l, r] s = some v := by
            unfold evalApp
            simp only [evalL, gl.ev, gr.ev]
            exact hap
          simp only [comp]
          cases hrc : r.isConst with
          | false => exact ⟨_, _, rfl, shifted_good hI hkk gl gr hrc hevB⟩
          | true =>
            simp only [Bool.not_true, Bool.false_eq_true, if_false]
            split
            · exact ⟨_, _, rfl, good_mkOper (by simp) (by simp) (relBin2 k) (mem2 gl.fit gr.fit) (mem2 gl.std gr.std)
                (mem2 gl.eqf gr.eqf) hv hevB⟩
            · exact ⟨_, _, rfl, good_self hd hs h⟩
        · rw [if_neg hc]
          unfold other
          split
          · obtain ⟨u, b, q1, q2⟩ := after_good hI ho ts false (good_self hd hs h)
            exact ⟨u, b, by rw [q1], q2⟩
          · rw [e1]
            simp only
            have hb : ∃ t, (if o.arr s then .ok (.app k s us) else Subst.build c k s us : Res Term) = .ok t ∧ Good c ρ v t := by
              split
              · refine ⟨_, rfl, ?_, Subst.fit_app hI _ _ _, std_app.2 ⟨by rw [hlen]; exact hr, fun t ht => (e4 t ht).2.1⟩,
                  eqFit_app fun t ht => (e4 t ht).1⟩
                simp only [eval, e2]
                exact hev
              · exact build_good hI e2 e4 (by rw [hlen]; exact hr) (fun hk => by rw [hlen]; exact h3 hk)
                  (fun h0 => hne (by rw [← List.length_eq_zero_iff, ← hlen, h0]; rfl)) hev
            obtain ⟨t, q1, q2⟩ := hb
            rw [q1]
            simp only [Res.bind]
            obtain ⟨u, b, q3, q4⟩ := after_good hI ho us true q2
            exact ⟨u, b, by rw [q3], q4⟩
  | .tt, _, hd, hs, v, h => ⟨_, _, rfl, good_leaf hd (by simp) hs h⟩
  | .ff, _, hd, hs, v, h => ⟨_, _, rfl, good_leaf hd (by simp) hs h⟩
  | .cint _, _, hd, hs, v, h => ⟨_, _, rfl, good_leaf hd (by simp) hs h⟩
  | .creal _ _, _, hd, hs, v, h => ⟨_, _, rfl, good_leaf hd (by simp) hs h⟩
  | .clit _ _, _, hd, hs, v, h => ⟨_, _, rfl, good_leaf hd (by simp) hs h⟩
  | .var _ _ _, _, hd, hs, v, h => ⟨_, _, rfl, good_leaf hd (by simp) hs h⟩
  | .unknown, _, hd, hs, v, h => ⟨_, _, rfl, good_leaf hd (by simp) hs h⟩
  | .err, _, hd, hs, v, h => ⟨_, _, rfl, good_leaf hd (by simp) hs h⟩
theorem normL_good (c : Cfg) (o : Opt) (ρ : Env) (hI : IntOK c) (ho : ArrOK c o) :
    (ts : List Term) → OkL o ts → (∀ t ∈ ts, DFit c t) → (∀ t ∈ ts, Std true t = true) → ∀ vs, evalL ρ ts = some vs →
      ∃ rs, normL c o ts = .ok rs ∧ Goods c ρ vs rs
  | [], _, _, _, vs, h => by
    simp only [evalL, Option.some.injEq] at h
    subst h
    exact ⟨[], rfl, .nil⟩
  | t :: ts, hok, hd, hs, vs, h => by
    simp only [OkL] at hok
    simp only [evalL] at h
    cases h1 : eval ρ t with
    | none => rw [h1] at h; cases h
    | some w =>
      cases h2 : evalL ρ ts with
      | none => rw [h1, h2] at h; cases h
      | some ws =>
        rw [h1, h2] at h
        simp only [Option.some.injEq] at h
        subst h
        obtain ⟨u, b, q1, q2⟩ := norm_good c o ρ hI ho t hok.1 (hd t (by simp)) (hs t (by simp)) w h1
        obtain ⟨rs, q3, q4⟩ := normL_good c o ρ hI ho ts hok.2 (fun t ht => hd t (by simp [ht])) (fun t ht => hs t (by simp [ht])) ws h2
        exact ⟨(some u, b) :: rs, by simp only [normL, q1, q3, Res.bind], .cons q2 q4⟩
end

/-- **C50.**  Normalising a term without `let` keeps its value under every assignment: for every term with a value, of any size, if
relations have two operands, `=>` not three and array simplification keeps values. -/
theorem arithNormalize_sound_partial (c : Cfg) (o : Opt) (ρ : Env) (hI : IntOK c) (ho : ArrOK c o) (e : Term) (hok : Ok o e)
    (hd : DFit c e) (hs : Std true e = true) (v : Val) (h : eval ρ e = some v) :
    ∃ u, arithNormalize c o e = .ok (some u) ∧ eval ρ u = some v := by
  obtain ⟨u, b, h1, h2⟩ := norm_good c o ρ hI ho e hok hd hs v h
  refine ⟨u, ?_, h2.ev⟩
  cases e with
  | app k s ts =>
    simp only [Ok] at hok
    simp [arithNormalize, hok.1, h1, Res.bind]
  | err => simp [eval] at h
  | _ => simp [arithNormalize, h1, Res.bind]

/-! ## The form of a normalised comparison -/

theorem norm_arithTerm (c : Cfg) (o : Opt) {t : Term} (h : t.isArithTerm = true) : norm c o t = .ok (some t, false) := by
  cases t <;> simp [isArithTerm] at h <;> simp [norm]
  intro h'
  simp_all [isArithTerm]

/-- **C50, form.**  A comparison `l op r` of arithmetic terms with a right-hand side that is not a literal becomes `(l - r) op 0`,
with zero of the sort of `l`; with a literal on the right it stays as it is.  For every operator `<=`, `<`, `>=`, `>` and all
operands. -/
theorem arithNormalize_cmp (c : Cfg) (o : Opt) (k : Kind) (hk : isCmp k = true) (hlet : o.isLet k = false) (l r : Term)
    (hl : l.isArithTerm = true) (hr : r.isArithTerm = true) :
    arithNormalize c o (.app k .bool [l, r]) = .ok (some
      (if r.isConst then .app k .bool [l, r] else mkOper c .bool k [mkOper c l.sort .sub [l, r], getZero c l.sort])) := by
  have h1 : (Term.app k .bool [l, r]).isArithTerm = false := by cases k <;> simp [isCmp] at hk <;> rfl
  have h2 : isArithComp (.app k .bool [l, r]) = true := by cases k <;> simp [isCmp] at hk <;> rfl
  simp only [arithNormalize, hlet, Bool.false_eq_true, if_false, norm, h1, normL, norm_arithTerm c o hl, norm_arithTerm c o hr,
    Res.bind, h2, if_true, comp]
  cases r.isConst <;> simp

/-- and if the left-hand side is not a literal either, nothing is folded: the result is exactly `(l - r) op 0` -/
theorem arithNormalize_cmp_form (c : Cfg) (o : Opt) (k : Kind) (hk : isCmp k = true) (hlet : o.isLet k = false) (l r : Term)
    (hl : l.isArithTerm = true) (hr : r.isArithTerm = true) (hlc : l.isConst = false) (hrc : r.isConst = false) :
    arithNormalize c o (.app k .bool [l, r]) = .ok (some (.app k .bool [.app .sub l.sort [l, r], getZero c l.sort])) := by
  rw [arithNormalize_cmp c o k hk hlet l r hl hr, hrc, sub_app hlc hrc, cmp_app (.inl hk)]
  cases k <;> simp [isCmp] at hk <;> simp [isComm]

/-- normalising a normalised comparison changes nothing -/
theorem arithNormalize_cmp_idem (c : Cfg) (o : Opt) (k : Kind) (hk : isCmp k = true) (hlet : o.isLet k = false) (l r : Term)
    (hl : l.isArithTerm = true) (hr : r.isArithTerm = true) (hlc : l.isConst = false) (hrc : r.isConst = false) (hs : l.sort.isNum = true) :
    ∃ u, arithNormalize c o (.app k .bool [l, r]) = .ok (some u) ∧ arithNormalize c o u = .ok (some u) := by
  refine ⟨_, arithNormalize_cmp_form c o k hk hlet l r hl hr hlc hrc, ?_⟩
  have hz : (getZero c l.sort).isArithTerm = true ∧ (getZero c l.sort).isConst = true := by
    generalize l.sort = s at hs
    cases s <;> simp_all [Srt.isNum, getZero, isArithTerm, Term.isConst, mkConstReal]
  rw [arithNormalize_cmp c o k hk hlet _ _ rfl hz.1, hz.2]
  rfl

/-! ## A case that meets the hypotheses -/

/-- no arrays, no let -/
def o0 : Opt := ⟨fun _ => false, fun _ => false, id, id⟩

/-- `(and p (< x (+ y 1)) (= y x))` -/
def exN : Term := .app .and .bool [bv "p", .app .lt .bool [iv "x", .app .add .int [iv "y", .cint 1]], .app .eq .bool [iv "y", iv "x"]]

example : Ok o0 exN ∧ DFit c0 exN ∧ Std true exN = true ∧ ArrOK c0 o0 ∧
    (∃ v, eval (env (fun _ => true) fun x => if x = "x" then 2 else 2) exN = some v) := by
  refine ⟨by simp [Ok, OkL, exN, o0, bv, iv], .inl Subst.exact_c0, by decide +kernel, fun _ _ _ h => h, .b true, ?_⟩
  simp [exN, eval, evalL, env, bv, iv, guardSort, apply, Val.hasSort, numsOf, boolsOf, cmpChain, chain, homog, Val.sameSort]
  decide +kernel

example : arithNormalize c0 o0 exN = .ok (some (.app .and .bool [bv "p",
    .app .lt .bool [.app .sub .int [iv "x", .app .add .int [iv "y", .cint 1]], .cint 0],
    .app .eq .bool [.app .sub .int [iv "y", iv "x"], .cint 0]])) := by
  decide +kernel

/-! ## What goes wrong -/

/-- A chained equation loses every operand after the second, and with them its meaning. -/
theorem arithNormalize_drops_operands :
    arithNormalize c0 o0 (.app .eq .bool [iv "x", iv "y", iv "z"]) =
      .ok (some (.app .eq .bool [.app .sub .int [iv "x", iv "y"], .cint 0])) ∧
    ∃ ρ, eval ρ (.app .eq .bool [iv "x", iv "y", iv "z"]) = some (.b false) ∧
      eval ρ (.app .eq .bool [.app .sub .int [iv "x", iv "y"], .cint 0]) = some (.b true) := by
  refine ⟨by decide +kernel, env (fun _ => true) (fun x => if x = "z" then 1 else 0), ?_, ?_⟩
  · simp [eval, evalL, env, iv, guardSort, apply, Val.hasSort, homog, chain, Val.sameSort]
  · simp [eval, evalL, env, iv, guardSort, apply, Val.hasSort, homog, chain, Val.sameSort, numsOf]
    decide +kernel

/-- A `let` below another operator is a null pointer in the result: if it is compared, or next to an operand that was rewritten, the
program dereferences it; if it stands alone the result below the operator is the unexpanded `let`. -/
theorem arithNormalize_nested_let (o : Opt) (i : Nat) (hi : o.isLet (.misc i) = true) (ha : o.isLet .and = false) (hl : o.isLet .lt = false)
    (ts : List Term) : arithNormalize c0 o (.app .and .bool [.app (.misc i) .bool ts, .app .lt .bool [iv "x", iv "y"]]) = .ub := by
  simp [arithNormalize, norm, normL, isArithTerm, hi, ha, hl, isArithComp, Res.bind, iv, comp, other, allSome, Term.isConst]

/-- operands of commutative operators are sorted by hash; here literals come first -/
def cLit : Cfg := { c0 with
  sort := fun l => (l.filter fun t => t.isConst) ++ l.filter fun t => !t.isConst
  perm := fun l => List.filter_append_perm _ l }

/-- Normalising an equation is not idempotent when the literal is sorted before the difference: every further pass adds a minus. -/
theorem arithNormalize_eq_grows :
    arithNormalize cLit o0 (.app .eq .bool [iv "x", iv "y"]) =
      .ok (some (.app .eq .bool [.cint 0, .app .sub .int [iv "x", iv "y"]])) ∧
    arithNormalize cLit o0 (.app .eq .bool [.cint 0, .app .sub .int [iv "x", iv "y"]]) =
      .ok (some (.app .eq .bool [.cint 0, .app .neg .int [.app .sub .int [iv "x", iv "y"]]])) := by
  decide +kernel

end SMT.Norm
