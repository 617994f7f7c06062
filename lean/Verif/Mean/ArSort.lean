import Verif.Mean.Std
import Verif.Mean.ArModel

/-! # C83: the sorts of sums, products, differences and conditionals -/

namespace SMT.Mean
open SMT SMT.Term SMT.Eval

set_option linter.unusedSimpArgs false
set_option linter.unusedVariables false

/-- the node has the sort, or that of a numeral, or no sort -/
def Srtd (s : SMT.Srt) (t : SMT.Term) : Prop := t.sort = s ∨ t.sort = .ior ∨ t.sort = .unk ∨ t.sort = .null

variable {s : SMT.Srt}

theorem srtd_unknown : Srtd s .unknown := .inr (.inr (.inl rfl))
theorem srtd_cint (i : Int) : Srtd s (.cint i) := .inr (.inl rfl)
theorem srtd_app (k : Kind) (ts : List SMT.Term) : Srtd s (.app k s ts) := .inl rfl

/-- the sort of a node whose value is a number -/
theorem num_sort {t : SMT.Term} {ρ : Env} {q : Rat} (he : eval ρ t = some (.n q)) : t.sort = .int ∨ t.sort = .real ∨ t.sort = .ior := by
  have key : ∀ σ : SMT.Srt, (Val.n q).hasSort σ = true → σ = .int ∨ σ = .real ∨ σ = .ior := by
    intro σ h; cases σ <;> simp [Val.hasSort] at h ⊢
  cases t with
  | tt => simp [eval] at he
  | ff => simp [eval] at he
  | cint i => exact .inr (.inr rfl)
  | creal n q => exact .inr (.inl rfl)
  | clit σ x => simp only [eval] at he; exact key _ (guardSort_some.1 he).2
  | var vk σ x => simp only [eval] at he; exact key _ (guardSort_some.1 he).2
  | app k σ ts => rw [eval_app] at he; exact key _ (guardSort_some.1 he).2
  | unknown => simp [eval] at he
  | err => simp [eval] at he

theorem srtd_sort {t : SMT.Term} {ρ : Env} {q : Rat} (h : Srtd s t) (he : eval ρ t = some (.n q)) : t.sort = s ∨ t.sort = .ior := by
  rcases h with h | h | h | h
  · exact .inl h
  · exact .inr h
  · rcases num_sort he with h' | h' | h' <;> rw [h] at h' <;> cases h'
  · rcases num_sort he with h' | h' | h' <;> rw [h] at h' <;> cases h'

theorem srtd_creal {t : SMT.Term} (h : Srtd s t) (h1 : t.isCReal = true) (h2 : t.isCInt = false) (c : SMT.Cfg) (q : Rat) :
    Srtd s (mkConstReal c q) := by
  cases t <;> simp [isCReal, isCInt] at h1 h2
  rcases h with h | h | h | h
  · exact .inl h
  · cases h
  · cases h
  · cases h

theorem srtd_simp1 (c : SMT.Cfg) {k : Kind} (hk : k = .add ∨ k = .mul ∨ k = .sub ∨ k = .neg) {p : SMT.Term} (h : Srtd s p) : Srtd s (simp1 c k p) := by
  rcases hk with rfl | rfl | rfl | rfl
  · exact h
  · exact h
  · exact h
  · unfold simp1
    dsimp only
    split
    · exact srtd_cint _
    · rename_i h1
      split
      · rename_i h2; exact srtd_creal h h2 (by simpa using h1) c _
      · exact srtd_unknown

theorem srtd_mkNeg (c : SMT.Cfg) {p : SMT.Term} (h : Srtd s p) : Srtd s (mkNeg c p) := by
  unfold mkNeg mkOper1
  split
  · exact srtd_simp1 c (by simp) h
  · exact h

theorem srtd_consts {p q : SMT.Term} (hp : Srtd s p) (hq : Srtd s q) (c : SMT.Cfg) (x : Rat) (h1 : ¬ (p.isCInt && q.isCInt) = true)
    (h2 : (p.isCReal && q.isCReal) = true) : Srtd s (mkConstReal c x) := by
  rw [Bool.and_eq_true] at h2
  rw [Bool.and_eq_true, not_and] at h1
  by_cases h : p.isCInt = true
  · exact srtd_creal hq h2.2 (by simpa using h1 h) c x
  · exact srtd_creal hp h2.1 (by simpa using h) c x

theorem srtd_simp2 (c : SMT.Cfg) {k : Kind} (hk : k = .add ∨ k = .mul ∨ k = .sub) {p q : SMT.Term} (hp : Srtd s p) (hq : Srtd s q) :
    Srtd s (simp2 c k p q) := by
  have hr := fun x => srtd_consts hp hq c x
  rcases hk with rfl | rfl | rfl
  all_goals unfold simp2
  all_goals dsimp only
  all_goals repeat' split
  all_goals first | exact srtd_cint _ | exact srtd_unknown | assumption | exact srtd_mkNeg c hq | (apply hr <;> assumption)

theorem srtd_simpFold (c : SMT.Cfg) {k : Kind} (hk : k = .add ∨ k = .mul ∨ k = .sub) : ∀ (ts : List SMT.Term) (a : SMT.Term), Srtd s a →
    (∀ t ∈ ts, Srtd s t) → Srtd s (simpFold c k a ts) := by
  intro ts
  induction ts with
  | nil => intro a h _; exact h
  | cons t ts ih =>
    intro a h hts
    simp only [simpFold]
    split
    · exact srtd_unknown
    · exact ih _ (srtd_simp2 c hk h (hts t (by simp))) fun u hu => hts u (List.mem_cons_of_mem _ hu)

theorem srtd_simp (c : SMT.Cfg) {k : Kind} (hk : k = .add ∨ k = .mul ∨ k = .sub) (ps : List SMT.Term) (h : ∀ t ∈ ps, Srtd s t) :
    Srtd s (simp c k ps) := by
  rcases ps with _ | ⟨a, _ | ⟨b, _ | ⟨d, _ | ⟨e, l⟩⟩⟩⟩
  · exact srtd_unknown
  · exact srtd_simp1 c (by rcases hk with h | h | h <;> simp [h]) (h a (by simp))
  · exact srtd_simp2 c hk (h a (by simp)) (h b (by simp))
  · have h2 := srtd_simp2 c hk (srtd_simp2 c hk (h a (by simp)) (h b (by simp))) (h d (by simp))
    show Srtd s (simp3 c k a b d)
    rcases hk with rfl | rfl | rfl <;> exact h2
  · have h2 := srtd_simpFold c hk (b :: d :: e :: l) a (h a (by simp)) fun u hu => h u (List.mem_cons_of_mem _ hu)
    show Srtd s (simpN c k (a :: b :: d :: e :: l))
    rcases hk with rfl | rfl | rfl <;> exact h2

theorem srtd_mkOper (c : SMT.Cfg) {k : Kind} (hk : k = .add ∨ k = .mul ∨ k = .sub) (ps : List SMT.Term) (h : ∀ t ∈ ps, Srtd s t) :
    Srtd s (mkOper c s k ps) := by
  unfold mkOper
  split
  · exact srtd_unknown
  · split
    · exact srtd_simp c hk ps h
    · exact srtd_app _ _

theorem srtd_scan {f : SMT.Term → Option (SMT.Term ⊕ Unit)} (hf : ∀ t u, f t = some (.inl u) → Srtd s t → Srtd s u)
    {ts : List SMT.Term} (h : ∀ t ∈ ts, Srtd s t) :
    (∀ u, scan f ts = .inl u → Srtd s u) ∧ ∀ l, scan f ts = .inr l → ∀ t ∈ l, Srtd s t := by
  induction ts with
  | nil =>
    refine ⟨fun u h => (by cases h), fun l h => ?_⟩
    simp only [scan, Sum.inr.injEq] at h
    subst h
    simp
  | cons t ts ih =>
    obtain ⟨i1, i2⟩ := ih fun u hu => h u (List.mem_cons_of_mem _ hu)
    have ht := h t (by simp)
    simp only [scan]
    cases hq : f t with
    | some x =>
      cases x with
      | inl y =>
        refine ⟨fun u h => ?_, fun l h => (by cases h)⟩
        simp only [Sum.inl.injEq] at h
        subst h
        exact hf t _ hq ht
      | inr y => exact ⟨i1, i2⟩
    | none =>
      simp only
      cases hs : scan f ts with
      | inl y =>
        refine ⟨fun u h => ?_, fun l h => (by cases h)⟩
        simp only [Sum.inl.injEq] at h
        subst h
        exact i1 _ hs
      | inr l' =>
        refine ⟨fun u h => (by cases h), fun l h => ?_⟩
        simp only [Sum.inr.injEq] at h
        subst h
        intro u hu
        rcases List.mem_cons.1 hu with rfl | hu
        · exact ht
        · exact i2 _ hs u hu

/-- the sort that the operands say is this one, and the constants made for empty sums and products fit it -/
structure Theory (c : SMT.Cfg) (s : SMT.Srt) (ps : List SMT.Term) : Prop where
  sort : getSort ps = some s
  fits : s = .real ∨ (s = .int ∧ c.realTheory = false)

theorem Theory.creal {c : SMT.Cfg} {ps : List SMT.Term} (h : Theory c s ps) (hr : c.realTheory = true) (q : Rat) : Srtd s (mkConstReal c q) := by
  rcases h.fits with rfl | ⟨_, h⟩
  · exact .inl rfl
  · rw [h] at hr; cases hr

theorem srtd_mkAdd {c : SMT.Cfg} {ps : List SMT.Term} (ht : Theory c s ps) (h : ∀ t ∈ ps, Srtd s t) : Srtd s (mkAdd c ps) := by
  unfold mkAdd
  split
  · exact srtd_unknown
  · exact h _ (by simp)
  · have hs := srtd_scan (s := s) (ts := ps) (f := fun t =>
        if t.isErr then some (.inl t)
        else if badSort (getSort ps) t then some (.inl .unknown)
        else if isZero c t then some (.inr ())
        else none) (by
          intro t u hq ht
          split at hq
          · simp at hq; subst hq; exact ht
          · split at hq
            · simp at hq; subst hq; exact srtd_unknown
            · split at hq
              · simp at hq
              · cases hq) h
    split
    · rename_i hq; exact hs.1 _ hq
    · split
      · rename_i hr; exact ht.creal hr _
      · split
        · exact srtd_cint _
        · exact srtd_unknown
    · rename_i p hq; exact hs.2 _ hq p (by simp)
    · rename_i l _ _ hq
      rw [ht.sort]
      exact srtd_mkOper c (by simp) _ (hs.2 _ hq)

theorem srtd_mkMul {c : SMT.Cfg} {ps : List SMT.Term} (ht : Theory c s ps) (h : ∀ t ∈ ps, Srtd s t) : Srtd s (mkMul c ps) := by
  unfold mkMul
  split
  · exact srtd_unknown
  · exact h _ (by simp)
  · have hs := srtd_scan (s := s) (ts := ps) (f := fun t =>
        if t.isErr then some (.inl t)
        else if badSort (getSort ps) t then some (.inl .unknown)
        else if isZero c t then
          if c.intTheory then some (.inl (.cint 0))
          else if c.realTheory then some (.inl (mkConstReal c 0))
          else some (.inr ())
        else if isOne c t then some (.inr ())
        else none) (by
          intro t u hq h
          split at hq
          · simp at hq; subst hq; exact h
          · split at hq
            · simp at hq; subst hq; exact srtd_unknown
            · split at hq
              · split at hq
                · simp at hq; subst hq; exact srtd_cint _
                · split at hq
                  · rename_i h4; simp at hq; subst hq; exact ht.creal h4 _
                  · simp at hq
              · split at hq
                · simp at hq
                · cases hq) h
    split
    · rename_i hq; exact hs.1 _ hq
    · split
      · exact srtd_cint _
      · split
        · rename_i hr; exact ht.creal hr _
        · exact srtd_unknown
    · rename_i p hq; exact hs.2 _ hq p (by simp)
    · rename_i l _ _ hq
      have hl := hs.2 _ hq
      rw [ht.sort]
      simp only [theorySort]
      split
      · rename_i a b _ _
        have ha := hl a (by simp)
        have hb := hl b (by simp)
        split
        · exact srtd_cint _
        · split
          · apply srtd_consts ha hb <;> assumption
          · exact srtd_mkOper c (by simp) _ hl
      · exact srtd_mkOper c (by simp) _ hl

theorem srtd_mkSub {c : SMT.Cfg} {ps : List SMT.Term} (ht : Theory c s ps) (h : ∀ t ∈ ps, Srtd s t) : Srtd s (mkSub c ps) := by
  unfold mkSub
  split
  · exact srtd_unknown
  · exact srtd_mkNeg c (h _ (by simp))
  · have hs := srtd_scan (s := s) (ts := ps) (f := fun t =>
        if t.isErr then some (.inl t)
        else if badSort (getSort ps) t then some (.inl .unknown)
        else none) (by
          intro t u hq h
          split at hq
          · simp at hq; subst hq; exact h
          · split at hq
            · simp at hq; subst hq; exact srtd_unknown
            · cases hq) h
    split
    · rename_i hq; exact hs.1 _ hq
    · rename_i l hq
      have hl := hs.2 _ hq
      rw [ht.sort]
      simp only [theorySort]
      split
      · rename_i a b
        have ha := hl a (by simp)
        have hb := hl b (by simp)
        split
        · exact srtd_cint _
        · split
          · rename_i h2
            simp only [Bool.and_eq_true, beq_iff_eq] at h2
            rw [h2.1.1]
            exact .inl rfl
          · split
            · exact srtd_mkNeg c hb
            · split
              · exact ha
              · exact srtd_mkOper c (by simp) _ hl
      · exact srtd_mkOper c (by simp) _ hl

/-- a conditional has the sort of its branches -/
theorem srtd_mkIte (c : SMT.Cfg) {a x y : SMT.Term} (hx : Srtd s x) (hy : Srtd s y) (ha : a.isErr = false) : Srtd s (mkIte c a x y) := by
  unfold mkIte
  rw [ha]
  simp only [Bool.false_eq_true, if_false]
  split
  · exact hx
  · split
    · exact hy
    · unfold mkOper
      simp only [List.isEmpty_cons, Bool.false_eq_true, if_false]
      split
      · show Srtd s (simp3 c .ite a x y)
        simp only [simp3]
        split
        · exact hx
        · split
          · exact hy
          · exact srtd_unknown
      · exact hx

/-- when the operands have the sort -/
theorem theory_int {c : SMT.Cfg} {p : SMT.Term} {ps : List SMT.Term} (hr : c.realTheory = false)
    (h : ∀ t ∈ p :: ps, t.sort = .int ∨ t.sort = .ior) : Theory c .int (p :: ps) := by
  refine ⟨?_, .inr ⟨rfl, hr⟩⟩
  unfold getSort
  dsimp only
  have h1 : p.sort.isNum = true := by rcases h p (by simp) with e | e <;> rw [e] <;> rfl
  rw [if_pos h1, if_neg]
  intro h2
  obtain ⟨t, ht, e⟩ := List.any_eq_true.1 h2
  rcases h t ht with e' | e' <;> rw [e'] at e <;> cases e

theorem theory_real {c : SMT.Cfg} {p : SMT.Term} {ps : List SMT.Term}
    (h : ∀ t ∈ p :: ps, t.sort = .real ∨ t.sort = .ior) (h2 : ∃ t ∈ p :: ps, t.sort = .real) : Theory c .real (p :: ps) := by
  refine ⟨?_, .inl rfl⟩
  unfold getSort
  dsimp only
  have h1 : p.sort.isNum = true := by rcases h p (by simp) with e | e <;> rw [e] <;> rfl
  rw [if_pos h1, if_pos]
  obtain ⟨t, ht, e⟩ := h2
  exact List.any_eq_true.2 ⟨t, ht, by rw [e]; rfl⟩

end SMT.Mean
