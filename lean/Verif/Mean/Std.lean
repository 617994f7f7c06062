import Verif.Eval.Std

/-! # C79: sums, products, differences and implications keep the shape of terms -/

namespace SMT.Eval
open SMT SMT.Term

theorem std_mkImplies {r : Bool} (c : Cfg) {ps : List Term} (h : ∀ t ∈ ps, Std r t = true) : Std r (mkImplies c ps) = true := by
  unfold mkImplies
  split
  · simp [Std, leafOk]
  · have hl : Std r (ps.getLastD .unknown) = true := by
      cases ps with
      | nil => simp [Std, leafOk]
      | cons a l => rw [List.getLastD_cons]; exact h _ (List.getLastD_mem_cons ..)
    have hs := std_scan (r := r) (ts := ps.dropLast) (f := fun t =>
        if t.isErr then some (.inl t)
        else if t.isFalse then some (.inl .tt)
        else if t.isTrue then some (.inr ())
        else none) (by
          intro t u hq ht
          split at hq
          · simp at hq; subst hq; exact ht
          · split at hq
            · simp at hq; subst hq; simp [Std, leafOk]
            · split at hq
              · simp at hq
              · cases hq) fun t ht => h t ((List.dropLast_sublist ps).subset ht)
    split
    · rename_i hq; exact hs.1 _ hq
    · rename_i l hq
      dsimp only
      split
      · exact hl
      · split
        · exact hl
        · refine std_mkOper c _ _ _ rfl fun t ht => ?_
          rcases List.mem_append.mp ht with ht | ht
          · exact (hs.2 l hq).1 t ht
          · rw [List.mem_singleton] at ht; subst ht; exact hl

theorem std_cr {r : Bool} {c : Cfg} (hr : c.realTheory = true → r = true) (h : c.realTheory = true) (q : Rat) :
    Std r (mkConstReal c q) = true := by
  have := hr h
  subst this
  simp [mkConstReal, Std, leafOk]

theorem std_mkAdd {r : Bool} (c : Cfg) (hr : c.realTheory = true → r = true) {ps : List Term} (h : ∀ t ∈ ps, Std r t = true) :
    Std r (mkAdd c ps) = true := by
  have hu : Std r .unknown = true := by simp [Std, leafOk]
  unfold mkAdd
  split
  · exact hu
  · exact h _ (by simp)
  · have hs := std_scan (r := r) (ts := ps) (f := fun t =>
        if t.isErr then some (.inl t)
        else if badSort (getSort ps) t then some (.inl .unknown)
        else if isZero c t then some (.inr ())
        else none) (by
          intro t u hq ht
          split at hq
          · simp at hq; subst hq; exact ht
          · split at hq
            · simp at hq; subst hq; exact hu
            · split at hq
              · simp at hq
              · cases hq) h
    split
    · rename_i hq; exact hs.1 _ hq
    · split
      · rename_i ht; exact std_cr hr ht _
      · split
        · simp [Std, leafOk]
        · exact hu
    · rename_i p hq; exact (hs.2 _ hq).1 p (by simp)
    · rename_i l _ _ hq
      split
      · exact hu
      · exact std_mkOper c _ _ _ rfl (hs.2 _ hq).1

theorem std_mkMul {r : Bool} (c : Cfg) (hr : c.realTheory = true → r = true) {ps : List Term} (h : ∀ t ∈ ps, Std r t = true) :
    Std r (mkMul c ps) = true := by
  have hu : Std r .unknown = true := by simp [Std, leafOk]
  have hci : ∀ i, Std r (.cint i) = true := by simp [Std, leafOk]
  unfold mkMul
  split
  · exact hu
  · exact h _ (by simp)
  · have hs := std_scan (r := r) (ts := ps) (f := fun t =>
        if t.isErr then some (.inl t)
        else if badSort (getSort ps) t then some (.inl .unknown)
        else if isZero c t then
          if c.intTheory then some (.inl (.cint 0))
          else if c.realTheory then some (.inl (mkConstReal c 0))
          else some (.inr ())
        else if isOne c t then some (.inr ())
        else none) (by
          intro t u hq ht
          split at hq
          · simp at hq; subst hq; exact ht
          · split at hq
            · simp at hq; subst hq; exact hu
            · split at hq
              · split at hq
                · simp at hq; subst hq; exact hci _
                · split at hq
                  · rename_i h4; simp at hq; subst hq; exact std_cr hr h4 _
                  · simp at hq
              · split at hq
                · simp at hq
                · cases hq) h
    split
    · rename_i hq; exact hs.1 _ hq
    · split
      · exact hci _
      · split
        · rename_i ht; exact std_cr hr ht _
        · exact hu
    · rename_i p hq; exact (hs.2 _ hq).1 p (by simp)
    · rename_i l _ _ hq
      have hl := (hs.2 _ hq).1
      split
      · exact hu
      · split
        · rename_i a b _ _
          split
          · exact hci _
          · rename_i h1
            split
            · rename_i h2
              rw [Bool.and_eq_true] at h2
              exact std_creal2 (hl a (by simp)) (hl b (by simp)) h2.1 h2.2 (by simpa using h1) _
            · exact std_mkOper c _ _ _ rfl hl
        · exact std_mkOper c _ _ _ rfl hl

theorem scan_keeps {f : Term → Option (Term ⊕ Unit)} (hf : ∀ t u, f t ≠ some (.inr u)) : ∀ {ts l : List Term}, scan f ts = .inr l → l = ts := by
  intro ts
  induction ts with
  | nil => intro l h; simp only [scan, Sum.inr.injEq] at h; exact h.symm
  | cons t ts ih =>
    intro l h
    simp only [scan] at h
    cases hq : f t with
    | some x =>
      cases x with
      | inl y => rw [hq] at h; cases h
      | inr y => exact absurd hq (hf t y)
    | none =>
      rw [hq] at h
      simp only at h
      cases hs : scan f ts with
      | inl y => rw [hs] at h; cases h
      | inr l' =>
        rw [hs] at h
        simp only [Sum.inr.injEq] at h
        subst h
        rw [ih hs]

theorem std_mkSub {r : Bool} (c : Cfg) {ps : List Term} (h : ∀ t ∈ ps, Std r t = true) : Std r (mkSub c ps) = true := by
  have hu : Std r .unknown = true := by simp [Std, leafOk]
  have hci : ∀ i, Std r (.cint i) = true := by simp [Std, leafOk]
  unfold mkSub
  split
  · exact hu
  · exact std_mkNeg c (h _ (by simp))
  · have hs := std_scan (r := r) (ts := ps) (f := fun t =>
        if t.isErr then some (.inl t)
        else if badSort (getSort ps) t then some (.inl .unknown)
        else none) (by
          intro t u hq ht
          split at hq
          · simp at hq; subst hq; exact ht
          · split at hq
            · simp at hq; subst hq; exact hu
            · cases hq) h
    split
    · rename_i hq; exact hs.1 _ hq
    · rename_i l hq
      have hl := (hs.2 _ hq).1
      have hk := scan_keeps (by intro t u; repeat' split
                                all_goals simp) hq
      split
      · exact hu
      · rename_i s hth
        split
        · rename_i a b
          split
          · exact hci _
          · split
            · rename_i h1 h2
              simp only [Bool.and_eq_true, beq_iff_eq] at h2
              obtain ⟨⟨h3, h4⟩, h5⟩ := h2
              refine std_creal2 (hl a (by simp)) (hl b (by simp)) h4 h5 ?_ _
              cases hab : a.isCInt && b.isCInt with
              | false => rfl
              | true =>
                exfalso
                rw [Bool.and_eq_true] at hab
                cases a <;> simp [isCInt] at hab
                cases b <;> simp at hab
                rw [← hk] at hth
                simp [getSort, theorySort, Term.sort, Srt.isNum] at hth
                rw [← hth] at h3
                cases h3
            · split
              · exact std_mkNeg c (hl b (by simp))
              · split
                · exact hl a (by simp)
                · exact std_mkOper c _ _ _ rfl hl
        · exact std_mkOper c _ _ _ rfl hl

end SMT.Eval
