import Verif.Term.Cons2
/-!
# Equality, binary distinct and arithmetic constructors preserve values: lemmas
-/
namespace SMT
open Term

attribute [local simp] Rat.add_zero Rat.zero_add Rat.mul_one Rat.one_mul rat_zero_sub rat_sub_zero

theorem val_bool {ρ : Env} {t : Term} (h : IsB ρ t) : val ρ t = .b (bval ρ t) := by
  simp [val, h.eval]

theorem isB_same {ρ : Env} {l r : Term} (hl : IsB ρ l) (hr : Ev ρ r)
    (hs : (val ρ l).sameSort (val ρ r) = true) : IsB ρ r := by
  obtain ⟨v, hv⟩ := hr
  rw [val_bool hl, val, hv] at hs
  cases v <;> simp [Val.sameSort] at hs
  exact ⟨_, hv⟩

theorem IsB_tt (ρ : Env) : IsB ρ .tt := ⟨true, rfl⟩
theorem IsB_ff (ρ : Env) : IsB ρ .ff := ⟨false, rfl⟩

theorem eq_oper (c : Cfg) (ρ : Env) (l r : Term) (fl : Fit c l) (fr : Fit c r)
    (hl : Ev ρ l) (hr : Ev ρ r) (hs : (val ρ l).sameSort (val ρ r) = true) :
    eval ρ (mkOper c .bool .eq [l, r]) = some (.b (decide (val ρ l = val ρ r))) := by
  refine (mkOper_sound c ρ .eq [l, r] .bool _ ?_ (by simp) (by simp) rfl ?_).1
  · intro t ht; simp at ht; rcases ht with rfl | rfl <;> assumption
  · refine (evalApp_eq ρ _ _ _).2 ⟨by simp, ?_, ?_, ?_⟩
    · intro t ht; simp at ht; rcases ht with rfl | rfl <;> assumption
    · intro t ht u hu; simp at ht hu
      rcases ht with rfl | rfl <;> rcases hu with rfl | rfl <;>
        first | exact sameSort_refl _ | exact hs | exact sameSort_symm hs
    · congr 1; rw [decide_eq_decide]; simp; grind

theorem dist_oper (c : Cfg) (ρ : Env) (l r : Term) (fl : Fit c l) (fr : Fit c r)
    (hl : Ev ρ l) (hr : Ev ρ r) (hs : (val ρ l).sameSort (val ρ r) = true) :
    eval ρ (mkOper c .bool .distinct [l, r]) = some (.b (decide (val ρ l ≠ val ρ r))) := by
  refine (mkOper_sound c ρ .distinct [l, r] .bool _ ?_ (by simp) (by simp) rfl ?_).1
  · intro t ht; simp at ht; rcases ht with rfl | rfl <;> assumption
  · refine (evalApp_distinct ρ _ _ _).2 ⟨by simp, ?_, ?_, ?_⟩
    · intro t ht; simp at ht; rcases ht with rfl | rfl <;> assumption
    · intro t ht u hu; simp at ht hu
      rcases ht with rfl | rfl <;> rcases hu with rfl | rfl <;>
        first | exact sameSort_refl _ | exact hs | exact sameSort_symm hs
    · congr 1; rw [decide_eq_decide]; simp

theorem not_cons {ρ : Env} {s : Srt} {a : Term} {l : List Term} (h : Ev ρ (.app .not s (a :: l))) :
    l = [] ∧ IsB ρ (.app .not s [a]) ∧ IsB ρ a ∧ bval ρ (.app .not s [a]) = !(bval ρ a) := by
  have hb : IsB ρ (.app .not s (a :: l)) := by
    obtain ⟨v, hv⟩ := h
    have h1 := hv
    rw [eval_app] at h1
    obtain ⟨_, _, _, rfl⟩ := (evalApp_not ρ _ _ _).1 (guardSort_some.1 h1).1
    exact ⟨_, hv⟩
  obtain ⟨t, he, h1, h2⟩ := not_child hb
  simp at he; obtain ⟨rfl, rfl⟩ := he
  exact ⟨rfl, hb, h1, h2⟩

theorem mkEq2_sound' (c : Cfg) (ρ : Env) : ∀ (n : Nat) (l r : Term), l.size + r.size ≤ n →
    DFit c l → DFit c r → binRel l = true → binRel r = true → Ev ρ l → Ev ρ r →
    (val ρ l).sameSort (val ρ r) = true →
    eval ρ (mkEq2 c l r) = some (.b (decide (val ρ l = val ρ r))) := by
  intro n
  induction n with
  | zero => intro l r hn; cases l <;> simp [size] at hn
  | succ n ih =>
    intro l r hn fl fr bl br hl hr hs
    rw [mkEq2.eq_def, same_mismatch hl hr hs]
    simp only [Bool.false_eq_true, if_false]
    split
    · simp [eval, val]
    · simp [eval, val]
    · simp [eval, val]
    · simp [eval, val]
    · have := isB_same (IsB_tt ρ) hr hs
      rw [this.eval, val_bool this, val_bool (IsB_tt ρ), bval_tt]
      cases bval ρ r <;> simp
    · have := isB_same (IsB_ff ρ) hr hs
      rw [mkNot_sound' c ρ r fr (binRel_top br) this, val_bool this, val_bool (IsB_ff ρ), bval_ff]
      cases bval ρ r <;> simp
    · have := isB_same (IsB_tt ρ) hl (sameSort_symm hs)
      rw [this.eval, val_bool this, val_bool (IsB_tt ρ), bval_tt]
      cases bval ρ l <;> simp
    · have := isB_same (IsB_ff ρ) hl (sameSort_symm hs)
      rw [mkNot_sound' c ρ l fl (binRel_top bl) this, val_bool this, val_bool (IsB_ff ρ), bval_ff]
      cases bval ρ l <;> simp
    · rename_i s a l1 s' b l2
      obtain ⟨rfl, h1, h2, h3⟩ := not_cons hl
      obtain ⟨rfl, g1, g2, g3⟩ := not_cons hr
      rw [ih a b (by simp [size, sizeL] at hn; omega) (fl.child (by simp)) (fr.child (by simp))
        (by simpa [binRel] using bl) (by simpa [binRel] using br) h2.ev g2.ev
        (by rw [val_bool h2, val_bool g2]; rfl)]
      rw [val_bool h1, val_bool g1, val_bool h2, val_bool g2, h3, g3]
      cases bval ρ a <;> cases bval ρ b <;> simp
    · exact eq_oper c ρ _ _ fl.fit fr.fit hl hr hs

/-- number of leading negations -/
def notDepth : Term → Nat
  | .app .not _ (t :: _) => notDepth t + 1
  | _ => 0

theorem notDepth_pos {s : Srt} {t : Term} {l : List Term} :
    notDepth (.app .not s (t :: l)) = notDepth t + 1 := by rw [notDepth]

theorem mkDistinct2_sound' (c : Cfg) (ρ : Env) : ∀ (n : Nat) (l r : Term), l.size + r.size ≤ n →
    DFit c l → DFit c r → binRel l = true → binRel r = true → notDepth l = notDepth r →
    Ev ρ l → Ev ρ r →
    (val ρ l).sameSort (val ρ r) = true →
    eval ρ (mkDistinct2 c l r) = some (.b (decide (val ρ l ≠ val ρ r))) := by
  intro n
  induction n with
  | zero => intro l r hn; cases l <;> simp [size] at hn
  | succ n ih =>
    intro l r hn fl fr bl br hd hl hr hs
    rw [mkDistinct2.eq_def, same_mismatch hl hr hs]
    simp only [Bool.false_eq_true, if_false]
    split
    · simp [eval, val]
    · simp [eval, val]
    · simp [eval, val]
    · simp [eval, val]
    · have := isB_same (IsB_tt ρ) hr hs
      rw [mkNot_sound' c ρ r fr (binRel_top br) this, val_bool this, val_bool (IsB_tt ρ), bval_tt]
      cases bval ρ r <;> simp
    · have := isB_same (IsB_ff ρ) hr hs
      rw [this.eval, val_bool this, val_bool (IsB_ff ρ), bval_ff]
      cases bval ρ r <;> simp
    · have := isB_same (IsB_tt ρ) hl (sameSort_symm hs)
      rw [mkNot_sound' c ρ l fl (binRel_top bl) this, val_bool this, val_bool (IsB_tt ρ), bval_tt]
      cases bval ρ l <;> simp
    · have := isB_same (IsB_ff ρ) hl (sameSort_symm hs)
      rw [this.eval, val_bool this, val_bool (IsB_ff ρ), bval_ff]
      cases bval ρ l <;> simp
    · rename_i s a l1 s' b l2
      obtain ⟨rfl, h1, h2, h3⟩ := not_cons hl
      obtain ⟨rfl, g1, g2, g3⟩ := not_cons hr
      rw [ih a b (by simp [size, sizeL] at hn; omega) (fl.child (by simp)) (fr.child (by simp))
        (by simpa [binRel] using bl) (by simpa [binRel] using br)
        (by simpa [notDepth] using hd) h2.ev g2.ev
        (by rw [val_bool h2, val_bool g2]; rfl)]
      rw [val_bool h1, val_bool g1, val_bool h2, val_bool g2, h3, g3]
      cases bval ρ a <;> cases bval ρ b <;> simp
    · rename_i s a l1 hne
      rw [notDepth_pos] at hd
      exfalso
      cases r with
      | app k s' ts =>
        cases k <;> simp_all [notDepth]
      | _ => simp [notDepth] at hd
    · rename_i s a l1 hne
      rw [notDepth_pos] at hd
      exfalso
      cases l with
      | app k s' ts =>
        cases k <;> simp_all [notDepth]
      | _ => simp [notDepth] at hd
    · exact dist_oper c ρ _ _ fl.fit fr.fit hl hr hs

theorem mkEqV_sound' (c : Cfg) (ρ : Env) (ts : List Term) (s : Srt) (v : Val)
    (hf : ∀ t ∈ ts, DFit c t) (hb : ∀ t ∈ ts, binRel t = true)
    (h2 : ts.length = 2 ∨ .tt ∉ ts)
    (h : evalApp ρ .eq ts s = some v) : eval ρ (mkEqV c ts) = some v := by
  obtain ⟨hlen, hev, hs, rfl⟩ := (evalApp_eq ρ ts s v).1 h
  rw [mkEqV.eq_def]
  split
  · simp at hlen
  · simp at hlen
  · rename_i l r
    rw [mkEq2_sound' c ρ _ l r (Nat.le_refl _) (hf l (by simp)) (hf r (by simp)) (hb l (by simp))
      (hb r (by simp)) (hev l (by simp)) (hev r (by simp)) (hs l (by simp) r (by simp))]
    congr 2; rw [decide_eq_decide]; simp; grind
  · rename_i hn0 hn1 hn2
    have htt : .tt ∉ ts := by
      rcases h2 with h2 | h2
      · obtain ⟨a, b, rfl⟩ := len2 h2; exact absurd rfl (hn2 a b)
      · exact h2
    have hff : ∀ t ∈ ts, (if badSort (getSort ts) t then some (Sum.inl unknown)
        else if t.isTrue then some (Sum.inr ()) else (none : Option (Term ⊕ Unit))) = none := by
      intro t ht
      rw [if_neg (by simp [badSort_false hev hs ht]), if_neg]
      rw [isTrue_iff]; rintro rfl; exact htt ht
    have he : evalApp ρ .eq ts .bool = some (.b (decide (∀ t ∈ ts, ∀ u ∈ ts, val ρ t = val ρ u))) :=
      (evalApp_eq ρ ts _ _).2 ⟨hlen, hev, hs, rfl⟩
    have hfilt : ∀ l, scan (fun t => if badSort (getSort ts) t then some (Sum.inl unknown)
        else if t.isTrue then some (Sum.inr ()) else none) ts = .inr l → l = ts := by
      intro l hl
      rw [(scan_inr hl).1]
      apply List.filter_eq_self.2
      intro t ht; rw [hff t ht]; rfl
    split
    · rename_i r hr
      obtain ⟨t, ht, h1⟩ := scan_inl hr
      rw [hff t ht] at h1; cases h1
    · rename_i hl; have := hfilt _ hl; simp [← this] at hlen
    · rename_i hl; have := hfilt _ hl; simp [← this] at hlen
    · rename_i l _ _ hl
      have := hfilt _ hl
      subst this
      split
      · rw [eval_app, he]; rfl
      · exact (mkOper_sound c ρ .eq _ .bool _ (fun t ht => (hf t ht).fit)
          (by rintro rfl; simp at hlen) (by simp) rfl he).1

/-! ### arithmetic -/

theorem sum_filter (ρ : Env) (p : Term → Bool) (ts : List Term)
    (h : ∀ t ∈ ts, p t = false → nval ρ t = 0) :
    ((ts.filter p).map (nval ρ)).sum = (ts.map (nval ρ)).sum := by
  induction ts with
  | nil => rfl
  | cons t ts ih =>
    have ih := ih (fun u hu => h u (by simp [hu]))
    by_cases hp : p t = true
    · simp [hp, ih]
    · simp [hp, ih, h t (by simp) (by simpa using hp)]

theorem prod_filter (ρ : Env) (p : Term → Bool) (ts : List Term)
    (h : ∀ t ∈ ts, p t = false → nval ρ t = 1) :
    ratProd ((ts.filter p).map (nval ρ)) = ratProd (ts.map (nval ρ)) := by
  induction ts with
  | nil => rfl
  | cons t ts ih =>
    have ih := ih (fun u hu => h u (by simp [hu]))
    unfold ratProd at *
    by_cases hp : p t = true
    · simp [hp, ih]
    · simp [hp, ih, h t (by simp) (by simpa using hp)]

theorem prod_zero (ρ : Env) (ts : List Term) (t : Term) (ht : t ∈ ts) (h : nval ρ t = 0) :
    ratProd (ts.map (nval ρ)) = 0 := by
  induction ts with
  | nil => simp at ht
  | cons a ts ih =>
    unfold ratProd at *
    rcases List.mem_cons.1 ht with rfl | ht
    · simp [h, Rat.zero_mul]
    · simp [ih ht, Rat.mul_zero]

theorem eval_creal (ρ : Env) (c : Cfg) (q : Rat) : eval ρ (mkConstReal c q) = some (.n q) := by
  simp [mkConstReal, eval]

theorem mkAdd_sound' (c : Cfg) (ρ : Env) (ts : List Term) (s : Srt) (v : Val)
    (hf : ∀ t ∈ ts, Fit c t)
    (ht : c.intTheory = true ∨ c.realTheory = true ∨ ∃ t ∈ ts, isZero c t = false)
    (h : evalApp ρ .add ts s = some v) : eval ρ (mkAdd c ts) = some v := by
  obtain ⟨hne, hn, rfl⟩ := (evalApp_add ρ ts s v).1 h
  unfold mkAdd
  split
  · exact absurd rfl hne
  · rename_i p; rw [(hn p (by simp)).eval]; simp
  · have hff : ∀ t ∈ ts, (if t.isErr then some (Sum.inl t)
        else if badSort (getSort ts) t then some (Sum.inl unknown)
        else if isZero c t then some (Sum.inr ()) else none) =
        if isZero c t then some (.inr ()) else none := by
      intro t ht
      rw [if_neg (by simp [(hn t ht).ev.not_err]), if_neg (by simp [badSort_nums hn ht])]
    have hfilt : ∀ l, scan (fun t => if t.isErr then some (Sum.inl t)
        else if badSort (getSort ts) t then some (Sum.inl unknown)
        else if isZero c t then some (Sum.inr ()) else none) ts = .inr l →
        l = ts.filter (fun t => !isZero c t) := by
      intro l hl
      rw [(scan_inr hl).1]
      apply List.filter_congr
      intro t ht; rw [hff t ht]; by_cases h : isZero c t = true <;> simp [h]
    have hsum : ((ts.filter (fun t => !isZero c t)).map (nval ρ)).sum = (ts.map (nval ρ)).sum := by
      apply sum_filter
      intro t ht h; exact (isZero_iff (ρ := ρ) (hf t ht) (by simpa using h)).2
    split
    · rename_i r hr
      obtain ⟨t, ht, h1⟩ := scan_inl hr
      rw [hff t ht] at h1; split at h1 <;> simp at h1
    · rename_i hl
      have hl := hfilt _ hl
      rw [← hl] at hsum
      rw [← hsum]
      split
      · rw [eval_creal]; rfl
      · split
        · simp [eval]
        · exfalso
          rcases ht with h | h | ⟨t, ht, h⟩
          · contradiction
          · contradiction
          · have : t ∈ ([] : List Term) := by rw [hl]; simp [ht, h]
            simp at this
    · rename_i p hl
      have hl := hfilt _ hl
      have hp : p ∈ ts := by
        have : p ∈ ts.filter (fun t => !isZero c t) := by rw [← hl]; simp
        exact (List.mem_filter.1 this).1
      rw [← hl] at hsum
      rw [← hsum, (hn p hp).eval]; simp
    · rename_i l hl0 hl1 hl
      have hl := hfilt _ hl
      obtain ⟨so, h1, h2, _⟩ := getSort_nums hne hn
      simp only [h1, theorySort]
      have hmem : ∀ t ∈ l, t ∈ ts := by
        intro t ht; rw [hl] at ht; exact (List.mem_filter.1 ht).1
      refine (mkOper_sound c ρ .add l so _ (fun t ht => hf t (hmem t ht)) ?_ (by simp)
        (hasSort_num h2) ?_).1
      · rintro rfl; exact hl0 rfl
      · refine (evalApp_add ρ _ _ _).2 ⟨by rintro rfl; exact hl0 rfl, fun t ht => hn t (hmem t ht), ?_⟩
        rw [hl, hsum]

theorem mkMul_sound' (c : Cfg) (ρ : Env) (ts : List Term) (s : Srt) (v : Val)
    (hf : ∀ t ∈ ts, Fit c t)
    (ht : c.intTheory = true ∨ c.realTheory = true ∨
      ((∀ t ∈ ts, isZero c t = false) ∧ ∃ t ∈ ts, isOne c t = false))
    (h : evalApp ρ .mul ts s = some v) : eval ρ (mkMul c ts) = some v := by
  obtain ⟨hne, hn, rfl⟩ := (evalApp_mul ρ ts s v).1 h
  unfold mkMul
  split
  · exact absurd rfl hne
  · rename_i p; rw [(hn p (by simp)).eval]; simp [ratProd]
  · have hff : ∀ t ∈ ts, (if t.isErr then some (Sum.inl t)
        else if badSort (getSort ts) t then some (Sum.inl unknown)
        else if isZero c t then
          if c.intTheory then some (.inl (.cint 0))
          else if c.realTheory then some (.inl (mkConstReal c 0))
          else some (.inr ())
        else if isOne c t then some (.inr ())
        else none) =
        if isZero c t then
          if c.intTheory then some (.inl (.cint 0))
          else if c.realTheory then some (.inl (mkConstReal c 0))
          else some (.inr ())
        else if isOne c t then some (.inr ())
        else none := by
      intro t ht
      rw [if_neg (by simp [(hn t ht).ev.not_err]), if_neg (by simp [badSort_nums hn ht])]
    have hfilt : ∀ l, scan (fun t => if t.isErr then some (Sum.inl t)
        else if badSort (getSort ts) t then some (Sum.inl unknown)
        else if isZero c t then
          if c.intTheory then some (.inl (.cint 0))
          else if c.realTheory then some (.inl (mkConstReal c 0))
          else some (.inr ())
        else if isOne c t then some (.inr ())
        else none) ts = .inr l →
        (∀ t ∈ ts, isZero c t = false) ∧ l = ts.filter (fun t => !isOne c t) := by
      intro l hl
      obtain ⟨h1, h2⟩ := scan_inr hl
      have hz : ∀ t ∈ ts, isZero c t = false := by
        intro t htm
        rcases ht with h | h | ⟨h, _⟩
        · have := h2 t htm (.cint 0)
          rw [hff t htm] at this
          cases hz : isZero c t
          · rfl
          · simp [hz, h] at this
        · have h3 := h2 t htm (.cint 0)
          have h4 := h2 t htm (mkConstReal c 0)
          rw [hff t htm] at h3 h4
          cases hz : isZero c t
          · rfl
          · rw [hz, if_pos rfl] at h3 h4
            by_cases hi : c.intTheory = true
            · simp [hi] at h3
            · simp [hi, h] at h4
        · exact h t htm
      refine ⟨hz, ?_⟩
      rw [h1]
      apply List.filter_congr
      intro t ht; rw [hff t ht, hz t ht]
      by_cases h : isOne c t = true <;> simp [h]
    have hprod : ratProd ((ts.filter (fun t => !isOne c t)).map (nval ρ)) =
        ratProd (ts.map (nval ρ)) := by
      apply prod_filter
      intro t ht h; exact (isOne_iff (ρ := ρ) (hf t ht) (by simpa using h)).2
    split
    · rename_i r hr
      obtain ⟨t, htm, h1⟩ := scan_inl hr
      rw [hff t htm] at h1
      split at h1
      · rename_i hz
        rw [prod_zero ρ ts t htm (isZero_iff (ρ := ρ) (hf t htm) hz).2]
        split at h1
        · simp at h1; subst h1; simp [eval]
        · split at h1
          · simp at h1; subst h1; exact eval_creal ρ c 0
          · simp at h1
      · split at h1 <;> simp at h1
    · rename_i hl
      obtain ⟨hz, hl⟩ := hfilt _ hl
      rw [← hl] at hprod
      rw [← hprod]
      split
      · simp [eval, ratProd]
      · split
        · rw [eval_creal]; rfl
        · exfalso
          rcases ht with h | h | ⟨_, t, ht, h⟩
          · contradiction
          · contradiction
          · have : t ∈ ([] : List Term) := by rw [hl]; simp [ht, h]
            simp at this
    · rename_i p hl
      obtain ⟨hz, hl⟩ := hfilt _ hl
      have hp : p ∈ ts := by
        have : p ∈ ts.filter (fun t => !isOne c t) := by rw [← hl]; simp
        exact (List.mem_filter.1 this).1
      rw [← hl] at hprod
      rw [← hprod, (hn p hp).eval]; simp [ratProd]
    · rename_i l hl0 hl1 hl
      obtain ⟨hz, hl⟩ := hfilt _ hl
      obtain ⟨so, h1, h2, _⟩ := getSort_nums hne hn
      simp only [h1, theorySort]
      have hmem : ∀ t ∈ l, t ∈ ts := by
        intro t ht; rw [hl] at ht; exact (List.mem_filter.1 ht).1
      have hl0' : l ≠ [] := by rintro rfl; exact hl0 rfl
      have hev : evalApp ρ .mul l so = some (.n (ratProd (ts.map (nval ρ)))) :=
        (evalApp_mul ρ _ _ _).2 ⟨hl0', fun t ht => hn t (hmem t ht), by rw [hl, hprod]⟩
      have hop : eval ρ (mkOper c so .mul l) = some (.n (ratProd (ts.map (nval ρ)))) :=
        (mkOper_sound c ρ .mul l so _ (fun t ht => hf t (hmem t ht)) hl0' (by simp)
          (hasSort_num h2) hev).1
      split
      · rename_i a b _
        have h3 := simp2_sound c ρ .mul a b so _ (hf a (hmem a (by simp))) (hf b (hmem b (by simp)))
          hev
        simp only [simp2] at h3
        split
        · rename_i h4
          rw [if_pos h4] at h3
          exact (h3.resolve_left (by simp)).1
        · rename_i h4
          rw [if_neg h4] at h3
          split
          · rename_i h5
            rw [if_pos h5] at h3
            exact (h3.resolve_left (by simp [mkConstReal])).1
          · exact hop
      · exact hop

theorem mkSub_sound' (c : Cfg) (ρ : Env) (ts : List Term) (s : Srt) (v : Val)
    (hf : ∀ t ∈ ts, Fit c t)
    (h : evalApp ρ .sub ts s = some v) : eval ρ (mkSub c ts) = some v := by
  obtain ⟨hlen, hn, rfl⟩ := (evalApp_sub ρ ts s v).1 h
  have hne : ts ≠ [] := by rintro rfl; simp at hlen
  unfold mkSub
  split
  · exact absurd rfl hne
  · simp at hlen
  · have hff : ∀ t ∈ ts, (if t.isErr then some (Sum.inl t)
        else if badSort (getSort ts) t then some (Sum.inl unknown)
        else (none : Option (Term ⊕ Unit))) = none := by
      intro t ht
      rw [if_neg (by simp [(hn t ht).ev.not_err]), if_neg (by simp [badSort_nums hn ht])]
    split
    · rename_i r hr
      obtain ⟨t, ht, h1⟩ := scan_inl hr
      rw [hff t ht] at h1; cases h1
    · rename_i l hl
      have hl : l = ts := by
        rw [(scan_inr hl).1]
        apply List.filter_eq_self.2
        intro t ht; rw [hff t ht]; rfl
      subst hl
      obtain ⟨so, h1, h2, _⟩ := getSort_nums hne hn
      simp only [h1, theorySort]
      have hev : evalApp ρ .sub l so = some (.n (ratSub (l.map (nval ρ)))) :=
        (evalApp_sub ρ _ _ _).2 ⟨hlen, hn, rfl⟩
      have hop : eval ρ (mkOper c so .sub l) = some (.n (ratSub (l.map (nval ρ)))) :=
        (mkOper_sound c ρ .sub l so _ hf hne (by simp) (hasSort_num h2) hev).1
      split
      · rename_i a b _ _
        have fa := hf a (by simp)
        have fb := hf b (by simp)
        have na := hn a (by simp)
        have nb := hn b (by simp)
        have h3 := simp2_sound c ρ .sub a b so _ fa fb hev
        simp only [simp2] at h3
        split
        · rename_i h4
          simp only [Bool.and_eq_true] at h4
          rw [if_pos (by simp [h4])] at h3
          exact (h3.resolve_left (by simp)).1
        · split
          · rename_i h4 h5
            simp only [Bool.and_eq_true] at h5
            by_cases hi : (a.isCInt && b.isCInt) = true
            · have e1 : toReal c a - toReal c b = nval ρ a - nval ρ b ∨ True := .inr trivial
              simp only [Bool.and_eq_true] at hi
              -- both are integer literals, yet the sort is `Real`: impossible
              exfalso
              obtain ⟨i, rfl⟩ := (isCInt_iff a).1 hi.1
              obtain ⟨j, rfl⟩ := (isCInt_iff b).1 hi.2
              have : some Srt.int = some so := h1
              simp only [Option.some.injEq] at this
              subst this; simp at h5
            · rw [if_neg hi, if_pos (by simp [h5])] at h3
              exact (h3.resolve_left (by simp [mkConstReal])).1
          · split
            · rename_i hz
              rw [(mkNeg_right fb nb).1]
              simp [ratSub, (isZero_iff (ρ := ρ) fa hz).2]
            · split
              · rename_i hz
                rw [na.eval]
                simp [ratSub, (isZero_iff (ρ := ρ) fb hz).2]
              · exact hop
      · exact hop

end SMT
