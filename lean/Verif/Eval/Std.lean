import Verif.Eval.Spec

/-! # C35: the constructors keep the shape of terms -/

namespace SMT.Eval
open SMT SMT.Term

set_option linter.unusedSimpArgs false

theorem stdL_iff {r : Bool} {ts : List Term} : StdL r ts = true ↔ ∀ t ∈ ts, Std r t = true := by
  induction ts with
  | nil => simp [StdL]
  | cons t ts ih => simp [StdL, ih]

theorem inL_iff {r : Bool} {o : Opt} {ts : List Term} : InL r o ts = true ↔ ∀ t ∈ ts, In r o t = true := by
  induction ts with
  | nil => simp [InL]
  | cons t ts ih => simp [InL, ih]

theorem std_app {r : Bool} {k : Kind} {s : Srt} {ts : List Term} :
    Std r (.app k s ts) = true ↔ relBin k ts.length = true ∧ ∀ t ∈ ts, Std r t = true := by
  simp [Std, stdL_iff]

mutual
theorem in_std (r : Bool) (o : Opt) : (t : Term) → In r o t = true → Std r t = true
  | .app k s ts, h => by
    simp only [In, topOk, Bool.and_eq_true] at h
    rw [std_app]
    exact ⟨h.1.1, stdL_iff.mp (inL_std r o ts h.2)⟩
  | .tt, h | .ff, h | .cint _, h | .creal .., h | .clit .., h | .var .., h | .unknown, h | .err, h => by
    exact h
theorem inL_std (r : Bool) (o : Opt) : (ts : List Term) → InL r o ts = true → StdL r ts = true
  | [], _ => by simp [StdL]
  | t :: ts, h => by
    simp only [InL, Bool.and_eq_true] at h
    simp [StdL, in_std r o t h.1, inL_std r o ts h.2]
end

/-! ## Consequences -/

mutual
theorem std_noReals : (t : Term) → Std false t = true → t.noReals = true
  | .app k s ts, h => by rw [std_app] at h; simp only [noReals]; exact std_noRealsL ts (stdL_iff.mpr h.2)
  | .creal .., h => by simp [Std, leafOk] at h
  | .tt, _ | .ff, _ | .cint _, _ | .clit .., _ | .var .., _ | .unknown, _ | .err, _ => by simp [noReals]
theorem std_noRealsL : (ts : List Term) → StdL false ts = true → noRealsL ts = true
  | [], _ => by simp [noRealsL]
  | t :: ts, h => by
    simp only [StdL, Bool.and_eq_true] at h
    simp [noRealsL, std_noReals t h.1, std_noRealsL ts h.2]
end

theorem std_dfit {r : Bool} {c : Cfg} (hc : NumOk r c) {t : Term} (h : Std r t = true) : DFit c t := by
  cases r with
  | true => exact .inl (by simpa [NumOk] using hc)
  | false => exact .inr ⟨by simpa [NumOk] using hc, std_noReals t h⟩

theorem std_fit {r : Bool} {c : Cfg} (hc : NumOk r c) {t : Term} (h : Std r t = true) : Fit c t := (std_dfit hc h).fit

theorem std_binTop {r : Bool} {t : Term} (h : Std r t = true) : binTop t = true := by
  cases t with
  | app k s ts => rw [std_app] at h; cases k <;> simp_all [binTop, relBin]
  | _ => rfl

theorem std_binRel {r : Bool} : ∀ (n : Nat) (t : Term), t.size ≤ n → Std r t = true → binRel t = true
  | 0, t, hn, _ => by cases t <;> simp [Term.size] at hn
  | n + 1, t, hn, h => by
    cases t with
    | app k s ts =>
      cases k with
      | not =>
        cases ts with
        | nil => simp [binRel]
        | cons t ts =>
          rw [binRel]
          rw [std_app] at h
          refine std_binRel n t ?_ (h.2 t (by simp))
          simp only [Term.size, sizeL] at hn
          omega
      | _ => rw [std_app] at h; simp_all [binRel, relBin]
    | _ => simp [binRel]

/-! ## The constructors -/

theorem std_ofBool (r x : Bool) : Std r (ofBool x) = true := by cases x <;> simp [ofBool, Std, leafOk]

theorem std_creal {r : Bool} {c : Cfg} {t : Term} (h : Std r t = true) (h1 : t.isCReal = true) (h2 : t.isCInt = false) (q : Rat) :
    Std r (mkConstReal c q) = true := by
  cases t <;> simp_all [isCReal, isCInt, Std, leafOk, mkConstReal]

theorem std_creal2 {r : Bool} {c : Cfg} {t u : Term} (h : Std r t = true) (h' : Std r u = true) (h1 : t.isCReal = true)
    (h1' : u.isCReal = true) (h2 : (t.isCInt && u.isCInt) = false) (q : Rat) : Std r (mkConstReal c q) = true := by
  cases ht : t.isCInt with
  | false => exact std_creal h h1 ht q
  | true => rw [ht] at h2; exact std_creal h' h1' (by simpa using h2) q

theorem std_simp1 {r : Bool} (c : Cfg) (k : Kind) {p : Term} (h : Std r p = true) : Std r (simp1 c k p) = true := by
  unfold simp1
  split
  · split
    · simp [Std, leafOk]
    · split <;> simp [Std, leafOk]
  · split
    · simp [Std, leafOk]
    · rename_i h1
      split
      · rename_i h2; exact std_creal h h2 (by simpa using h1) _
      · simp [Std, leafOk]
  all_goals first | exact h | simp [Std, leafOk]

theorem std_mkNeg {r : Bool} (c : Cfg) {p : Term} (h : Std r p = true) : Std r (mkNeg c p) = true := by
  unfold mkNeg mkOper1
  split
  · exact std_simp1 c _ h
  · rw [std_app]; exact ⟨rfl, by simpa using h⟩

theorem std_simp2 {r : Bool} (c : Cfg) (k : Kind) {p q : Term} (hp : Std r p = true) (hq : Std r q = true) :
    Std r (simp2 c k p q) = true := by
  have hu : Std r .unknown = true := by simp [Std, leafOk]
  have htt : Std r .tt = true := by simp [Std, leafOk]
  have hff : Std r .ff = true := by simp [Std, leafOk]
  have hci : ∀ i, Std r (.cint i) = true := by simp [Std, leafOk]
  have hb := std_ofBool r
  have hr : ∀ x, ¬ (p.isCInt && q.isCInt) = true → (p.isCReal && q.isCReal) = true → Std r (mkConstReal c x) = true := by
    intro x h1 h2
    rw [Bool.and_eq_true] at h2
    exact std_creal2 hp hq h2.1 h2.2 (by simpa using h1) x
  unfold simp2
  split
  all_goals repeat' split
  all_goals first | exact hb _ | exact hu | exact htt | exact hff | exact hci _ | assumption | exact std_mkNeg c hq | (apply hr <;> assumption)

theorem std_simpFold {r : Bool} (c : Cfg) (k : Kind) : ∀ (ts : List Term) (a : Term), Std r a = true → (∀ t ∈ ts, Std r t = true) →
    Std r (simpFold c k a ts) = true := by
  intro ts
  induction ts with
  | nil => intro a h _; exact h
  | cons t ts ih =>
    intro a h hts
    simp only [simpFold]
    split
    · simp [Std, leafOk]
    · exact ih _ (std_simp2 c k h (hts t (by simp))) fun u hu => hts u (List.mem_cons_of_mem _ hu)

theorem simpImpN_cases : ∀ (ts : List Term), simpImpN ts = .tt ∨ simpImpN ts = .ff ∨ simpImpN ts = .unknown
  | [] => by simp [simpImpN]
  | [t] => by
    simp only [simpImpN]
    split
    · simp
    · split <;> simp
  | t :: u :: ts => by
    rw [simpImpN]
    split
    · simp
    · split
      · simp
      · split
        · exact simpImpN_cases (u :: ts)
        · simp

theorem std_simp {r : Bool} (c : Cfg) (k : Kind) (ps : List Term) (hk : relBin k ps.length = true) (h : ∀ t ∈ ps, Std r t = true) :
    Std r (simp c k ps) = true := by
  have hu : Std r .unknown = true := by simp [Std, leafOk]
  rcases ps with _ | ⟨a, _ | ⟨b, _ | ⟨d, _ | ⟨e, l⟩⟩⟩⟩
  · exact hu
  · exact std_simp1 c k (h a (by simp))
  · exact std_simp2 c k (h a (by simp)) (h b (by simp))
  · have h2 := std_simp2 c k (std_simp2 c k (h a (by simp)) (h b (by simp))) (h d (by simp))
    show Std r (simp3 c k a b d) = true
    cases k <;> simp only [simp3] <;> first
      | exact h2
      | exact hu
      | (repeat' split
         all_goals first | exact h b (by simp) | exact h d (by simp) | exact hu
         done)
      | exact absurd hk (by simp [relBin])
  · show Std r (simpN c k (a :: b :: d :: e :: l)) = true
    have h2 := std_simpFold c k (b :: d :: e :: l) a (h a (by simp)) fun u hu => h u (List.mem_cons_of_mem _ hu)
    cases k <;> simp only [simpN] <;> first
      | exact h2
      | exact hu
      | (rcases simpImpN_cases (a :: b :: d :: e :: l) with h | h | h <;> rw [h] <;> simp [Std, leafOk]
         done)
      | exact absurd hk (by simp [relBin])

/-- `mkOper` -/
theorem std_mkOper {r : Bool} (c : Cfg) (s : Srt) (k : Kind) (ps : List Term) (hk : relBin k ps.length = true)
    (h : ∀ t ∈ ps, Std r t = true) : Std r (mkOper c s k ps) = true := by
  unfold mkOper
  split
  · simp [Std, leafOk]
  · split
    · exact std_simp c k ps hk h
    · rw [std_app]
      split
      · refine ⟨by rw [(c.perm ps).length_eq]; exact hk, fun t ht => h t ((c.perm ps).mem_iff.mp ht)⟩
      · exact ⟨hk, h⟩

theorem std_scan {r : Bool} {f : Term → Option (Term ⊕ Unit)} (hf : ∀ t u, f t = some (.inl u) → Std r t = true → Std r u = true)
    {ts : List Term} (h : ∀ t ∈ ts, Std r t = true) :
    (∀ u, scan f ts = .inl u → Std r u = true) ∧ ∀ l, scan f ts = .inr l → (∀ t ∈ l, Std r t = true) ∧ l.length ≤ ts.length := by
  induction ts with
  | nil =>
    refine ⟨fun u h => (by cases h), fun l h => ?_⟩
    simp only [scan, Sum.inr.injEq] at h
    subst h
    simp
  | cons t ts ih =>
    obtain ⟨i1, i2⟩ := ih fun u hu => h u (List.mem_cons_of_mem _ hu)
    have ht := h t (by simp)
    simp only [scan]
    cases hq : f t with
    | some x =>
      cases x with
      | inl y =>
        refine ⟨fun u h => ?_, fun l h => (by cases h)⟩
        simp only [Sum.inl.injEq] at h
        subst h
        exact hf t _ hq ht
      | inr y => exact ⟨i1, fun l hl => ⟨(i2 l hl).1, by have := (i2 l hl).2; simp; omega⟩⟩
    | none =>
      simp only
      cases hs : scan f ts with
      | inl y =>
        refine ⟨fun u h => ?_, fun l h => (by cases h)⟩
        simp only [Sum.inl.injEq] at h
        subst h
        exact i1 _ hs
      | inr l' =>
        refine ⟨fun u h => (by cases h), fun l h => ?_⟩
        simp only [Sum.inr.injEq] at h
        subst h
        obtain ⟨j1, j2⟩ := i2 l' hs
        refine ⟨fun u hu => ?_, by simp; omega⟩
        rcases List.mem_cons.mp hu with rfl | hu
        · exact ht
        · exact j1 u hu

theorem std_dedup {r : Bool} {l : List Term} (h : ∀ t ∈ l, Std r t = true) : ∀ t ∈ dedup l, Std r t = true :=
  fun t ht => h t ((mem_dedup t l).mp ht)

theorem std_mkAnd {r : Bool} (c : Cfg) {ps : List Term} (h : ∀ t ∈ ps, Std r t = true) : Std r (mkAnd c ps) = true := by
  unfold mkAnd
  split
  · simp [Std, leafOk]
  · exact h _ (by simp)
  · have hs := std_scan (r := r) (ts := ps) (f := fun t =>
        if t.sort != .bool then some (.inl .unknown)
        else if t.isErr then some (.inl t)
        else if t.isTrue then some (.inr ())
        else if t.isFalse then some (.inl .ff)
        else none) (by
          intro t u hq ht
          split at hq
          · simp at hq; subst hq; simp [Std, leafOk]
          · split at hq
            · simp at hq; subst hq; exact ht
            · split at hq
              · simp at hq
              · split at hq
                · simp at hq; subst hq; simp [Std, leafOk]
                · cases hq) h
    split
    · rename_i hq; exact hs.1 _ hq
    · rename_i l hq
      have hl := std_dedup (hs.2 l hq).1
      split
      · simp [Std, leafOk]
      · rename_i p hp; exact hl p (by rw [hp]; simp)
      · exact std_mkOper c _ _ _ rfl hl

theorem std_mkOr {r : Bool} (c : Cfg) {ps : List Term} (h : ∀ t ∈ ps, Std r t = true) : Std r (mkOr c ps) = true := by
  unfold mkOr
  split
  · simp [Std, leafOk]
  · exact h _ (by simp)
  · have hs := std_scan (r := r) (ts := ps) (f := fun t =>
        if t.sort != .bool then some (.inl .unknown)
        else if t.isErr then some (.inl t)
        else if t.isFalse then some (.inr ())
        else if t.isTrue then some (.inl .tt)
        else none) (by
          intro t u hq ht
          split at hq
          · simp at hq; subst hq; simp [Std, leafOk]
          · split at hq
            · simp at hq; subst hq; exact ht
            · split at hq
              · simp at hq
              · split at hq
                · simp at hq; subst hq; simp [Std, leafOk]
                · cases hq) h
    split
    · rename_i hq; exact hs.1 _ hq
    · rename_i l hq
      have hl := std_dedup (hs.2 l hq).1
      split
      · simp [Std, leafOk]
      · rename_i p hp; exact hl p (by rw [hp]; simp)
      · exact std_mkOper c _ _ _ rfl hl

theorem std_mkXor {r : Bool} (c : Cfg) {ps : List Term} (h : ∀ t ∈ ps, Std r t = true) : Std r (mkXor c ps) = true := by
  unfold mkXor
  split
  · simp [Std, leafOk]
  · exact h _ (by simp)
  · have hs := std_scan (r := r) (ts := ps) (f := fun t =>
        if t.isErr then some (.inl t)
        else if t.isFalse then some (.inr ())
        else none) (by
          intro t u hq ht
          split at hq
          · simp at hq; subst hq; exact ht
          · split at hq
            · simp at hq
            · cases hq) h
    split
    · rename_i hq; exact hs.1 _ hq
    · simp [Std, leafOk]
    · rename_i p hq; exact (hs.2 _ hq).1 p (by simp)
    · rename_i l _ _ hq; exact std_mkOper c _ _ _ rfl (hs.2 _ hq).1

theorem std_mkIte {r : Bool} (c : Cfg) {x a b : Term} (hx : Std r x = true) (ha : Std r a = true) (hb : Std r b = true) :
    Std r (mkIte c x a b) = true := by
  unfold mkIte
  repeat' split
  all_goals first | assumption | skip
  refine std_mkOper c _ _ _ rfl ?_
  simp [hx, ha, hb]

theorem std_mkDistinctV {r : Bool} (c : Cfg) {ps : List Term} (h : ∀ t ∈ ps, Std r t = true) (hn : ps.length = 2) :
    Std r (mkDistinctV c ps) = true := by
  unfold mkDistinctV
  split
  · simp [Std, leafOk]
  · have hs := std_scan (r := r) (ts := ps) (f := fun t =>
        if t.isErr then some (.inl t)
        else if badSort (getSort ps) t then some (.inl .unknown)
        else if t.isFalse then some (.inr ())
        else none) (by
          intro t u hq ht
          split at hq
          · simp at hq; subst hq; exact ht
          · split at hq
            · simp at hq; subst hq; simp [Std, leafOk]
            · split at hq
              · simp at hq
              · cases hq) h
    split
    · rename_i hq; exact hs.1 _ hq
    · simp [Std, leafOk]
    · rename_i p hq; exact (hs.2 _ hq).1 p (by simp)
    · rename_i l h1 h2 hq
      have hl : l.length = 2 := by
        have := (hs.2 _ hq).2
        rcases l with _ | ⟨a, _ | ⟨b, l⟩⟩
        · exact absurd rfl h1
        · exact absurd rfl (h2 a)
        · rw [hn] at this; simp only [List.length_cons] at this ⊢; omega
      rw [if_neg (by omega)]
      exact std_mkOper c _ _ _ (by simp [relBin, hl]) (hs.2 _ hq).1

theorem std_mkCmp2 {r : Bool} (c : Cfg) (k : Kind) {refl a b : Term} (hr : Std r refl = true) (ha : Std r a = true) (hb : Std r b = true) :
    Std r (mkCmp2 c k refl a b) = true := by
  have h := std_mkOper (r := r) c .bool k [a, b] (by cases k <;> rfl) (by simp [ha, hb])
  unfold mkCmp2
  repeat' split
  all_goals first | exact h | exact hr | simp [Std, leafOk]

theorem std_getD {r : Bool} {ts : List Term} (h : ∀ t ∈ ts, Std r t = true) (i : Nat) : Std r (ts.getD i .unknown) = true := by
  rw [List.getD_eq_getElem?_getD]
  cases hq : ts[i]? with
  | none => simp [Std, leafOk]
  | some t => exact h t (List.mem_of_getElem? hq)

theorem std_not_eq2 {r : Bool} (c : Cfg) : ∀ (n : Nat), (∀ t : Term, t.size < n → Std r t = true → Std r (mkNot c t) = true) ∧
    ∀ a b : Term, a.size + b.size < n → Std r a = true → Std r b = true → Std r (mkEq2 c a b) = true := by
  intro n
  induction n with
  | zero => exact ⟨fun _ h => absurd h (Nat.not_lt_zero _), fun _ _ h => absurd h (Nat.not_lt_zero _)⟩
  | succ n ih =>
    have hu : Std r .unknown = true := by simp [Std, leafOk]
    have htt : Std r .tt = true := by simp [Std, leafOk]
    have hff : Std r .ff = true := by simp [Std, leafOk]
    have hnot : ∀ t : Term, t.size < n + 1 → Std r t = true → Std r (mkNot c t) = true := by
      intro t hn h
      have hop : ∀ t : Term, Std r t = true → Std r (mkOper c .bool .not [t]) = true :=
        fun t h => std_mkOper c _ _ _ rfl (by simpa using h)
      rw [mkNot.eq_def]
      split
      · exact hu
      · split
        · rename_i s ts _
          rw [std_app] at h
          cases ts with
          | nil => exact hu
          | cons t ts => exact h.2 t (by simp)
        · exact hff
        · exact htt
        · rename_i s ts
          split
          · rw [std_app] at h; exact std_mkDistinctV c h.2 (by simpa [relBin] using h.1)
          · exact hop _ h
        · rename_i s ts
          split
          · rw [std_app] at h
            obtain ⟨a, b, rfl⟩ := len2 (by simpa [relBin] using h.1)
            rw [mkEqV.eq_def]
            simp only
            refine ih.2 a b ?_ (h.2 a (by simp)) (h.2 b (by simp))
            simp only [Term.size, sizeL] at hn
            omega
          · exact hop _ h
        all_goals first
          | exact hop _ h
          | (rw [std_app] at h
             first
              | exact std_mkCmp2 c .ge htt (std_getD h.2 0) (std_getD h.2 1)
              | exact std_mkCmp2 c .gt hff (std_getD h.2 0) (std_getD h.2 1)
              | exact std_mkCmp2 c .le htt (std_getD h.2 0) (std_getD h.2 1)
              | exact std_mkCmp2 c .lt hff (std_getD h.2 0) (std_getD h.2 1))
    refine ⟨hnot, ?_⟩
    intro a b hn ha hb
    have hpos : ∀ t : Term, 1 ≤ t.size := by intro t; cases t <;> simp [Term.size]
    have h1 := hpos a
    have h2 := hpos b
    rw [mkEq2.eq_def]
    split
    · exact hu
    · split
      all_goals first
        | exact htt
        | exact hff
        | assumption
        | exact hnot _ (by simp only [Term.size] at hn ⊢; omega) (by assumption)
        | skip
      · rw [std_app] at ha hb
        refine ih.2 _ _ ?_ (ha.2 _ (by simp)) (hb.2 _ (by simp))
        simp only [Term.size, sizeL] at hn
        omega
      · exact std_mkOper c _ _ _ rfl (by simp [ha, hb])

theorem std_mkNot {r : Bool} (c : Cfg) {t : Term} (h : Std r t = true) : Std r (mkNot c t) = true :=
  (std_not_eq2 c (t.size + 1)).1 t (by omega) h

theorem std_mkEqV {r : Bool} (c : Cfg) {ts : List Term} (h : ∀ t ∈ ts, Std r t = true) (hn : ts.length = 2) :
    Std r (mkEqV c ts) = true := by
  obtain ⟨a, b, rfl⟩ := len2 hn
  rw [mkEqV.eq_def]
  exact (std_not_eq2 c (a.size + b.size + 1)).2 a b (by omega) (h a (by simp)) (h b (by simp))

end SMT.Eval
