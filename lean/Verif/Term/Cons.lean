import Verif.Term.Simp2
/-!
# The constructors preserve values: lemmas
-/
namespace SMT
open Term

attribute [local simp] Rat.add_zero Rat.zero_add Rat.mul_one Rat.one_mul rat_zero_sub rat_sub_zero

/-! ### the operand loop -/

theorem scan_inl {f : Term → Option (Term ⊕ Unit)} {ts : List Term} {r : Term}
    (h : scan f ts = .inl r) : ∃ t ∈ ts, f t = some (.inl r) := by
  induction ts with
  | nil => simp [scan] at h
  | cons t ts ih =>
    simp only [scan] at h
    split at h
    · rename_i r' hf; simp at h; subst h; exact ⟨t, by simp, hf⟩
    · obtain ⟨u, hu, h2⟩ := ih h; exact ⟨u, by simp [hu], h2⟩
    · split at h
      · rename_i r' h3; simp at h; subst h
        obtain ⟨u, hu, h2⟩ := ih h3; exact ⟨u, by simp [hu], h2⟩
      · simp at h

theorem scan_inr {f : Term → Option (Term ⊕ Unit)} {ts l : List Term}
    (h : scan f ts = .inr l) :
    l = ts.filter (fun t => (f t).isNone) ∧ ∀ t ∈ ts, ∀ r, f t ≠ some (.inl r) := by
  induction ts generalizing l with
  | nil => simp [scan] at h; simp [h]
  | cons t ts ih =>
    simp only [scan] at h
    split at h
    · simp at h
    · rename_i r' hf
      obtain ⟨h1, h2⟩ := ih h
      refine ⟨by simp [hf, h1], ?_⟩
      intro u hu r; rcases List.mem_cons.1 hu with rfl | hu
      · rw [hf]; simp
      · exact h2 u hu r
    · rename_i hf
      split at h
      · simp at h
      · rename_i l' h3; simp at h; subst h
        obtain ⟨h1, h2⟩ := ih h3
        refine ⟨by simp [hf, h1], ?_⟩
        intro u hu r; rcases List.mem_cons.1 hu with rfl | hu
        · rw [hf]; simp
        · exact h2 u hu r

theorem mem_dedup (t : Term) (l : List Term) : t ∈ dedup l ↔ t ∈ l := by
  induction l with
  | nil => simp [dedup]
  | cons u l ih => simp only [dedup, List.mem_cons, List.mem_filter, ih]; grind

/-! ### Boolean kinds do not touch numbers -/

/-- the same configuration with exact reals -/
def Cfg.exact (c : Cfg) : Cfg := { c with rnd := id }

theorem exact_exact (c : Cfg) : Exact c.exact := fun _ => rfl

/-- the connectives -/
def isConn : Kind → Bool
  | .not | .and | .or | .xor | .implies | .ite => true
  | _ => false

theorem simpFold_exact (c : Cfg) (k : Kind) (hk : isConn k = true) (ts : List Term) :
    ∀ acc, simpFold c k acc ts = simpFold c.exact k acc ts := by
  induction ts with
  | nil => intro _; rfl
  | cons t ts ih =>
    intro acc
    have : simp2 c k acc t = simp2 c.exact k acc t := by cases k <;> simp [isConn] at hk <;> rfl
    simp only [simpFold, this, ih]

theorem mkOper_exact (c : Cfg) (s : Srt) (k : Kind) (hk : isConn k = true) (ps : List Term) :
    mkOper c s k ps = mkOper c.exact s k ps := by
  have : simp c k ps = simp c.exact k ps := by
    rcases ps with _ | ⟨a, _ | ⟨b, _ | ⟨d, _ | ⟨e, l⟩⟩⟩⟩
    · rfl
    · cases k <;> simp [isConn] at hk <;> rfl
    · cases k <;> simp [isConn] at hk <;> rfl
    · cases k <;> simp [isConn] at hk <;> rfl
    · cases k <;> simp [isConn] at hk <;> simp only [simp, simpN]
      all_goals exact simpFold_exact c _ rfl _ _
  unfold mkOper
  rw [this]; rfl

/-- `mkOper` for the connectives -/
theorem mkOper_conn (c : Cfg) (ρ : Env) (k : Kind) (hk : isConn k = true) (ps : List Term) (s : Srt)
    (v : Val) (hne : ps ≠ []) (hi : k = .implies → ∀ t ∈ ps.dropLast, t ≠ .tt ∧ t ≠ .ff)
    (hs : v.hasSort s = true) (h : evalApp ρ k ps s = some v) :
    eval ρ (mkOper c s k ps) = some v := by
  rw [mkOper_exact c s k hk]
  exact (mkOper_sound c.exact ρ k ps s v (fun _ _ => .inl (exact_exact c)) hne hi hs h).1

theorem IsB.not_err {ρ : Env} {t : Term} (h : IsB ρ t) : t.isErr = false := by
  have := h.sort; cases t <;> simp_all [isErr, Term.sort]
theorem Ev.not_err {ρ : Env} {t : Term} (h : Ev ρ t) : t.isErr = false := by
  obtain ⟨v, h⟩ := h; cases t <;> simp_all [isErr, SMT.eval]

theorem eval_eq_of_bval {ρ : Env} {t : Term} {x : Bool} (h : IsB ρ t) (h2 : bval ρ t = x) :
    eval ρ t = some (.b x) := by rw [h.eval, h2]

theorem and_mem (ρ : Env) (ts : List Term) (s : Srt) (x : Bool) :
    evalApp ρ .and ts s = some (.b x) ↔
      (∀ t ∈ ts, IsB ρ t) ∧ (x = true ↔ ∀ t ∈ ts, bval ρ t = true) := by
  rw [evalApp_and]
  simp only [Val.b.injEq]
  rw [Bool.eq_iff_iff]; simp

theorem or_mem (ρ : Env) (ts : List Term) (s : Srt) (x : Bool) :
    evalApp ρ .or ts s = some (.b x) ↔
      (∀ t ∈ ts, IsB ρ t) ∧ (x = true ↔ ∃ t ∈ ts, bval ρ t = true) := by
  rw [evalApp_or]
  simp only [Val.b.injEq]
  rw [Bool.eq_iff_iff]; simp

theorem mkAnd_sound' (c : Cfg) (ρ : Env) (ts : List Term) (s : Srt) (x : Bool)
    (h : evalApp ρ .and ts s = some (.b x)) : eval ρ (mkAnd c ts) = some (.b x) := by
  obtain ⟨hb, hx⟩ := (and_mem ρ ts s x).1 h
  unfold mkAnd
  split
  · simp at hx; simp [hx, eval]
  · rename_i p
    refine eval_eq_of_bval (hb p (by simp)) ?_
    simp at hx; rw [Bool.eq_iff_iff, hx]
  · split
    · rename_i r hr
      obtain ⟨t, ht, h1⟩ := scan_inl hr
      have hbt := hb t ht
      rw [if_neg (by simp [hbt.sort]), if_neg (by simp [hbt.not_err])] at h1
      split at h1
      · simp at h1
      · split at h1
        · rename_i hf; simp at h1; subst h1
          have hf := (isFalse_iff t).1 hf; subst hf
          have : x = false := by
            rw [← Bool.not_eq_true, hx]; intro h; simpa [bval_ff] using h _ ht
          simp [this, eval]
        · simp at h1
    · rename_i l hl
      obtain ⟨h1, h2⟩ := scan_inr hl
      have hmem : ∀ t, t ∈ dedup l ↔ t ∈ ts ∧ t ≠ .tt := by
        intro t
        rw [mem_dedup, h1, List.mem_filter]
        constructor
        · rintro ⟨ht, h3⟩
          refine ⟨ht, ?_⟩
          rintro rfl
          simp [Term.sort, isErr, Term.isTrue] at h3
        · rintro ⟨ht, h3⟩
          refine ⟨ht, ?_⟩
          have hbt := hb t ht
          have h4 := h2 t ht .ff
          rw [if_neg (by simp [hbt.sort]), if_neg (by simp [hbt.not_err]),
            if_neg (by rw [isTrue_iff]; exact h3)] at h4 ⊢
          split
          · rename_i h5; rw [if_pos h5] at h4; simp at h4
          · rfl
      have hx' : x = true ↔ ∀ t ∈ dedup l, bval ρ t = true := by
        rw [hx]
        constructor
        · intro h t ht; exact h t ((hmem t).1 ht).1
        · intro h t ht
          by_cases h5 : t = .tt
          · rw [h5, bval_tt]
          · exact h t ((hmem t).2 ⟨ht, h5⟩)
      have hb' : ∀ t ∈ dedup l, IsB ρ t := fun t ht => hb t ((hmem t).1 ht).1
      split
      · rename_i hd; rw [hd] at hx'; simp at hx'; simp [hx', eval]
      · rename_i p hd; rw [hd] at hx' hb'
        refine eval_eq_of_bval (hb' p (by simp)) ?_
        simp at hx'; rw [Bool.eq_iff_iff, hx']
      · rename_i hne _
        refine mkOper_conn c ρ .and rfl _ .bool _ hne (by simp) rfl ?_
        exact (and_mem ρ _ _ x).2 ⟨hb', hx'⟩

theorem mkOr_sound' (c : Cfg) (ρ : Env) (ts : List Term) (s : Srt) (x : Bool)
    (h : evalApp ρ .or ts s = some (.b x)) : eval ρ (mkOr c ts) = some (.b x) := by
  obtain ⟨hb, hx⟩ := (or_mem ρ ts s x).1 h
  unfold mkOr
  split
  · simp at hx; simp [hx, eval]
  · rename_i p
    refine eval_eq_of_bval (hb p (by simp)) ?_
    simp at hx; rw [Bool.eq_iff_iff, hx]
  · split
    · rename_i r hr
      obtain ⟨t, ht, h1⟩ := scan_inl hr
      have hbt := hb t ht
      rw [if_neg (by simp [hbt.sort]), if_neg (by simp [hbt.not_err])] at h1
      split at h1
      · simp at h1
      · split at h1
        · rename_i hf; simp at h1; subst h1
          have hf := (isTrue_iff t).1 hf; subst hf
          have : x = true := by rw [hx]; exact ⟨_, ht, bval_tt ρ⟩
          simp [this, eval]
        · simp at h1
    · rename_i l hl
      obtain ⟨h1, h2⟩ := scan_inr hl
      have hmem : ∀ t, t ∈ dedup l ↔ t ∈ ts ∧ t ≠ .ff := by
        intro t
        rw [mem_dedup, h1, List.mem_filter]
        constructor
        · rintro ⟨ht, h3⟩
          refine ⟨ht, ?_⟩
          rintro rfl
          simp [Term.sort, isErr, Term.isFalse] at h3
        · rintro ⟨ht, h3⟩
          refine ⟨ht, ?_⟩
          have hbt := hb t ht
          have h4 := h2 t ht .tt
          rw [if_neg (by simp [hbt.sort]), if_neg (by simp [hbt.not_err]),
            if_neg (by rw [isFalse_iff]; exact h3)] at h4 ⊢
          split
          · rename_i h5; rw [if_pos h5] at h4; simp at h4
          · rfl
      have hx' : x = true ↔ ∃ t ∈ dedup l, bval ρ t = true := by
        rw [hx]
        constructor
        · rintro ⟨t, ht, h⟩
          refine ⟨t, (hmem t).2 ⟨ht, ?_⟩, h⟩
          rintro rfl; simp [bval_ff] at h
        · rintro ⟨t, ht, h⟩; exact ⟨t, ((hmem t).1 ht).1, h⟩
      have hb' : ∀ t ∈ dedup l, IsB ρ t := fun t ht => hb t ((hmem t).1 ht).1
      split
      · rename_i hd; rw [hd] at hx'; simp at hx'; simp [hx', eval]
      · rename_i p hd; rw [hd] at hx' hb'
        refine eval_eq_of_bval (hb' p (by simp)) ?_
        simp at hx'; rw [Bool.eq_iff_iff, hx']
      · rename_i hne _
        refine mkOper_conn c ρ .or rfl _ .bool _ hne (by simp) rfl ?_
        exact (or_mem ρ _ _ x).2 ⟨hb', hx'⟩

/-- implication chain = some antecedent false or the last true -/
theorem impChain_append (l : List Bool) (y : Bool) :
    impChain (l ++ [y]) = (l.any (!·) || y) := by
  induction l with
  | nil => simp [impChain]
  | cons a l ih =>
    cases l with
    | nil => simp [impChain]
    | cons b l => simp only [List.cons_append, impChain] at ih ⊢; rw [ih]; simp [Bool.or_assoc]

theorem imp_mem (ρ : Env) (ts : List Term) (y : Term) (s : Srt) (x : Bool) :
    evalApp ρ .implies (ts ++ [y]) s = some (.b x) ↔
      ts ≠ [] ∧ (∀ t ∈ ts, IsB ρ t) ∧ IsB ρ y ∧
        (x = true ↔ (∃ t ∈ ts, bval ρ t = false) ∨ bval ρ y = true) := by
  rw [evalApp_implies, List.map_append, List.map_cons, List.map_nil, impChain_append]
  simp only [Val.b.injEq]
  rw [Bool.eq_iff_iff]
  cases ts with
  | nil => simp
  | cons a l => simp; grind

theorem mkImplies_sound' (c : Cfg) (ρ : Env) (ts : List Term) (s : Srt) (x : Bool)
    (h : evalApp ρ .implies ts s = some (.b x)) : eval ρ (mkImplies c ts) = some (.b x) := by
  have hlen := ((evalApp_implies ρ ts s _).1 h).1
  obtain ⟨as, y, rfl⟩ : ∃ as y, ts = as ++ [y] := by
    rcases List.eq_nil_or_concat ts with rfl | ⟨as, y, rfl⟩
    · simp at hlen
    · exact ⟨as, y, by simp⟩
  obtain ⟨_, hb, hy, hx⟩ := (imp_mem ρ as y s x).1 h
  unfold mkImplies
  rw [if_neg (by omega)]
  simp only [List.dropLast_concat, List.getLastD_concat]
  split
  · rename_i r hr
    obtain ⟨t, ht, h1⟩ := scan_inl hr
    have hbt := hb t ht
    rw [if_neg (by simp [hbt.not_err])] at h1
    split at h1
    · rename_i hf; simp at h1; subst h1
      have hf := (isFalse_iff t).1 hf; subst hf
      have : x = true := by rw [hx]; exact .inl ⟨_, ht, bval_ff ρ⟩
      simp [this, eval]
    · split at h1 <;> simp at h1
  · rename_i l hl
    obtain ⟨h1, h2⟩ := scan_inr hl
    have hmem : ∀ t, t ∈ l ↔ t ∈ as ∧ t ≠ .tt := by
      intro t
      rw [h1, List.mem_filter]
      constructor
      · rintro ⟨ht, h3⟩
        refine ⟨ht, ?_⟩
        rintro rfl
        simp [isErr, Term.isTrue, Term.isFalse] at h3
      · rintro ⟨ht, h3⟩
        refine ⟨ht, ?_⟩
        have hbt := hb t ht
        have h4 := h2 t ht .tt
        rw [if_neg (by simp [hbt.not_err])] at h4 ⊢
        split
        · rename_i h5; rw [if_pos h5] at h4; simp at h4
        · rw [if_neg (by rw [isTrue_iff]; exact h3)]; rfl
    have hff : ∀ t ∈ l, t ≠ .ff := by
      rintro t ht rfl
      have h4 := h2 _ ((hmem _).1 ht).1 .tt
      simp [isErr, Term.isFalse] at h4
    have hx' : x = true ↔ (∃ t ∈ l, bval ρ t = false) ∨ bval ρ y = true := by
      rw [hx]
      refine or_congr_left ?_
      constructor
      · rintro ⟨t, ht, h⟩
        refine ⟨t, (hmem t).2 ⟨ht, ?_⟩, h⟩
        rintro rfl; simp [bval_tt] at h
      · rintro ⟨t, ht, h⟩; exact ⟨t, ((hmem t).1 ht).1, h⟩
    rw [if_neg (by simp [hy.not_err])]
    split
    · rename_i hd; simp at hd; subst hd
      refine eval_eq_of_bval hy ?_
      simp at hx'; rw [Bool.eq_iff_iff, hx']
    · rename_i hd
      refine mkOper_conn c ρ .implies rfl _ .bool _ (by simp) ?_ rfl ?_
      · intro _ t ht
        simp only [List.dropLast_concat] at ht
        exact ⟨((hmem t).1 ht).2, hff t ht⟩
      · exact (imp_mem ρ _ _ _ x).2 ⟨by simpa using hd, fun t ht => hb t ((hmem t).1 ht).1, hy, hx'⟩

theorem foldl_xor (l : List Bool) (a : Bool) :
    l.foldl Bool.xor a = Bool.xor a (l.foldl Bool.xor false) := by
  induction l generalizing a with
  | nil => simp
  | cons b l ih => simp only [List.foldl_cons]; rw [ih, ih (Bool.xor false b)]; simp

theorem xor_filter (ρ : Env) (p : Term → Bool) (ts : List Term)
    (h : ∀ t ∈ ts, p t = false → bval ρ t = false) :
    ((ts.filter p).map (bval ρ)).foldl Bool.xor false = (ts.map (bval ρ)).foldl Bool.xor false := by
  induction ts with
  | nil => rfl
  | cons t ts ih =>
    have ih := ih (fun u hu => h u (by simp [hu]))
    by_cases hp : p t = true
    · simp only [List.filter_cons, hp, if_true, List.map_cons, List.foldl_cons]
      rw [foldl_xor, ih, ← foldl_xor]
    · simp only [List.filter_cons, hp, Bool.false_eq_true, if_false, List.map_cons, List.foldl_cons]
      rw [ih, h t (by simp) (by simpa using hp)]; rfl

theorem mkXor_sound' (c : Cfg) (ρ : Env) (ts : List Term) (s : Srt) (x : Bool)
    (h : evalApp ρ .xor ts s = some (.b x)) : eval ρ (mkXor c ts) = some (.b x) := by
  obtain ⟨hb, hx⟩ := (evalApp_xor ρ ts s _).1 h
  simp only [Val.b.injEq] at hx
  unfold mkXor
  split
  · simp at hx; simp [hx, eval]
  · rename_i p
    refine eval_eq_of_bval (hb p (by simp)) ?_
    simp at hx; rw [hx]
  · have hsc : ∀ l, scan (fun t => if t.isErr then some (Sum.inl t)
        else if t.isFalse then some (Sum.inr ()) else none) ts = .inr l →
        (∀ t ∈ l, IsB ρ t) ∧ x = (l.map (bval ρ)).foldl Bool.xor false := by
      intro l hl
      obtain ⟨h1, h2⟩ := scan_inr hl
      subst h1
      refine ⟨fun t ht => hb t (List.mem_filter.1 ht).1, ?_⟩
      rw [xor_filter, hx]
      intro t ht h3
      rw [if_neg (by simp [(hb t ht).not_err])] at h3
      split at h3
      · rename_i hf; rw [(isFalse_iff t).1 hf, bval_ff]
      · simp at h3
    split
    · rename_i r hr
      obtain ⟨t, ht, h1⟩ := scan_inl hr
      rw [if_neg (by simp [(hb t ht).not_err])] at h1
      split at h1 <;> simp at h1
    · rename_i hl
      have := hsc _ hl
      simp at this; simp [this, eval]
    · rename_i p hl
      have := hsc _ hl
      simp at this
      exact eval_eq_of_bval this.1 (by rw [this.2])
    · rename_i l hne _ hl
      have := hsc _ hl
      refine mkOper_conn c ρ .xor rfl _ .bool _ (by rintro rfl; exact hne rfl) (by simp) rfl ?_
      exact (evalApp_xor ρ _ _ _).2 ⟨this.1, by rw [this.2]⟩

theorem hasSort_same {a b : Val} {s : Srt} (h : a.sameSort b = true) (ha : a.hasSort s = true) :
    b.hasSort s = true := by
  cases a <;> cases b <;> cases s <;> simp_all [Val.sameSort, Val.hasSort]

theorem mkIte_sound' (c : Cfg) (ρ : Env) (a x y : Term) (s : Srt) (v : Val)
    (h : evalApp ρ .ite [a, x, y] s = some v) : eval ρ (mkIte c a x y) = some v := by
  obtain ⟨a', x', y', heq, ha, hx, hy, hs, hv⟩ := (evalApp_ite ρ _ s v).1 h
  simp only [List.cons.injEq, and_true] at heq
  obtain ⟨rfl, rfl, rfl⟩ := heq
  have hf : v.hasSort x.sort = true := by
    have h1 := eval_hasSort hx.eval
    rw [hv]; split
    · exact h1
    · exact hasSort_same hs h1
  unfold mkIte
  rw [if_neg (by simp [ha.not_err]), if_neg (by simp [hx.not_err]), if_neg (by simp [hy.not_err])]
  refine mkOper_conn c ρ .ite rfl _ _ v (by simp) (by simp) hf ?_
  exact (evalApp_ite ρ _ _ v).2 ⟨a, x, y, rfl, ha, hx, hy, hs, hv⟩

end SMT
