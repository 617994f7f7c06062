import Verif.Term.Lemmas
/-!
# Folding preserves values
-/
namespace SMT
open Term

/-- reals are computed exactly at the configured precision -/
def Exact (c : Cfg) : Prop := ∀ q, c.rnd q = q
/-- rounding does not turn an integer into 0 or 1 (true of every floating-point format with at least
two bits) -/
def IntOK (c : Cfg) : Prop := ∀ i : Int, (c.rnd i = 0 ↔ i = 0) ∧ (c.rnd i = 1 ↔ i = 1)
/-- not a real literal -/
def NoReal : Term → Prop
  | .creal _ _ => False
  | _ => True
/-- Either real arithmetic is exact at the configured precision, or the operand is not a real
literal. -/
def Fit (c : Cfg) (t : Term) : Prop := Exact c ∨ (NoReal t ∧ IntOK c)

theorem Fit.of_noReal {c : Cfg} {t u : Term} (h : Fit c t) (hu : NoReal u) : Fit c u := by
  rcases h with h | h
  · exact .inl h
  · exact .inr ⟨hu, h.2⟩

theorem Fit.exact {c : Cfg} {n : String} {q : Rat} (h : Fit c (.creal n q)) : Exact c := by
  rcases h with h | h
  · exact h
  · exact h.1.elim

theorem Fit.intOK {c : Cfg} {t : Term} (h : Fit c t) : IntOK c := by
  rcases h with h | h
  · intro i; rw [h]; constructor <;> norm_cast
  · exact h.2

theorem isCInt_iff (t : Term) : t.isCInt = true ↔ ∃ i, t = .cint i := by
  cases t <;> simp [isCInt]

/-- a numeric literal: an integer one, or a real one (then reals are exact) -/
theorem isCReal_cases {c : Cfg} {t : Term} (h : t.isCReal = true) (hf : Fit c t) :
    (∃ i, t = .cint i) ∨ ((∃ n q, t = .creal n q) ∧ Exact c) := by
  cases t with
  | cint i => exact .inl ⟨i, rfl⟩
  | creal n q => exact .inr ⟨⟨n, q, rfl⟩, hf.exact⟩
  | _ => simp [isCReal] at h

theorem toReal_exact {c : Cfg} (hc : Exact c) {ρ : Env} {t : Term} (h : t.isCReal = true) :
    toReal c t = nval ρ t := by
  cases t <;> simp [isCReal] at h <;> simp [toReal, hc _, nval, eval]

theorem isCReal_IsN {ρ : Env} {t : Term} (h : t.isCReal = true) : IsN ρ t := by
  cases t <;> simp [isCReal] at h <;> exact ⟨_, by rw [eval]⟩

theorem isCReal_noBoth {c : Cfg} {l r : Term} (hl : l.isCReal = true) (hr : r.isCReal = true)
    (hn : ¬ (l.isCInt && r.isCInt) = true) (fl : Fit c l) (fr : Fit c r) : Exact c := by
  rcases isCReal_cases hl fl with ⟨i, rfl⟩ | ⟨_, h⟩
  · rcases isCReal_cases hr fr with ⟨j, rfl⟩ | ⟨_, h⟩
    · simp [isCInt] at hn
    · exact h
  · exact h

theorem isCInt_isCReal {t : Term} (h : t.isCInt = true) : t.isCReal = true := by
  cases t <;> simp_all [isCInt, isCReal]

theorem mixed_iff (l r : Term) : ((l.isCReal && r.isCReal) || (l.isCInt && r.isCReal) ||
    (l.isCReal && r.isCInt)) = true ↔ l.isCReal = true ∧ r.isCReal = true := by
  cases l <;> cases r <;> simp [isCInt, isCReal]

theorem ofBool_eval (ρ : Env) (x : Bool) : eval ρ (ofBool x) = some (.b x) := by
  cases x <;> rfl
theorem ofBool_noReal (x : Bool) : NoReal (ofBool x) := by cases x <;> trivial
theorem ofBool_ne (x : Bool) : ofBool x ≠ .unknown := by cases x <;> simp [ofBool]

theorem nval_cint (ρ : Env) (i : Int) : nval ρ (.cint i) = i := by simp [nval, eval]
theorem nval_creal (ρ : Env) (n : String) (q : Rat) : nval ρ (.creal n q) = q := by
  simp [nval, eval]
theorem IsN_cint (ρ : Env) (i : Int) : IsN ρ (.cint i) := ⟨i, rfl⟩
theorem IsN_creal (ρ : Env) (n : String) (q : Rat) : IsN ρ (.creal n q) := ⟨q, rfl⟩
theorem val_of_IsN {ρ : Env} {t : Term} (h : IsN ρ t) : val ρ t = .n (nval ρ t) := by
  simp [val, h.eval]
theorem val_of_IsB {ρ : Env} {t : Term} (h : IsB ρ t) : val ρ t = .b (bval ρ t) := by
  simp [val, h.eval]

theorem isZero_iff {c : Cfg} {ρ : Env} {t : Term} (hf : Fit c t) (h : isZero c t = true) :
    IsN ρ t ∧ nval ρ t = 0 := by
  unfold isZero at h
  split at h
  · rename_i h1
    refine ⟨isCReal_IsN h1, ?_⟩
    rcases isCReal_cases h1 hf with ⟨i, rfl⟩ | ⟨_, hc⟩
    · simp [toReal] at h
      have := ((hf.intOK i).1).1 h
      rw [nval_cint, this]; rfl
    · rw [toReal_exact hc h1 (ρ := ρ)] at h; simpa using h
  · split at h
    · rename_i h1 h2; exact absurd (isCInt_isCReal h2) h1
    · cases h

theorem isOne_iff {c : Cfg} {ρ : Env} {t : Term} (hf : Fit c t) (h : isOne c t = true) :
    IsN ρ t ∧ nval ρ t = 1 := by
  unfold isOne at h
  split at h
  · rename_i h1
    refine ⟨isCReal_IsN h1, ?_⟩
    rcases isCReal_cases h1 hf with ⟨i, rfl⟩ | ⟨_, hc⟩
    · simp [toReal] at h
      have := ((hf.intOK i).2).1 h
      rw [nval_cint, this]; rfl
    · rw [toReal_exact hc h1 (ρ := ρ)] at h; simpa using h
  · split at h
    · rename_i h1 h2; exact absurd (isCInt_isCReal h2) h1
    · cases h

/-- what "the folded term is right" means -/
def Right (c : Cfg) (ρ : Env) (v : Val) (t : Term) : Prop :=
  t = .unknown ∨ (eval ρ t = some v ∧ Fit c t)

theorem right_ofBool {c : Cfg} {ρ : Env} {t : Term} (hf : Fit c t) (x y : Bool) (h : x = y) :
    Right c ρ (.b y) (ofBool x) :=
  .inr ⟨by rw [ofBool_eval, h], hf.of_noReal (ofBool_noReal _)⟩

theorem right_real {c : Cfg} {ρ : Env} (hc : Exact c) (q r : Rat) (h : q = r) :
    Right c ρ (.n r) (mkConstReal c q) := .inr ⟨by simp [mkConstReal, eval, h], .inl hc⟩

theorem right_cint {c : Cfg} {ρ : Env} {t : Term} (hf : Fit c t) (i : Int) (r : Rat)
    (h : (i : Rat) = r) : Right c ρ (.n r) (.cint i) :=
  .inr ⟨by simp [eval, h], hf.of_noReal trivial⟩

theorem hasSort_num {q : Rat} {s : Srt} (h : s.isNum = true) : (Val.n q).hasSort s = true := by
  cases s <;> simp_all [Srt.isNum, Val.hasSort]

theorem mkNeg_right {c : Cfg} {ρ : Env} {t : Term} (hf : Fit c t) (h : IsN ρ t) :
    eval ρ (mkNeg c t) = some (.n (-(nval ρ t))) ∧ Fit c (mkNeg c t) := by
  unfold mkNeg mkOper1 simp1
  by_cases h1 : t.isCInt = true
  · obtain ⟨i, rfl⟩ := (isCInt_iff t).1 h1
    simp [isCInt, isUnknown, eval, nval, intVal]
    exact hf.of_noReal trivial
  · by_cases h2 : t.isCReal = true
    · have hc := isCReal_noBoth h2 h2 (by simp [h1]) hf hf
      simp [h1, h2, mkConstReal, isUnknown, eval, toReal_exact hc h2 (ρ := ρ)]
      exact .inl hc
    · simp only [h1, h2, isUnknown, Bool.not_true, Bool.false_eq_true, if_false]
      refine ⟨?_, hf.of_noReal trivial⟩
      rw [eval_app, guardSort_some]
      refine ⟨(evalApp_neg ρ _ _ _).2 ⟨t, rfl, h, rfl⟩, hasSort_num h.sort⟩

theorem cmp_int (ρ : Env) (k : Kind) (i j : Int) :
    cmpRel k (nval ρ (.cint i)) (nval ρ (.cint j)) =
      match k with
      | .le => decide (i ≤ j) | .lt => decide (i < j)
      | .ge => decide (i ≥ j) | .gt => decide (i > j) | _ => false := by
  simp only [nval_cint]
  cases k <;> simp [cmpRel] <;> norm_cast

theorem simp2_cmp (c : Cfg) (ρ : Env) (k : Kind) (hk : isCmp k = true) (l r : Term) (s : Srt)
    (v : Val) (fl : Fit c l) (fr : Fit c r) (h : evalApp ρ k [l, r] s = some v) :
    Right c ρ v (simp2 c k l r) := by
  obtain ⟨_, hN, rfl⟩ := (evalApp_cmp' ρ _ s v k hk).1 h
  simp only [List.map_cons, List.map_nil, chain, Bool.and_true]
  by_cases h1 : (l.isCInt && r.isCInt) = true
  · simp only [Bool.and_eq_true] at h1
    obtain ⟨i, rfl⟩ := (isCInt_iff l).1 h1.1
    obtain ⟨j, rfl⟩ := (isCInt_iff r).1 h1.2
    rw [cmp_int]
    cases k <;> simp [isCmp] at hk <;>
      (simp only [simp2, isCInt, Bool.and_self, if_true, intVal]; exact right_ofBool fl _ _ rfl)
  · by_cases h2 : l.isCReal = true ∧ r.isCReal = true
    · have hc := isCReal_noBoth h2.1 h2.2 h1 fl fr
      have hm := (mixed_iff l r).2 h2
      have h3 : (l.isCReal && r.isCReal) = true := by simp [h2]
      cases k <;> simp [isCmp] at hk
      · simp only [simp2]
        rw [if_neg h1, if_pos hm]
        rw [toReal_exact hc h2.1 (ρ := ρ), toReal_exact hc h2.2 (ρ := ρ)]
        exact right_ofBool fl _ _ rfl
      all_goals
        simp only [simp2]
        first | rw [if_neg h1, if_pos hm] | rw [if_neg h1, if_pos h3]
        split
        · rw [toReal_exact hc h2.1 (ρ := ρ), toReal_exact hc h2.2 (ρ := ρ)]
          exact right_ofBool fl _ _ rfl
        · exact .inl rfl
    · have hm : ¬ ((l.isCReal && r.isCReal) || (l.isCInt && r.isCReal) ||
          (l.isCReal && r.isCInt)) = true := fun h => h2 ((mixed_iff l r).1 h)
      have h3 : ¬ (l.isCReal && r.isCReal) = true := by simpa using h2
      cases k <;> simp [isCmp] at hk <;> simp only [simp2] <;>
        first
          | (rw [if_neg h1, if_neg hm]; exact .inl rfl)
          | (rw [if_neg h1, if_neg h3]; exact .inl rfl)

theorem isCBV_cases {t : Term} (h : t.isCBV = true) : ∃ w x, t = .clit (.bv w) x := by
  unfold isCBV at h; split at h
  · exact ⟨_, _, rfl⟩
  · cases h
theorem isCStr_cases {t : Term} (h : t.isCStr = true) : ∃ x, t = .clit .str x := by
  unfold isCStr at h; split at h
  · exact ⟨_, rfl⟩
  · cases h

theorem val_bv (ρ : Env) (w : Nat) (x : String) :
    eval ρ (.clit (.bv w) x) = some (.u (.bv w) x) := by
  simp [eval, guardSort, Val.hasSort, Srt.isNum]
theorem val_str (ρ : Env) (x : String) :
    eval ρ (.clit .str x) = some (.u .str x) := by
  simp [eval, guardSort, Val.hasSort, Srt.isNum]

/-- literal pairs: the fold of `=` is the truth value of the equation -/
theorem simp2_eqfold (c : Cfg) (ρ : Env) (l r : Term) (fl : Fit c l) (fr : Fit c r)
    (hs : (val ρ l).sameSort (val ρ r) = true) :
    simp2 c .eq l r = .unknown ∨ simp2 c .eq l r = ofBool (decide (val ρ l = val ρ r)) := by
  simp only [simp2]
  split
  · rename_i h1
    simp only [Bool.and_eq_true] at h1
    obtain ⟨i, rfl⟩ := (isCInt_iff l).1 h1.1
    obtain ⟨j, rfl⟩ := (isCInt_iff r).1 h1.2
    right; congr 1
    simp only [intVal, val_of_IsN (IsN_cint ρ _), nval_cint, Val.n.injEq, Rat.intCast_inj]
    exact Bool.beq_eq_decide_eq i j
  · split
    · rename_i h1 h2
      have h2 := (mixed_iff l r).1 h2
      have hc := isCReal_noBoth h2.1 h2.2 h1 fl fr
      right; congr 1
      rw [toReal_exact hc h2.1 (ρ := ρ), toReal_exact hc h2.2 (ρ := ρ),
        val_of_IsN (isCReal_IsN h2.1), val_of_IsN (isCReal_IsN h2.2)]
      simp only [Val.n.injEq]; exact Bool.beq_eq_decide_eq _ _
    · split
      · rename_i h
        simp only [Bool.and_eq_true] at h
        obtain ⟨w, x, rfl⟩ := isCBV_cases h.1
        obtain ⟨w', y, rfl⟩ := isCBV_cases h.2
        right; congr 1
        simp only [val, val_bv, Option.getD_some, Val.sameSort, beq_iff_eq] at hs ⊢
        simp only [Srt.bv.injEq] at hs; subst hs
        simp [text]
        exact Bool.beq_eq_decide_eq _ _
      · split
        · rename_i h
          simp only [Bool.and_eq_true] at h
          obtain ⟨x, rfl⟩ := isCStr_cases h.1
          obtain ⟨y, rfl⟩ := isCStr_cases h.2
          right; congr 1
          simp only [val, val_str, Option.getD_some, text]
          simp; exact Bool.beq_eq_decide_eq _ _
        · exact .inl rfl

theorem simp2_distinct_eq (c : Cfg) (l r : Term) :
    simp2 c .distinct l r = if simp2 c .eq l r = .unknown then .unknown
      else ofBool (!(simp2 c .eq l r).isTrue) := by
  have hob : ∀ x, (ofBool x).isTrue = x := by intro x; cases x <;> rfl
  have hne : ∀ x, (ofBool x = .unknown) = False := by intro x; simp [ofBool_ne]
  have hcr : (l.isCReal && r.isCReal) = ((l.isCReal && r.isCReal) || (l.isCInt && r.isCReal) ||
    (l.isCReal && r.isCInt)) := by
    rw [Bool.eq_iff_iff, mixed_iff]; simp
  by_cases h1 : (l.isCInt && r.isCInt) = true
  · simp [simp2, h1, hob, hne]
  · by_cases h2 : (l.isCReal && r.isCReal) = true
    · have h2' := hcr ▸ h2
      have e1 : simp2 c .eq l r = ofBool (toReal c l == toReal c r) := by
        simp only [simp2]; rw [if_neg h1, if_pos h2']
      have e2 : simp2 c .distinct l r = ofBool (!(toReal c l == toReal c r)) := by
        simp only [simp2]; rw [if_neg h1, if_pos h2]
      rw [e1, e2]; simp [hob, hne]
    · have h2' : ¬ _ = true := hcr ▸ h2
      by_cases h3 : (l.isCBV && r.isCBV) = true
      · have e1 : simp2 c .eq l r = ofBool (l.text == r.text) := by
          simp only [simp2]; rw [if_neg h1, if_neg h2', if_pos h3]
        have e2 : simp2 c .distinct l r = ofBool (!(l.text == r.text)) := by
          simp only [simp2]; rw [if_neg h1, if_neg h2, if_pos h3]
        rw [e1, e2]; simp [hob, hne]
      · by_cases h4 : (l.isCStr && r.isCStr) = true
        · have e1 : simp2 c .eq l r = ofBool (l.text == r.text) := by
            simp only [simp2]; rw [if_neg h1, if_neg h2', if_neg h3, if_pos h4]
          have e2 : simp2 c .distinct l r = ofBool (!(l.text == r.text)) := by
            simp only [simp2]; rw [if_neg h1, if_neg h2, if_neg h3, if_pos h4]
          rw [e1, e2]; simp [hob, hne]
        · have e1 : simp2 c .eq l r = .unknown := by
            simp only [simp2]; rw [if_neg h1, if_neg h2', if_neg h3, if_neg h4]
          have e2 : simp2 c .distinct l r = .unknown := by
            simp only [simp2]; rw [if_neg h1, if_neg h2, if_neg h3, if_neg h4]
          rw [e1, e2]; simp

theorem simp2_distfold (c : Cfg) (ρ : Env) (l r : Term) (fl : Fit c l) (fr : Fit c r)
    (hs : (val ρ l).sameSort (val ρ r) = true) :
    simp2 c .distinct l r = .unknown ∨
      simp2 c .distinct l r = ofBool (decide (val ρ l ≠ val ρ r)) := by
  rw [simp2_distinct_eq]
  rcases simp2_eqfold c ρ l r fl fr hs with h | h
  · simp [h]
  · right
    rw [h, if_neg (ofBool_ne _)]
    congr 1
    cases h3 : decide (val ρ l = val ρ r) <;> simp_all [ofBool, Term.isTrue]

theorem isTrue_iff (t : Term) : t.isTrue = true ↔ t = .tt := by cases t <;> simp [Term.isTrue]
theorem isFalse_iff (t : Term) : t.isFalse = true ↔ t = .ff := by cases t <;> simp [Term.isFalse]
theorem isUnknown_iff (t : Term) : t.isUnknown = true ↔ t = .unknown := by
  cases t <;> simp [isUnknown]
theorem isErr_iff (t : Term) : t.isErr = true ↔ t = .err := by cases t <;> simp [isErr]

theorem bval_tt (ρ : Env) : bval ρ .tt = true := rfl
theorem bval_ff (ρ : Env) : bval ρ .ff = false := rfl

theorem rat_zero_sub (q : Rat) : 0 - q = -q := by grind
theorem rat_sub_zero (q : Rat) : q - 0 = q := by grind
attribute [local simp] Rat.add_zero Rat.zero_add Rat.mul_one Rat.one_mul rat_zero_sub rat_sub_zero

theorem simp2_sound (c : Cfg) (ρ : Env) (k : Kind) (l r : Term) (s : Srt)
    (v : Val) (fl : Fit c l) (fr : Fit c r) (h : evalApp ρ k [l, r] s = some v) :
    Right c ρ v (simp2 c k l r) := by
  cases k with
  | le => exact simp2_cmp c ρ _ rfl l r s v fl fr h
  | lt => exact simp2_cmp c ρ _ rfl l r s v fl fr h
  | ge => exact simp2_cmp c ρ _ rfl l r s v fl fr h
  | gt => exact simp2_cmp c ρ _ rfl l r s v fl fr h
  | eq =>
    obtain ⟨_, _, hs, rfl⟩ := (evalApp_eq ρ _ s v).1 h
    rcases simp2_eqfold c ρ l r fl fr (hs l (by simp) r (by simp)) with h | h
    · exact .inl h
    · rw [h]; refine right_ofBool fl _ _ ?_
      simp only [List.mem_cons, List.not_mem_nil, or_false, forall_eq_or_imp, forall_eq]
      rw [Bool.eq_iff_iff]; simp; intro h; simp [h]
  | distinct =>
    obtain ⟨_, _, hs, rfl⟩ := (evalApp_distinct ρ _ s v).1 h
    rcases simp2_distfold c ρ l r fl fr (hs l (by simp) r (by simp)) with h | h
    · exact .inl h
    · rw [h]; refine right_ofBool fl _ _ ?_
      simp
  | and =>
    obtain ⟨hb, rfl⟩ := (evalApp_and ρ _ s v).1 h
    simp only [simp2, Bool.or_eq_true, Bool.and_eq_true, isTrue_iff, isFalse_iff]
    split
    · rename_i h
      refine .inr ⟨?_, fl.of_noReal trivial⟩
      rcases h with rfl | rfl <;> simp [eval, bval_ff]
    · split
      · rename_i h
        refine .inr ⟨?_, fl.of_noReal trivial⟩
        rcases h with ⟨rfl, rfl⟩; simp [eval, bval_tt]
      · exact .inl rfl
  | or =>
    obtain ⟨hb, rfl⟩ := (evalApp_or ρ _ s v).1 h
    simp only [simp2, Bool.or_eq_true, Bool.and_eq_true, isTrue_iff, isFalse_iff]
    split
    · rename_i h
      refine .inr ⟨?_, fl.of_noReal trivial⟩
      rcases h with rfl | rfl <;> simp [eval, bval_tt]
    · split
      · rename_i h
        refine .inr ⟨?_, fl.of_noReal trivial⟩
        rcases h with ⟨rfl, rfl⟩; simp [eval, bval_ff]
      · exact .inl rfl
  | implies =>
    obtain ⟨_, hb, rfl⟩ := (evalApp_implies ρ _ s v).1 h
    simp only [simp2, Bool.or_eq_true, Bool.and_eq_true, isTrue_iff, isFalse_iff]
    split
    · rename_i h
      refine .inr ⟨?_, fl.of_noReal trivial⟩
      rcases h with ⟨rfl, rfl⟩; simp [eval, bval_tt, bval_ff, impChain]
    · split
      · rename_i h
        refine .inr ⟨?_, fl.of_noReal trivial⟩
        rcases h with rfl | rfl <;> simp [eval, bval_ff, bval_tt, impChain]
      · exact .inl rfl
  | xor =>
    obtain ⟨hb, rfl⟩ := (evalApp_xor ρ _ s v).1 h
    simp only [simp2, Bool.and_eq_true, isTrue_iff, isFalse_iff]
    repeat' split
    all_goals first
      | exact .inl rfl
      | (rename_i h
         refine .inr ⟨?_, fl.of_noReal trivial⟩
         rcases h with ⟨rfl, rfl⟩; simp [eval, bval_ff, bval_tt])
  | add =>
    obtain ⟨_, hb, rfl⟩ := (evalApp_add ρ _ s v).1 h
    simp only [simp2]
    split
    · rename_i h1
      simp only [Bool.and_eq_true] at h1
      obtain ⟨i, rfl⟩ := (isCInt_iff l).1 h1.1
      obtain ⟨j, rfl⟩ := (isCInt_iff r).1 h1.2
      refine right_cint fl _ _ ?_
      simp [intVal, nval_cint]
    · rename_i h1
      split
      · rename_i h2
        simp only [Bool.and_eq_true] at h2
        have hc := isCReal_noBoth h2.1 h2.2 h1 fl fr
        refine right_real hc _ _ ?_
        rw [hc, toReal_exact hc h2.1 (ρ := ρ), toReal_exact hc h2.2 (ρ := ρ)]
        simp
      · exact .inl rfl
  | mul =>
    obtain ⟨_, hb, rfl⟩ := (evalApp_mul ρ _ s v).1 h
    simp only [simp2]
    split
    · rename_i h1
      simp only [Bool.and_eq_true] at h1
      obtain ⟨i, rfl⟩ := (isCInt_iff l).1 h1.1
      obtain ⟨j, rfl⟩ := (isCInt_iff r).1 h1.2
      refine right_cint fl _ _ ?_
      simp [intVal, nval_cint, ratProd, Rat.mul_one]
    · rename_i h1
      split
      · rename_i h2
        simp only [Bool.and_eq_true] at h2
        have hc := isCReal_noBoth h2.1 h2.2 h1 fl fr
        refine right_real hc _ _ ?_
        rw [hc, toReal_exact hc h2.1 (ρ := ρ), toReal_exact hc h2.2 (ρ := ρ)]
        simp [ratProd, Rat.mul_one]
      · exact .inl rfl
  | sub =>
    obtain ⟨_, hb, rfl⟩ := (evalApp_sub ρ _ s v).1 h
    simp only [simp2]
    split
    · rename_i h1
      simp only [Bool.and_eq_true] at h1
      obtain ⟨i, rfl⟩ := (isCInt_iff l).1 h1.1
      obtain ⟨j, rfl⟩ := (isCInt_iff r).1 h1.2
      refine right_cint fl _ _ ?_
      simp [intVal, nval_cint, ratSub]
    · rename_i h1
      split
      · rename_i h2
        simp only [Bool.and_eq_true] at h2
        have hc := isCReal_noBoth h2.1 h2.2 h1 fl fr
        refine right_real hc _ _ ?_
        rw [hc, toReal_exact hc h2.1 (ρ := ρ), toReal_exact hc h2.2 (ρ := ρ)]
        simp [ratSub]
      · split
        · rename_i h3
          have := isZero_iff (ρ := ρ) fl h3
          right
          have h4 := mkNeg_right fr (hb r (by simp))
          simp [ratSub, this.2, h4]
        · split
          · rename_i h3
            have := isZero_iff (ρ := ρ) fr h3
            right
            simp [ratSub, this.2, (hb l (by simp)).eval, fl]
          · exact .inl rfl
  | _ => exact .inl rfl

end SMT
