import Verif.Typing.Complete

/-! # What the constructors accept is well-sorted, for the strict ones; what the others get wrong (C55) -/

set_option linter.unusedSimpArgs false
set_option linter.unusedVariables false

namespace SMT.Typing
open SMT SMT.Kinds SMT.Sorts

/-- the operators whose tests are those of SMT-LIB -/
def strict : K → Bool
  | .NOT | .MOD | .GCD | .LCM | .TO_REAL | .TO_INT | .IS_INT | .IS_DIVISIBLE | .IS_PRIME | .IS_EVEN | .IS_ODD | .FACT
  | .STR_LEN | .STR_TO_INT | .STR_TO_CODE | .STR_TO_LOWER | .STR_TO_UPPER | .STR_REV | .STR_IS_DIGIT | .STR_FROM_INT | .STR_FROM_CODE
  | .STR_TO_REG | .STR_PREFIXOF | .STR_SUFFIXOF | .STR_CONTAINS | .STR_LT | .STR_LE | .STR_GT | .STR_GE | .STR_CHARAT | .STR_SUBSTR
  | .STR_INDEXOF | .STR_UPDATE | .STR_REPLACE | .STR_REPLACE_ALL | .STR_REPLACE_REG | .STR_REPLACE_REG_ALL | .STR_INDEXOF_REG
  | .STR_NUM_SPLITS_RE | .STR_SPLIT | .STR_SPLIT_AT | .STR_SPLIT_REST | .STR_NUM_SPLITS | .STR_SPLIT_AT_RE | .STR_SPLIT_REST_RE
  | .STR_IN_REG | .REG_DIFF | .REG_STAR | .REG_PLUS | .REG_OPT | .REG_COMPLEMENT | .REG_RANGE => true
  | _ => false

theorem back_int {a g} (h : RepA true a g) (ht : isInt a = true) : RepA true a (.t .int) := by
  have hk : a.srt.kind = .INT ∨ a.srt.kind = .INTOREAL := by simpa [isInt] using ht
  cases h with
  | n h1 h2 h3 h4 h5 h6 =>
    exact .t (by rw [h1]; exact .numeral) (by simp [h5, h6]) (fun _ => .inl rfl)
  | t h1 h2 h3 =>
    generalize hs : a.srt = s at *
    refine .t ?_ ?_ (fun _ => .inl rfl)
    · rw [hs]
      cases h1 <;> simp_all [Srt.kind, BOOL_SORT, INT_SORT, INTOREAL_SORT, REAL_SORT, STR_SORT, REG_SORT, ROUNDING_MODE_SORT, bvSort, fpSort,
        arraySort, decSort]
      · exact .int
      · exact .numeral
      · exact .numeral
    · intro e
      have := h2 e
      subst this
      cases h1
      simp [Srt.kind, BOOL_SORT] at hk

theorem back_real {a g} (h : RepA true a g) (ht : isReal a = true) : RepA true a (.t .real) := by
  have hk : a.srt.kind = .REAL ∨ a.srt.kind = .INTOREAL := by simpa [isReal] using ht
  cases h with
  | n h1 h2 h3 h4 h5 h6 =>
    exact .t (by rw [h1]; exact .numeralReal rfl) (by simp [h5, h6]) (fun _ => .inr rfl)
  | t h1 h2 h3 =>
    generalize hs : a.srt = s at *
    refine .t ?_ ?_ (fun _ => .inr rfl)
    · rw [hs]
      cases h1 <;> simp_all [Srt.kind, BOOL_SORT, INT_SORT, INTOREAL_SORT, REAL_SORT, STR_SORT, REG_SORT, ROUNDING_MODE_SORT, bvSort, fpSort,
        arraySort, decSort]
      · exact .numeralReal rfl
      · exact .numeralReal rfl
      · exact .real
    · intro e
      have := h2 e
      subst this
      cases h1
      simp [Srt.kind, BOOL_SORT] at hk

theorem back_kind {a g k ty} (h : RepA true a g) (hk : a.srt.kind = k)
    (hty : ∀ ty', Rep true a.srt ty' → ty' = ty) (hn : k ≠ .INTOREAL) : RepA true a (.t ty) := by
  cases h with
  | n h1 h2 h3 h4 h5 h6 => rw [h1] at hk; exact absurd hk.symm hn
  | t h1 h2 h3 =>
    obtain rfl := hty _ h1
    exact .t h1 h2 h3

theorem back_str {a g} (h : RepA true a g) (ht : isStr a = true) : RepA true a (.t .str) := by
  have hk : a.srt.kind = .STR := by simpa [isStr] using ht
  refine back_kind h hk (fun ty' h' => ?_) (by decide)
  generalize a.srt = s at *
  cases h' <;> simp_all [Srt.kind, BOOL_SORT, INT_SORT, INTOREAL_SORT, REAL_SORT, STR_SORT, REG_SORT, ROUNDING_MODE_SORT, bvSort, fpSort,
        arraySort, decSort]

theorem back_reg {a g} (h : RepA true a g) (ht : isReg a = true) : RepA true a (.t .re) := by
  have hk : a.srt.kind = .REG := by simpa [isReg] using ht
  refine back_kind h hk (fun ty' h' => ?_) (by decide)
  generalize a.srt = s at *
  cases h' <;> simp_all [Srt.kind, BOOL_SORT, INT_SORT, INTOREAL_SORT, REAL_SORT, STR_SORT, REG_SORT, ROUNDING_MODE_SORT, bvSort, fpSort,
        arraySort, decSort]

theorem back_bool {a g} (h : RepA true a g) (ht : isBool a = true) : RepA true a (.t .bool) := by
  have hk : a.srt.kind = .BOOL := by simpa [isBool] using ht
  refine back_kind h hk (fun ty' h' => ?_) (by decide)
  generalize a.srt = s at *
  cases h' <;> simp_all [Srt.kind, BOOL_SORT, INT_SORT, INTOREAL_SORT, REAL_SORT, STR_SORT, REG_SORT, ROUNDING_MODE_SORT, bvSort, fpSort,
        arraySort, decSort]

theorem req_ok {b : Bool} {s s' : Srt} (h : req b s = .ok s') : b = true ∧ s = s' := by
  unfold req at h
  split at h
  · exact ⟨by assumption, by simpa using h⟩
  · cases h

/-- the operand list of an overload -/
theorem typ_one {L k as s} (h : typ L k as = .ok s) (hn : chkN L k as = none) :
    (∃ a, as = [a] ∧ chk1 k a = .ok s) ∨ (∃ a b, as = [a, b] ∧ chk2 k a b = .ok s) ∨
    (∃ a b c, as = [a, b, c] ∧ chk3 k a b c = .ok s) ∨ ∃ a b c d, as = [a, b, c, d] ∧ chk4 k a b c d = .ok s := by
  unfold typ at h
  rw [hn] at h
  simp only at h
  split at h
  · exact .inl ⟨_, rfl, h⟩
  · exact .inr (.inl ⟨_, _, rfl, h⟩)
  · exact .inr (.inr (.inl ⟨_, _, _, rfl, h⟩))
  · exact .inr (.inr (.inr ⟨_, _, _, _, rfl, h⟩))
  · cases h

macro "back" h:term:max t:term:max : tactic =>
  `(tactic| first | exact back_int $h $t | exact back_real $h $t | exact back_str $h $t | exact back_reg $h $t | exact back_bool $h $t)

/-- **C55, the other direction.**  What a strict constructor accepts is well-sorted, and the node has the sort of SMT-LIB.  (The operands
have some sorts; a numeral may be an integer or a real.) -/
theorem rejects_illsorted_partial {L k as s gs0} (hk : strict k = true) (h0 : RepL true as gs0) (he : typ L k as = .ok s) :
    ∃ gs t, RepL true as gs ∧ HasSort k gs t ∧ Rep true s t := by
  cases hsig : sig k with
  | none => exfalso; revert hk hsig; cases k <;> simp [strict, sig]
  | some p =>
    obtain ⟨ts, t⟩ := p
    suffices h : RepL true as (ts.map .t) ∧ Rep true s t from ⟨_, _, h.1, .one hsig, h.2⟩
    by_cases hd : k = .REG_DIFF
    · subst hd
      simp only [sig, Option.some.injEq, Prod.mk.injEq] at hsig
      obtain ⟨rfl, rfl⟩ := hsig
      simp only [typ, chkN] at he
      split at he
      · obtain ⟨hb, rfl⟩ := req_ok he
        simp only [Bool.and_eq_true] at hb
        cases h0 with
        | cons h1 h2 =>
          cases h2 with
          | cons h2 h3 =>
            cases h3
            exact ⟨.cons (back_reg h1 hb.1) (.cons (back_reg h2 hb.2) .nil), .re⟩
      · cases he
    have hn : chkN L k as = none := by revert hk hd; cases k <;> simp [strict, chkN]
    rcases typ_one he hn with ⟨a, rfl, h⟩ | ⟨a, b, rfl, h⟩ | ⟨a, b, c, rfl, h⟩ | ⟨a, b, c, d, rfl, h⟩
    · cases h0 with
      | cons h1 h2 =>
        cases h2
        cases k <;> simp only [strict, Bool.false_eq_true] at hk <;>
          simp only [sig, Option.some.injEq, Prod.mk.injEq, reduceCtorEq] at hsig <;> obtain ⟨rfl, rfl⟩ := hsig <;>
          simp only [chk1, reduceCtorEq] at h <;>
          (obtain ⟨hb, rfl⟩ := req_ok h
           refine ⟨.cons ?_ .nil, by constructor⟩
           back h1 hb)
    · cases h0 with
      | cons h1 h2 =>
      cases h2 with
      | cons h2 h3 =>
        cases h3
        cases k <;> simp only [strict, Bool.false_eq_true] at hk <;>
          simp only [sig, Option.some.injEq, Prod.mk.injEq, reduceCtorEq] at hsig <;> obtain ⟨rfl, rfl⟩ := hsig <;>
          simp only [chk2, reduceCtorEq] at h <;>
          (obtain ⟨hb, rfl⟩ := req_ok h
           simp only [Bool.and_eq_true] at hb
           refine ⟨.cons ?_ (.cons ?_ .nil), by first | exact .arr .int .str | constructor⟩
           · back h1 hb.1
           · back h2 hb.2)
    · cases h0 with
      | cons h1 h2 =>
      cases h2 with
      | cons h2 h3 =>
      cases h3 with
      | cons h3 h4 =>
        cases h4
        cases k <;> simp only [strict, Bool.false_eq_true] at hk <;>
          simp only [sig, Option.some.injEq, Prod.mk.injEq, reduceCtorEq] at hsig <;> obtain ⟨rfl, rfl⟩ := hsig <;>
          simp only [chk3, reduceCtorEq] at h <;>
          (obtain ⟨hb, rfl⟩ := req_ok h
           simp only [Bool.and_eq_true] at hb
           have hs := (repA_t (back_str h1 hb.1.1)).1
           refine ⟨.cons ?_ (.cons ?_ (.cons ?_ .nil)), by first | exact hs | constructor⟩
           · back h1 hb.1.1
           · back h2 hb.1.2
           · back h3 hb.2)
    · exfalso
      revert h hk
      cases k <;> simp [strict, chk4]

end SMT.Typing
