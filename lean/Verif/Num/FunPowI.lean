import Verif.Num.FunPow
import Verif.Num.FunAtan2Props
import Verif.Num.FunRecip

/-!
# Powers of an interval by a number and by an interval (`src/interval.cpp:1841-2088`)

The dispatch of `pow(Number)` to the cases modelled in `Verif.Num.Model` (`powI`) and `Verif.Num.FunModel`
(`powNegI`, `powFracI`), its infinite exponents, and `pow(Interval)`.
Simplifications: zeros have no sign; an integer exponent too large for an `unsigned long` is treated as one that fits.
-/

set_option linter.unusedVariables false
set_option linter.unusedSimpArgs false

noncomputable section
namespace SMT.Num
open Number Interval

variable {F : Fmt} (L : Lib F)

/-! ## Model -/

/-- `mpfr_pow` (`src/number.cpp:288-293`) off the exponent 0 and the base 1 -/
def XR.powTab : XR → XR → XR
    | .nan, _ => .nan
    | _, .nan => .nan
    | .fin a, .fin e =>
      if 0 < a then .fin (L.rr ((a : ℝ) ^ (e : ℝ)))
      else if a = 0 then (if 0 < e then .fin 0 else .pinf)
      else if e.den = 1 then .fin (L.rr ((a : ℝ) ^ e.num))
      else .nan
    | .fin a, .pinf => if |a| < 1 then .fin 0 else if |a| = 1 then .fin 1 else .pinf
    | .fin a, .ninf => if |a| < 1 then .pinf else if |a| = 1 then .fin 1 else .fin 0
    | .pinf, .fin e => if 0 < e then .pinf else .fin 0
    | .pinf, .pinf => .pinf
    | .pinf, .ninf => .fin 0
    | .ninf, .fin e => if 0 < e then (if e.den = 1 ∧ e.num % 2 ≠ 0 then .ninf else .pinf) else .fin 0
    | .ninf, .pinf => .pinf
    | .ninf, .ninf => .fin 0

/-- `mpfr_pow` (`src/number.cpp:288-293`), with the special values of the C standard. -/
def XR.pow (b e : XR) : XR :=
  if e = .fin 0 then .fin 1 else if b = .fin 1 then .fin 1 else XR.powTab L b e

/-- `Number::pow` (`src/number.cpp:1416-1431`). -/
def Number.powNN (a e : Number) : Number :=
  match a, e with
  | .int i, .int k => if 0 ≤ k then .int (i ^ k.toNat) else .real (XR.pow L (toReal F (.int i)) (toReal F (.int k)))
  | a, e => .real (XR.pow L (toReal F a) (toReal F e))

/-- `Number::toInteger` (`src/number.cpp:1120-1126`, `601-608`) of a number that is an integer, as a number -/
def Number.toIntN : Number → Number
  | .int i => .int i
  | .real (.fin q) => .int q.num
  | .real x => .real x

namespace Interval

/-- the non-integer part of `pow(Number)` (`src/interval.cpp:1935-1960`) -/
def powRest (A : Interval) (e : Number) : Res Interval :=
  if Number.gt F A.lo (.int 0) then
    if A.lo.isInf || A.hi.isInf then
      if Number.gt F e (.int 0) then .ok ⟨.real .pinf, .real .pinf, false, false⟩
      else .ok ⟨.int 0, .int 1, false, false⟩
    else .ok ⟨(Number.powNN L A.lo e).nextBelow L, (Number.powNN L A.hi e).nextAbove L, A.lc, A.rc⟩
  else if Number.le F A.lo (.int 0) && Number.ge F e (.int 0) then
    if Number.le F A.hi (.int 0) then .throw
    else .ok ⟨.int 0, (Number.powNN L A.hi e).nextAbove L, true, false⟩
  else .throw

/-- `pow(Number)` (`src/interval.cpp:1841-1962`); `Number(0).nextAbove()` is the integer 1, and an exponent that is an integer but does
not fit an `int` throws (`src/number.cpp:985-990`). -/
def powN (A : Interval) (e : Number) : Res Interval :=
  if isEmpty F A then .ok emptyI
  else if e.isPInf then
    if Number.gt F A.lo (.int 1) then .ok ⟨.real .pinf, .real .pinf, false, false⟩
    else if Number.ge F A.lo (.int 0) && Number.le F A.hi (.int 1) then
      if Number.eq F A.lo (.int 0) && Number.eq F A.hi (.int 1) then .ok ⟨.int 0, .int 1, true, true⟩
      else .ok ⟨.int 0, .int 1, false, false⟩
    else if Number.lt F A.lo (.int 0) then .throw
    else powRest L A e
  else if e.isNInf then
    if Number.gt F A.lo (.int 1) then .ok ⟨.int 0, .int 1, false, false⟩
    else if Number.ge F A.lo (.int 0) && Number.le F A.hi (.int 1) then
      if Number.eq F A.hi (.int 1) then .ok ⟨.int 1, .real .pinf, true, false⟩
      else .ok ⟨.real .pinf, .real .pinf, false, false⟩
    else .throw
  else if e.isInteger then
    match e.toIntN with
    | .int k =>
      if k < -2147483648 ∨ 2147483647 < k then .throw
      else if 0 ≤ k then .ok (powI F A k.toNat)
      else powNegI F A (-k).toNat
    | _ => powRest L A e
  else powRest L A e

/-- one end of the power of a point by an interval (`src/interval.cpp:1984-2023`): the value and whether it is
taken as exact -/
def powEnd (v e : Number) : Number × Bool :=
  if e.isPInf then (.real .pinf, false)
  else if e.isNInf then (.int 0, false)
  else if e.isInteger && v.isInteger then (Number.powNN L v e.toIntN, true)
  else (Number.powNN L v e, false)

/-- the lower end with its widening (`src/interval.cpp:1984-2003`) -/
def powLo (v e : Number) : Number × Bool :=
  if e.isInf || (e.isInteger && v.isInteger) then powEnd L v e else ((powEnd L v e).1.nextBelow L, false)
/-- the upper end with its widening (`src/interval.cpp:2005-2022`) -/
def powHi (v e : Number) : Number × Bool :=
  if e.isInf || (e.isInteger && v.isInteger) then powEnd L v e else ((powEnd L v e).1.nextAbove L, false)

/-- `pow(Interval)` (`src/interval.cpp:1964-2088`).  The removal of NaN corners (`2036-2042`) is not modelled: with a positive base no
corner is NaN. -/
def powII (A B : Interval) : Res Interval :=
  if isEmpty F A || isEmpty F B then .ok emptyI
  else if isPoint F B then powN L A B.lo
  else if isPoint F A then
    let v := A.lo
    if Number.eq F v (.int 0) || Number.eq F v (.int 1) then .ok ⟨v, v, true, true⟩
    else if Number.eq F v (.int 2) then .ok (pow2 L B)
    else
      let l := powLo L v B.lo
      let h := powHi L v B.hi
      .ok ⟨l.1, h.1, l.2, h.2⟩
  else if Number.gt F A.lo (.int 0) then
    .ok (corners F A B (Number.powNN L A.lo B.lo) (Number.powNN L A.lo B.hi) (Number.powNN L A.hi B.lo) (Number.powNN L A.hi B.hi))
  else .throw
end Interval

/-! ## The dispatch reaches the cases modelled before -/

theorem powNN_frac {a : Number} {q e : ℚ} (h : a.Is F q) (hd : e.den ≠ 1) : Number.powNN L a (.real (.fin e)) = powFrac L a e := by
  have e0 : e ≠ 0 := by rintro rfl; exact hd rfl
  have n : Number.powNN L a (.real (.fin e)) = .real (XR.pow L (toReal F a) (.fin e)) := by cases a <;> rfl
  rw [n, is_toReal h]
  unfold powFrac
  rw [is_toReal h]
  unfold XR.pow
  rw [if_neg (by simpa using e0)]
  by_cases h1 : q = 1
  · subst h1
    have := L.rr_rat 1
    rw [r1 L] at this
    have h1 : ¬ ((1 : ℚ) < 0) := by norm_num
    simp only [if_true, h1, one_ne_zero, if_false, XR.rpow, Rat.cast_one, Real.one_rpow] at this ⊢
    rw [this]
  · rw [if_neg (by simpa using h1)]
    unfold XR.powTab
    simp only
    rcases lt_trichotomy q 0 with h | h | h
    · rw [if_neg (not_lt.2 h.le), if_neg h.ne, if_neg hd, if_pos h]
    · subst h; simp
    · rw [if_pos h, if_neg (not_lt.2 h.le), if_neg h.ne']; rfl

/-- C59: `pow(Number)` with a finite exponent is one of the three cases: a nonnegative integer, a negative integer that fits an `int`, or a
number that is not an integer. -/
theorem powN_cases (A : Interval) (hA : A.Ok F) :
    (∀ k : ℤ, 0 ≤ k → k ≤ 2147483647 → powN L A (.int k) = .ok (powI F A k.toNat)) ∧
    (∀ k : ℤ, k < 0 → -2147483648 ≤ k → powN L A (.int k) = powNegI F A (-k).toNat) ∧
    (∀ k : ℤ, isEmpty F A = false → (k < -2147483648 ∨ 2147483647 < k) → powN L A (.int k) = .throw) ∧
    (∀ e : ℚ, e.den ≠ 1 → (∃ a b, A.lo.Is F a ∧ A.hi.Is F b) → powN L A (.real (.fin e)) = powFracI L A e) := by
  refine ⟨?_, ?_, ?_, ?_⟩
  · intro k h0 h1
    unfold powN
    by_cases hE : isEmpty F A = true
    · rw [if_pos hE]; unfold powI; rw [if_pos hE]
    · rw [if_neg hE]
      simp only [Number.isPInf, Number.isNInf, Number.isInteger, Number.toIntN, Bool.false_eq_true, if_false, if_true]
      rw [if_neg (by omega), if_pos h0]
  · intro k h0 h1
    unfold powN
    by_cases hE : isEmpty F A = true
    · rw [if_pos hE]; unfold powNegI; rw [if_pos hE]
    · rw [if_neg hE]
      simp only [Number.isPInf, Number.isNInf, Number.isInteger, Number.toIntN, Bool.false_eq_true, if_false, if_true]
      rw [if_neg (by omega), if_neg (by omega)]
  · intro k hE hk
    unfold powN
    rw [hE]
    simp only [Number.isPInf, Number.isNInf, Number.isInteger, Number.toIntN, Bool.false_eq_true, if_false, if_true]
    rw [if_pos hk]
  · rintro e hd ⟨a, b, ha, hb⟩
    unfold powN powFracI
    by_cases hE : isEmpty F A = true
    · rw [if_pos hE, if_pos hE]
    · rw [if_neg hE, if_neg hE]
      simp only [Number.isPInf, Number.isNInf, Number.isInteger, Bool.false_eq_true, if_false, decide_eq_true_eq, hd]
      unfold powRest
      rw [powNN_frac L ha hd, powNN_frac L hb hd]
      have g : Number.gt F (.real (.fin e)) (.int 0) = decide (0 < e) := by
        have := gt_small L (is_real F e) (i := 0) (by decide)
        rw [Bool.eq_iff_iff, this]; simp
      have g2 : Number.ge F (.real (.fin e)) (.int 0) = decide (0 ≤ e) := by
        have := ge_small L (is_real F e) (i := 0) (by decide)
        rw [Bool.eq_iff_iff, this]; simp
      rw [g, g2]
      simp only [decide_eq_true_eq]

/-! ## Powers of a point by an interval -/

/-- the end of the exponent is treated soundly: the power is an exact integer, or it is widened -/
def SoundEnd (v e : Number) : Prop :=
  (∃ i k : ℤ, v = .int i ∧ 0 ≤ k ∧ e.w = fin k) ∨ (e.isInteger && v.isInteger) = false

theorem powNN_pos {v e : Number} {q r : ℚ} (hv : v.Is F q) (he : e.Is F r) (q0 : 0 < q) :
    Number.powNN L v e = .real (.fin (L.rr ((q : ℝ) ^ (r : ℝ)))) ∨
    ∃ i k : ℤ, v = .int i ∧ e = .int k ∧ 0 ≤ k ∧ Number.powNN L v e = .int (i ^ k.toNat) := by
  have main : XR.pow L (.fin q) (.fin r) = .fin (L.rr ((q : ℝ) ^ (r : ℝ))) := by
    unfold XR.pow
    have one : L.rr 1 = 1 := by have := L.rr_rat 1; rw [r1 L] at this; simpa using this
    by_cases r0 : r = 0
    · subst r0; simp [one]
    · rw [if_neg (by simpa using r0)]
      by_cases q1 : q = 1
      · subst q1; simp [one]
      · rw [if_neg (by simpa using q1)]
        unfold XR.powTab
        simp only [q0, if_true]
  rcases v with i | x
  · rcases e with k | y
    · unfold Number.powNN
      by_cases h : 0 ≤ k
      · right; exact ⟨i, k, rfl, rfl, h, by simp only [h, if_true]⟩
      · left
        simp only [h, if_false]
        rw [is_toReal hv, is_toReal he, main]
    · left
      show Number.real (XR.pow L (toReal F (.int i)) (toReal F (.real y))) = _
      rw [is_toReal hv, is_toReal he, main]
  · left
    have : Number.powNN L (.real x) e = .real (XR.pow L (toReal F (.real x)) (toReal F e)) := by cases e <;> rfl
    rw [this, is_toReal hv, is_toReal he, main]

theorem int_pow_real (i k : ℤ) (h : 0 ≤ k) : (((i ^ k.toNat : ℤ)) : ℝ) = (i : ℝ) ^ (k : ℝ) := by
  obtain ⟨n, rfl⟩ := Int.eq_ofNat_of_zero_le h
  simp

theorem toIntN_eq {e : Number} {k : ℤ} (he : e.w = fin k) (h : e.Ok F) : e.toIntN = .int k := by
  rcases e with j | (_ | _ | q | _)
  · have : (j : ℚ) = k := by simpa [Number.w, fin] using he
    simp only [Number.toIntN, Int.cast_inj] at *
    rw [show j = k by exact_mod_cast this]
  · exact (show False from h).elim
  · exact absurd he (by simp [Number.w, fin])
  · have : q = k := by simpa [Number.w, fin] using he
    subst this
    simp [Number.toIntN]
  · exact absurd he (by simp [Number.w, fin])

theorem isInteger_of_w {e : Number} {k : ℤ} (he : e.w = fin k) (h : e.Ok F) : e.isInteger = true := by
  rcases e with j | (_ | _ | q | _)
  · rfl
  · exact (show False from h).elim
  · exact absurd he (by simp [Number.w, fin])
  · have : q = k := by simpa [Number.w, fin] using he
    subst this
    simp [Number.isInteger]
  · exact absurd he (by simp [Number.w, fin])

theorem powLo_ok {v e : Number} {q r : ℚ} (hv : v.Is F q) (he : e.Is F r) (q0 : 0 < q) (hs : SoundEnd v e) {z : ℝ}
    (hz : (q : ℝ) ^ (r : ℝ) ≤ z) : (powLo L v e).1.LoB (powLo L v e).2 z := by
  unfold powLo
  rw [isInf_is he, Bool.false_or]
  rcases hs with ⟨i, k, rfl, k0, ek⟩ | hs
  · have ii := isInteger_of_w ek he.2
    have iv : (Number.int i).isInteger = true := rfl
    rw [if_pos (by rw [ii, iv]; rfl)]
    unfold powEnd
    rw [isPInf_is he, isNInf_is he, ii, iv, toIntN_eq ek he.2]
    simp only [Bool.false_eq_true, if_false, Bool.and_self, if_true]
    have e1 : Number.powNN L (.int i) (.int k) = .int (i ^ k.toNat) := by simp [Number.powNN, k0]
    rw [e1]
    have q1 : (i : ℚ) = q := by have := hv.1; simpa [Number.w, fin] using this
    have r1 : (k : ℚ) = r := by rw [he.1] at ek; simpa [fin] using ek.symm
    simp only [LoB, if_true]
    rw [int_pow_real i k k0]
    rw [← q1, ← r1] at hz
    simpa using hz
  · rw [if_neg (by rw [hs]; simp)]
    simp only
    unfold powEnd
    rw [isPInf_is he, isNInf_is he, hs]
    simp only [Bool.false_eq_true, if_false]
    rcases powNN_pos L hv he q0 with h | ⟨i, k, rfl, rfl, _, _⟩
    · rw [h]; exact below_rr L hz
    · exact absurd hs (by simp [Number.isInteger])

theorem powHi_ok {v e : Number} {q r : ℚ} (hv : v.Is F q) (he : e.Is F r) (q0 : 0 < q) (hs : SoundEnd v e) {z : ℝ}
    (hz : z ≤ (q : ℝ) ^ (r : ℝ)) : (powHi L v e).1.HiB (powHi L v e).2 z := by
  unfold powHi
  rw [isInf_is he, Bool.false_or]
  rcases hs with ⟨i, k, rfl, k0, ek⟩ | hs
  · have ii := isInteger_of_w ek he.2
    have iv : (Number.int i).isInteger = true := rfl
    rw [if_pos (by rw [ii, iv]; rfl)]
    unfold powEnd
    rw [isPInf_is he, isNInf_is he, ii, iv, toIntN_eq ek he.2]
    simp only [Bool.false_eq_true, if_false, Bool.and_self, if_true]
    have e1 : Number.powNN L (.int i) (.int k) = .int (i ^ k.toNat) := by simp [Number.powNN, k0]
    rw [e1]
    have q1 : (i : ℚ) = q := by have := hv.1; simpa [Number.w, fin] using this
    have r1 : (k : ℚ) = r := by rw [he.1] at ek; simpa [fin] using ek.symm
    simp only [HiB, if_true]
    rw [int_pow_real i k k0]
    rw [← q1, ← r1] at hz
    simpa using hz
  · rw [if_neg (by rw [hs]; simp)]
    simp only
    unfold powEnd
    rw [isPInf_is he, isNInf_is he, hs]
    simp only [Bool.false_eq_true, if_false]
    rcases powNN_pos L hv he q0 with h | ⟨i, k, rfl, rfl, _, _⟩
    · rw [h]; exact above_rr L hz
    · exact absurd hs (by simp [Number.isInteger])

theorem one_is' : (Number.int 1).Is F 1 ↔ F.r 1 = 1 := by
  constructor
  · intro h; have := h.2; simpa [Number.Ok] using this
  · intro h; exact ⟨by simp [Number.w], by simpa [Number.Ok] using h⟩

/-- C59, a point greater than 1 (other than 2, see `pow2_encloses_partial`) to the power of an interval: the result holds the power by every
exponent.  A finite end is needed to be a nonnegative integer with an integer base, or not an integer with an integer base (otherwise the
rounded power is taken as exact, `powII_violated`); infinite ends are allowed. -/
theorem powII_point_partial (v : Number) (q : ℚ) (hv : v.Is F q) (q1 : 1 < q) (q2 : q ≠ 2) (B : Interval) (hB : B.Ok F)
    (hnp : isPoint F B = false) (sl : B.lo ≠ .real .ninf → SoundEnd v B.lo) (sh : B.hi ≠ .real .pinf → SoundEnd v B.hi)
    (x : ℝ) (hx : B.RMem x) :
    ∃ R, powII L ⟨v, v, true, true⟩ B = .ok R ∧ R.RMem ((q : ℝ) ^ x) := by
  have q1' : (1 : ℝ) < q := by exact_mod_cast q1
  have q0 : 0 < q := by linarith
  have q0' : (0 : ℝ) < q := by linarith
  have hA : (⟨v, v, true, true⟩ : Interval).Ok F := ⟨hv.2, hv.2⟩
  have hy : (⟨v, v, true, true⟩ : Interval).RMem (q : ℝ) := ⟨lob_of_le hv (le_refl _), hib_of_le hv (le_refl _)⟩
  have ne : ∀ k : ℤ, |k| ≤ 10 → q ≠ k → Number.eq F v (.int k) = false := by
    intro k hk hne
    rw [← Bool.not_eq_true, eq_iff hv.2 (show (Number.int k).Ok F from L.small k hk), hv.1]
    simpa [Number.w, fin] using hne
  unfold powII
  rw [not_empty_of_rmem hA hy, not_empty_of_rmem hB hx, hnp]
  rw [show isPoint F ⟨v, v, true, true⟩ = true by
    show Number.eq F v v = true
    rw [eq_iff hv.2 hv.2]]
  simp only [Bool.or_self, Bool.false_eq_true, if_false, if_true]
  rw [ne 0 (by decide) (by push_cast; linarith), ne 1 (by decide) (by push_cast; linarith), ne 2 (by decide) (by push_cast; exact q2)]
  simp only [Bool.or_self, Bool.false_eq_true, if_false]
  refine ⟨_, rfl, ?_, ?_⟩
  · show (powLo L v B.lo).1.LoB (powLo L v B.lo).2 _
    rcases lo_real hB hx with e | ⟨b, ib, bx⟩
    · rw [e]
      have : powLo L v (.real .ninf) = (.int 0, false) := by simp [powLo, powEnd, Number.isInf, Number.isPInf, Number.isNInf]
      rw [this]
      simpa [LoB] using Real.rpow_pos_of_pos q0' x
    · refine powLo_ok L hv ib q0 (sl ?_) (Real.rpow_le_rpow_of_exponent_le q1'.le bx)
      intro h; rw [h] at ib; exact absurd ib.1 (by simp [Number.w, fin])
  · show (powHi L v B.hi).1.HiB (powHi L v B.hi).2 _
    rcases hi_real hB hx with e | ⟨b, ib, bx⟩
    · rw [e]
      have : powHi L v (.real .pinf) = (.real .pinf, false) := by simp [powHi, powEnd, Number.isInf, Number.isPInf, Number.isNInf]
      rw [this]
      exact trivial
    · refine powHi_ok L hv ib q0 (sh ?_) (Real.rpow_le_rpow_of_exponent_le q1'.le bx)
      intro h; rw [h] at ib
      have := ib.1
      simp only [Number.w] at this
      exact absurd this.symm (WithBot.coe_lt_coe.2 (WithTop.coe_lt_top _)).ne

/-! ## Powers of a positive interval by an interval -/

/-- one of the four corners is below, and one above, every power -/
theorem pow_corners {a b c d y x : ℝ} (ha : 0 < a) (h1 : a ≤ y) (h2 : y ≤ b) (h3 : c ≤ x) (h4 : x ≤ d) :
    (a ^ c ≤ y ^ x ∨ a ^ d ≤ y ^ x ∨ b ^ c ≤ y ^ x ∨ b ^ d ≤ y ^ x) ∧
    (y ^ x ≤ a ^ c ∨ y ^ x ≤ a ^ d ∨ y ^ x ≤ b ^ c ∨ y ^ x ≤ b ^ d) := by
  have hy : 0 < y := by linarith
  have hb : 0 < b := by linarith
  -- in the exponent, the power of `y` is monotone in one direction; in the base, by the sign of the exponent
  have low : ∀ e : ℝ, a ^ e ≤ y ^ e ∨ b ^ e ≤ y ^ e := by
    intro e
    rcases le_or_gt 0 e with h | h
    · left; exact Real.rpow_le_rpow ha.le h1 h
    · right; exact Real.rpow_le_rpow_of_nonpos hy h2 h.le
  have high : ∀ e : ℝ, y ^ e ≤ a ^ e ∨ y ^ e ≤ b ^ e := by
    intro e
    rcases le_or_gt 0 e with h | h
    · right; exact Real.rpow_le_rpow hy.le h2 h
    · left; exact Real.rpow_le_rpow_of_nonpos ha h1 h.le
  rcases le_or_gt 1 y with hy1 | hy1
  · have k1 : y ^ c ≤ y ^ x := Real.rpow_le_rpow_of_exponent_le hy1 h3
    have k2 : y ^ x ≤ y ^ d := Real.rpow_le_rpow_of_exponent_le hy1 h4
    constructor
    · rcases low c with h | h
      · exact .inl (h.trans k1)
      · exact .inr (.inr (.inl (h.trans k1)))
    · rcases high d with h | h
      · exact .inr (.inl (k2.trans h))
      · exact .inr (.inr (.inr (k2.trans h)))
  · have k1 : y ^ d ≤ y ^ x := Real.rpow_le_rpow_of_exponent_ge hy hy1.le h4
    have k2 : y ^ x ≤ y ^ c := Real.rpow_le_rpow_of_exponent_ge hy hy1.le h3
    constructor
    · rcases low d with h | h
      · exact .inr (.inl (h.trans k1))
      · exact .inr (.inr (.inr (h.trans k1)))
    · rcases high c with h | h
      · exact .inl (k2.trans h)
      · exact .inr (.inr (.inl (k2.trans h)))

/-- C59, an interval with positive real ends to the power of an interval: the rounding of every power lies between the ends of the
result. -/
theorem powII_rounded_partial (a b c d : ℚ) (l1 r1 l2 r2 : Bool) (a0 : 0 < a) (y x : ℝ)
    (hy : (⟨.real (.fin a), .real (.fin b), l1, r1⟩ : Interval).RMem y)
    (hx : (⟨.real (.fin c), .real (.fin d), l2, r2⟩ : Interval).RMem x) (hab : a ≠ b) (hcd : c ≠ d) :
    ∃ R, powII L ⟨.real (.fin a), .real (.fin b), l1, r1⟩ ⟨.real (.fin c), .real (.fin d), l2, r2⟩ = .ok R ∧
      R.Hull (L.rr (y ^ x)) := by
  have hA : (⟨.real (.fin a), .real (.fin b), l1, r1⟩ : Interval).Ok F := ⟨trivial, trivial⟩
  have hB : (⟨.real (.fin c), .real (.fin d), l2, r2⟩ : Interval).Ok F := ⟨trivial, trivial⟩
  obtain ⟨h1, h2⟩ := rmem_between (is_real F a) (is_real F b) hy
  obtain ⟨h3, h4⟩ := rmem_between (is_real F c) (is_real F d) hx
  have a0' : (0 : ℝ) < a := by exact_mod_cast a0
  have b0 : 0 < b := by
    have : (0 : ℝ) < b := by linarith
    exact_mod_cast this
  have pos : ∀ {p e : ℚ}, 0 < p → Number.powNN L (.real (.fin p)) (.real (.fin e)) = .real (.fin (L.rr ((p : ℝ) ^ (e : ℝ)))) := by
    intro p e hp
    rcases powNN_pos L (is_real F p) (is_real F e) hp with h | ⟨_, _, h, _⟩
    · exact h
    · exact absurd h (by simp)
  have np : ∀ {p r : ℚ} {u w : Bool}, p ≠ r → isPoint F ⟨.real (.fin p), .real (.fin r), u, w⟩ = false := by
    intro p r u w h
    simp [isPoint, Number.eq, toReal, XR.eq, h]
  unfold powII
  rw [not_empty_of_rmem hA hy, not_empty_of_rmem hB hx, np hab, np hcd]
  rw [show Number.gt F (.real (.fin a)) (.int 0) = true from (gt_small L (is_real F a) (i := 0) (by decide)).2 (by push_cast; exact a0)]
  simp only [Bool.or_self, Bool.false_eq_true, if_false, if_true, pos a0, pos b0]
  refine ⟨_, rfl, ?_⟩
  obtain ⟨m, M, em, eM, ⟨m0, m1, m2, m3⟩, ⟨M0, M1, M2, M3⟩, mc, Mc⟩ := four (F := F) (L.rr ((a : ℝ) ^ (c : ℝ))) (L.rr ((a : ℝ) ^ (d : ℝ)))
    (L.rr ((b : ℝ) ^ (c : ℝ))) (L.rr ((b : ℝ) ^ (d : ℝ)))
  obtain ⟨kl, kh⟩ := pow_corners a0' h1 h2 h3 h4
  unfold corners
  dsimp only
  rw [em, eM]
  constructor
  · show ((m : ℚ) : ℝ) ≤ ((L.rr (y ^ x) : ℚ) : ℝ)
    have : m ≤ L.rr (y ^ x) := by
      rcases kl with h | h | h | h <;> have := L.rr_mono _ _ h <;> linarith
    exact_mod_cast this
  · show ((L.rr (y ^ x) : ℚ) : ℝ) ≤ ((M : ℚ) : ℝ)
    have : L.rr (y ^ x) ≤ M := by
      rcases kh with h | h | h | h <;> have := L.rr_mono _ _ h <;> linarith
    exact_mod_cast this

/-- C59: a base interval that reaches zero or below and is no point, with an exponent that is no point, always throws. -/
theorem powII_throws (A B : Interval) (hA : A.Ok F) (eA : isEmpty F A = false) (eB : isEmpty F B = false) (pA : isPoint F A = false)
    (pB : isPoint F B = false) (h : A.lo.w ≤ fin 0) : powII L A B = .throw := by
  have z : (Number.int 0).Ok F := L.small 0 (by decide)
  unfold powII
  rw [eA, eB, pA, pB, show Number.gt F A.lo (.int 0) = false by
    rw [← Bool.not_eq_true, gt_iff hA.1 z]
    simpa [Number.w] using h]
  simp

/-- C59 violated, for every precision: `[1/2, 1/2]` to the power of `[1, 2]` misses `1/4`, `[0, 0]` to the power of `[0, 1]` misses `0 ^ 0 = 1`,
`[-3, -3]` to the power of `[1, 3]` has no members, `(1, 4]` to the power of `[0, 1]` misses `2 ^ 0 = 1`, and `[0, 1]` to the power of
`[1, 2]` throws. -/
theorem powII_violated :
    (∃ R, powII L ⟨.real (.fin (1 / 2)), .real (.fin (1 / 2)), true, true⟩ ⟨.int 1, .int 2, true, true⟩ = .ok R ∧
      ¬ R.RMem ((1 / 2 : ℝ) ^ (2 : ℝ))) ∧
    (∃ R, powII L (pt 0) ⟨.int 0, .int 1, true, true⟩ = .ok R ∧ ¬ R.RMem ((0 : ℝ) ^ (0 : ℝ))) ∧
    (∃ R, powII L (pt (-3)) ⟨.int 1, .int 3, true, true⟩ = .ok R ∧ ∀ z, ¬ R.RMem z) ∧
    (∃ R, powII L ⟨.int 1, .int 4, false, true⟩ ⟨.int 0, .int 1, true, true⟩ = .ok R ∧ ¬ R.RMem ((2 : ℝ) ^ (0 : ℝ))) ∧
    powII L ⟨.int 0, .int 1, true, true⟩ ⟨.int 1, .int 2, true, true⟩ = .throw := by
  have e12 : isEmpty F ⟨.int 1, .int 2, true, true⟩ = false := by simp [isEmpty, gt, le, Number.eq]
  have p12 : isPoint F ⟨.int 1, .int 2, true, true⟩ = false := by simp [isPoint, Number.eq]
  have e01 : isEmpty F ⟨.int 0, .int 1, true, true⟩ = false := by simp [isEmpty, gt, le, Number.eq]
  have p01 : isPoint F ⟨.int 0, .int 1, true, true⟩ = false := by simp [isPoint, Number.eq]
  have e13 : isEmpty F ⟨.int 1, .int 3, true, true⟩ = false := by simp [isEmpty, gt, le, Number.eq]
  have p13 : isPoint F ⟨.int 1, .int 3, true, true⟩ = false := by simp [isPoint, Number.eq]
  have e14 : isEmpty F ⟨.int 1, .int 4, false, true⟩ = false := by simp [isEmpty, gt, le, Number.eq]
  have p14 : isPoint F ⟨.int 1, .int 4, false, true⟩ = false := by simp [isPoint, Number.eq]
  refine ⟨?_, ?_, ?_, ?_, ?_⟩
  · have hv := is_real F (1 / 2)
    have eh : isEmpty F ⟨.real (.fin (1 / 2)), .real (.fin (1 / 2)), true, true⟩ = false := by
      simp [isEmpty, gt, le, Number.eq, toReal, XR.le, XR.lt, XR.eq]
    have ph : isPoint F ⟨.real (.fin (1 / 2)), .real (.fin (1 / 2)), true, true⟩ = true := by
      simp [isPoint, Number.eq, toReal, XR.eq]
    have ne : ∀ k : ℤ, |k| ≤ 10 → (1 / 2 : ℚ) ≠ k → Number.eq F (.real (.fin (1 / 2))) (.int k) = false := by
      intro k hk hne
      rw [← Bool.not_eq_true, eq_iff hv.2 (show (Number.int k).Ok F from L.small k hk), hv.1]
      simpa [Number.w, fin] using hne
    have hne0 : (1 / 2 : ℚ) ≠ ((0 : ℤ) : ℚ) := by norm_num
    have hne1 : (1 / 2 : ℚ) ≠ ((1 : ℤ) : ℚ) := by norm_num
    have hne2 : (1 / 2 : ℚ) ≠ ((2 : ℤ) : ℚ) := by norm_num
    unfold powII
    rw [eh, e12, p12, ph]
    dsimp only
    rw [ne 0 (by decide) hne0, ne 1 (by decide) hne1, ne 2 (by decide) hne2]
    simp only [Bool.or_self, Bool.false_eq_true, if_false, if_true]
    refine ⟨_, rfl, ?_⟩
    intro h
    have h := h.1
    have i1 : (Number.int 1).Is F 1 := one_is'.2 (r1 L)
    have dh : (1 / 2 : ℚ).den ≠ 1 := by norm_num
    have nv : (Number.real (.fin (1 / 2))).isInteger = false := by
      show decide ((1 / 2 : ℚ).den = 1) = false
      exact decide_eq_false dh
    have he : (powLo L (.real (.fin (1 / 2))) (.int 1)) = (.real (.fin (L.below (1 / 2))), false) := by
      unfold powLo powEnd
      rw [nv, isInf_is i1, isPInf_is i1, isNInf_is i1]
      simp only [Bool.and_false, Bool.or_self, Bool.false_eq_true, if_false]
      rcases powNN_pos L hv i1 (by norm_num) with h | ⟨_, _, h, _⟩
      · rw [h]
        have hr : L.rr (((1 / 2 : ℚ) : ℝ) ^ (((1 : ℚ)) : ℝ)) = 1 / 2 := by
          rw [Rat.cast_one, Real.rpow_one, L.rr_rat]
          have := L.quarter 2 (by decide)
          have e : ((2 : ℤ) : ℚ) / 4 = 1 / 2 := by norm_num
          rwa [e] at this
        rw [hr]
        rfl
      · exact absurd h (by simp)
    rw [he] at h
    have hb : (1 / 4 : ℚ) ≤ L.below (1 / 2) := by
      have q1 := L.quarter 1 (by decide)
      have q2 := L.quarter 2 (by decide)
      have e1 : ((1 : ℤ) : ℚ) / 4 = 1 / 4 := by norm_num
      have e2 : ((2 : ℤ) : ℚ) / 4 = 1 / 2 := by norm_num
      rw [e1] at q1
      rw [e2] at q2
      exact L.below_next _ _ q2 q1 (by norm_num)
    have hb' : (((1 / 4 : ℚ)) : ℝ) ≤ ((L.below (1 / 2) : ℚ) : ℝ) := by exact_mod_cast hb
    simp only [LoB, Bool.false_eq_true, if_false] at h
    have e : ((1 : ℝ) / 2) ^ (2 : ℝ) = 1 / 4 := by
      rw [show (2 : ℝ) = ((2 : ℕ) : ℝ) by norm_num, Real.rpow_natCast]; norm_num
    rw [e] at h
    push_cast at hb'
    linarith
  · refine ⟨⟨.int 0, .int 0, true, true⟩, ?_, ?_⟩
    · unfold powII
      rw [pt_not_empty, e01, p01, show isPoint F (pt 0) = true by simp [pt, isPoint, Number.eq]]
      simp [pt, Number.eq]
    · rw [Real.rpow_zero]
      intro h
      have := h.2
      simp [HiB] at this
      linarith
  · refine ⟨⟨.int (-3), .int (-27), true, true⟩, ?_, ?_⟩
    · unfold powII
      rw [pt_not_empty, e13, p13, show isPoint F (pt (-3)) = true by simp [pt, isPoint, Number.eq]]
      simp [pt, Number.eq, powLo, powHi, powEnd, Number.isInf, Number.isPInf, Number.isNInf, Number.isInteger, Number.toIntN, Number.powNN]
    · rintro z ⟨h1, h2⟩
      simp [LoB, HiB] at h1 h2
      linarith
  · refine ⟨⟨.int 1, .int 4, false, true⟩, ?_, ?_⟩
    · unfold powII
      rw [e14, e01, p01, p14]
      simp [corners, pick, minL, maxL, smin, smax, Number.gt, Number.le, Number.lt, Number.eq, Number.powNN]
    · rw [Real.rpow_zero]
      intro h
      have := h.1
      simp [LoB] at this
  · exact powII_throws L _ _ ⟨L.small 0 (by decide), L.small 1 (by decide)⟩ e01 e12 p01 p12 (by simp [Number.w])

/-! ## The hypotheses are met -/

/-- `[3, 3]` to the power of `[1, +oo)` at 5/2 -/
example : ∃ R, powII gridLib ⟨.int 3, .int 3, true, true⟩ ⟨.int 1, .real .pinf, true, false⟩ = .ok R ∧
    R.RMem (((3 : ℚ) : ℝ) ^ (5 / 2 : ℝ)) :=
  powII_point_partial gridLib (.int 3) 3 ⟨by simp [Number.w], gridLib.small 3 (by decide)⟩ (by norm_num) (by norm_num)
    ⟨.int 1, .real .pinf, true, false⟩ ⟨gridLib.small 1 (by decide), trivial⟩
    (by simp [isPoint, Number.eq, toReal, XR.eq])
    (fun _ => .inl ⟨3, 1, rfl, by norm_num, by simp [Number.w]⟩) (fun h => absurd rfl h) (5 / 2)
    (by simp [RMem, LoB, HiB]; norm_num)

/-- `[1/2, 3)` to the power of `[-1, 1/2]` at `2 ^ 0` -/
example : ∃ R, powII gridLib ⟨.real (.fin (1 / 2)), .real (.fin 3), true, false⟩ ⟨.real (.fin (-1)), .real (.fin (1 / 2)), true, true⟩ = .ok R ∧
    R.Hull (gridLib.rr ((2 : ℝ) ^ (0 : ℝ))) :=
  powII_rounded_partial gridLib (1 / 2) 3 (-1) (1 / 2) true false true true (by norm_num) 2 0
    (by simp [RMem, LoB, HiB]; norm_num) (by simp [RMem, LoB, HiB]) (by norm_num) (by norm_num)

end SMT.Num
