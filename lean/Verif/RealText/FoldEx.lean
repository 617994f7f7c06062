import Verif.RealText.FoldProps

/-! # C75: concrete cases -/

noncomputable section
namespace SMT.RealText
open SMT SMT.Text SMT.Tok SMT.Str SMT.Num
open SMT.Kinds (K)

/-- rounding down to a multiple of 10⁻²⁰, for examples -/
def fineFmt : Fmt where
  r q := ((q * 100000000000000000000).floor : ℚ) / 100000000000000000000
  mono a b h := by
    have : (a * 100000000000000000000).floor ≤ (b * 100000000000000000000).floor := by
      rw [Rat.le_floor_iff]; exact (Rat.floor_le _).trans (by linarith)
    have : ((a * 100000000000000000000).floor : ℚ) ≤ ((b * 100000000000000000000).floor : ℚ) := by exact_mod_cast this
    linarith
  idem a := by
    have : ((a * 100000000000000000000).floor : ℚ) / 100000000000000000000 * 100000000000000000000 = ((a * 100000000000000000000).floor : ℚ) := by ring
    rw [this, Rat.floor_intCast]

theorem fine_rep (k : ℤ) : fineFmt.r ((k : ℚ) / 100000000000000000000) = (k : ℚ) / 100000000000000000000 := by
  show (((k : ℚ) / 100000000000000000000 * 100000000000000000000).floor : ℚ) / 100000000000000000000 = _
  have : (k : ℚ) / 100000000000000000000 * 100000000000000000000 = (k : ℚ) := by ring
  rw [this, Rat.floor_intCast]

/-- a library for examples: round down to multiples of 10⁻²⁰, neighbours at distance 10⁻²⁰ -/
def fineLib : Lib fineFmt where
  rr x := ((⌊x * 100000000000000000000⌋ : ℤ) : ℚ) / 100000000000000000000
  rr_mono a b h := by
    have : ⌊a * 100000000000000000000⌋ ≤ ⌊b * 100000000000000000000⌋ := Int.floor_mono (by linarith)
    have : ((⌊a * 100000000000000000000⌋ : ℤ) : ℚ) ≤ ((⌊b * 100000000000000000000⌋ : ℤ) : ℚ) := by exact_mod_cast this
    linarith
  rr_rat q := by
    show ((⌊(q : ℝ) * 100000000000000000000⌋ : ℤ) : ℚ) / 100000000000000000000 = ((q * 100000000000000000000).floor : ℚ) / 100000000000000000000
    congr 2
    rw [Int.floor_eq_iff]
    constructor
    · exact_mod_cast Rat.floor_le (q * 100000000000000000000)
    · have h : q * 100000000000000000000 - 1 < ((q * 100000000000000000000).floor : ℚ) := Rat.lt_floor
      have h2 : q * 100000000000000000000 < ((q * 100000000000000000000).floor : ℚ) + 1 := by linarith
      exact_mod_cast h2
  rr_rep a := fine_rep _
  below q := q - 1 / 100000000000000000000
  above q := q + 1 / 100000000000000000000
  big := 1000000
  below_rep q h := by
    have h' : (((q * 100000000000000000000).floor : ℤ) : ℚ) / 100000000000000000000 = q := h
    have e : q - 1 / 100000000000000000000 = (((q * 100000000000000000000).floor - 1 : ℤ) : ℚ) / 100000000000000000000 := by push_cast; linarith
    rw [e, fine_rep]
  above_rep q h := by
    have h' : (((q * 100000000000000000000).floor : ℤ) : ℚ) / 100000000000000000000 = q := h
    have e : q + 1 / 100000000000000000000 = (((q * 100000000000000000000).floor + 1 : ℤ) : ℚ) / 100000000000000000000 := by push_cast; linarith
    rw [e, fine_rep]
  below_lt q _ := by linarith
  lt_above q _ := by linarith
  below_next q p hq hp h := by
    have hq' : (((q * 100000000000000000000).floor : ℤ) : ℚ) / 100000000000000000000 = q := hq
    have hp' : (((p * 100000000000000000000).floor : ℤ) : ℚ) / 100000000000000000000 = p := hp
    have h1 : (((p * 100000000000000000000).floor : ℤ) : ℚ) < (((q * 100000000000000000000).floor : ℤ) : ℚ) := by linarith
    have h2 : (p * 100000000000000000000).floor + 1 ≤ (q * 100000000000000000000).floor := by exact_mod_cast h1
    have h3 : (((p * 100000000000000000000).floor : ℤ) : ℚ) + 1 ≤ (((q * 100000000000000000000).floor : ℤ) : ℚ) := by exact_mod_cast h2
    linarith
  above_next q p hq hp h := by
    have hq' : (((q * 100000000000000000000).floor : ℤ) : ℚ) / 100000000000000000000 = q := hq
    have hp' : (((p * 100000000000000000000).floor : ℤ) : ℚ) / 100000000000000000000 = p := hp
    have h1 : (((q * 100000000000000000000).floor : ℤ) : ℚ) < (((p * 100000000000000000000).floor : ℤ) : ℚ) := by linarith
    have h2 : (q * 100000000000000000000).floor + 1 ≤ (p * 100000000000000000000).floor := by exact_mod_cast h1
    have h3 : (((q * 100000000000000000000).floor : ℤ) : ℚ) + 1 ≤ (((p * 100000000000000000000).floor : ℤ) : ℚ) := by exact_mod_cast h2
    linarith
  quarter i _ := by
    have := fine_rep (i * 25000000000000000000)
    have e : (((i * 25000000000000000000 : ℤ) : ℚ)) / 100000000000000000000 = (i : ℚ) / 4 := by push_cast; ring
    rwa [e] at this


theorem fine_int (z : ℤ) : fineFmt.r z = z := by
  have := fine_rep (z * 100000000000000000000)
  have e : (((z * 100000000000000000000 : ℤ) : ℚ)) / 100000000000000000000 = (z : ℚ) := by push_cast; ring
  rwa [e] at this

abbrev X := Exp10.plain
/-- both on, the default -/
def dft : Opt := {}

def cHalf : Const := ⟨false, cs!"0.5"⟩
def cTiny : Const := ⟨false, cs!"0.00001"⟩
def cInt (z : ℤ) : Const := ⟨true, showInt z⟩
theorem cInt_is (z : ℤ) : (cInt z).IsInt z := ⟨rfl, rfl⟩
theorem cInt_den (z : ℤ) : (cInt z).Denotes fineFmt z := by
  have := (cInt_is z).denotes (F := fineFmt)
  rwa [fine_int] at this
theorem cHalf_den : cHalf.Denotes fineFmt (1 / 2) := by
  have := value_point fineFmt 0 (a := ['0']) (b := cs!"5") (by decide) (by decide) (by decide)
  have e : undec (['0'] ++ cs!"5") = 5 := by decide
  rw [e] at this
  have e2 : fineFmt.r (sgn 0 * ((5 : ℕ) / 10 ^ (cs!"5").length)) = 1 / 2 := by
    have := fine_rep 50000000000000000000
    have e3 : (sgn 0 * ((5 : ℕ) / 10 ^ (cs!"5").length)) = ((50000000000000000000 : ℤ) : ℚ) / 100000000000000000000 := by
      norm_num [sgn]
    rw [e3, this]; norm_num
  rw [e2] at this
  exact this
theorem cTiny_den : cTiny.Denotes fineFmt (1 / 10 ^ 5) := by
  have := value_point fineFmt 0 (a := ['0']) (b := cs!"00001") (by decide) (by decide) (by decide)
  have e : undec (['0'] ++ cs!"00001") = 1 := by decide
  rw [e] at this
  have e2 : fineFmt.r (sgn 0 * ((1 : ℕ) / 10 ^ (cs!"00001").length)) = 1 / 10 ^ 5 := by
    have := fine_rep 1000000000000000
    have e3 : (sgn 0 * ((1 : ℕ) / 10 ^ (cs!"00001").length)) = ((1000000000000000 : ℤ) : ℚ) / 100000000000000000000 := by
      norm_num [sgn]
    rw [e3, this]; norm_num
  rw [e2] at this
  exact this

/-- `exp` of 0.5 -/
example := function_folded_partial fineLib dft X rfl (k := .EXP) rfl cHalf_den (Set.mem_univ _)
/-- `asec` of 2, `acot` of 0.5 -/
example := recip_folded_partial fineLib dft X rfl (k := .ASEC) rfl (cInt_den 2) (by norm_num)
  (by have := fine_rep 50000000000000000000; norm_num at this ⊢; exact this) (by constructor <;> norm_num)
example := acot_folded_partial fineLib dft X rfl cHalf_den
/-- without floating point it is left -/
example : simp1 fineLib ⟨false, true⟩ X .EXP cHalf = .ok none := function_kept fineLib ⟨false, true⟩ X rfl (by decide) cHalf_den
/-- `(ln 0)` throws by default -/
example : simp1 fineLib dft X .LN (cInt 0) = .throw := domain_error_violated fineLib dft X rfl (cInt_den 0) (by simp [outside])
/-- `(sqrt 2)` is a decimal by default -/
example : ∃ c', simp1 fineLib dft X .SQRT (cInt 2) = .ok (some (.const c')) ∧ ∀ v, c'.Denotes fineFmt v → v * v ≠ 2 := by
  have := sqrt_folded_violated fineLib dft X rfl (cInt_den 2) (by norm_num) (by push_cast; exact irrational_sqrt_two)
  simpa using this
example := int_folded fineLib dft X (cInt_is (-7))
/-- 0.5 is rounded away from zero -/
example : ∃ c', simp1 fineLib dft X .ROUND cHalf = .ok (some (.const c')) ∧ c'.Denotes fineFmt 1 := by
  have := (rounding_folded fineLib dft X rfl cHalf_den).2.2 1 (fine_int 1) (.inr ⟨by rw [abs_of_neg] <;> norm_num, by norm_num⟩)
  simpa using this
example : ∃ c', simp1 fineLib dft X .CEIL cHalf = .ok (some (.const c')) ∧ c'.Denotes fineFmt 1 := by
  have e : ⌈(1 / 2 : ℚ)⌉ = 1 := by rw [Int.ceil_eq_iff]; norm_num
  have := (rounding_folded fineLib dft X rfl cHalf_den).2.1 (fine_int _)
  rw [e] at this
  simpa using this
/-- `1 < 2`, `0.5 < 2`, not `2 < 0.5` -/
example : simp2 fineLib dft X (cInt 1) (cInt 2) .LT = .ok (some (.bool true)) := by
  obtain ⟨v, h, hv⟩ := int_compared fineLib dft X (k := .LT) rfl (cInt_is 1) (cInt_is 2)
  rw [h, hv.mpr (by norm_num)]
example : simp2 fineLib dft X cHalf (cInt 2) .LT = .ok (some (.bool true)) := by
  obtain ⟨v, h, hv⟩ := (real_compared fineLib dft X (k := .LT) rfl rfl cHalf_den (cInt_den 2)).1 (.inr (.inr rfl))
  rw [h, hv.mpr (by norm_num)]
example : simp2 fineLib ⟨false, true⟩ X cHalf (cInt 2) .LT = .ok none :=
  (real_compared fineLib ⟨false, true⟩ X (k := .LT) rfl rfl cHalf_den (cInt_den 2)).2 (by decide) (by decide) rfl
example := int_arithmetic fineLib dft X (k := .MUL) rfl (cInt_is (10 ^ 40)) (cInt_is (-3))
/-- 0.5 + 0.5 is 1 -/
example : ∃ c, simp2 fineLib dft X cHalf cHalf .ADD = .ok (some (.const c)) ∧ c.Denotes fineFmt 1 := by
  have e : fineFmt.r ((1 : ℚ) / 2 + 1 / 2) = 1 := by
    have := fine_int 1
    norm_num at this ⊢; exact this
  obtain ⟨c, q, h, -, hd, -, hq⟩ := real_arithmetic_partial fineLib dft X (k := .ADD) rfl rfl cHalf_den cHalf_den (.inl (by rw [e]; rfl))
  refine ⟨c, h, ?_⟩
  rw [hq (by rw [e]; rfl), e] at hd
  have := fine_int 1
  norm_num at this
  rwa [this] at hd
/-- 0.00001 squared is zero -/
example : ∃ c, simp2 fineLib dft X cTiny cTiny .MUL = .ok (some (.const c)) ∧ c.Denotes fineFmt 0 := by
  have e : fineFmt.r ((1 : ℚ) / 10 ^ 5 * (1 / 10 ^ 5)) = 1 / 10 ^ 10 := by
    have := fine_rep 10000000000
    norm_num at this ⊢; exact this
  exact real_arithmetic_violated fineLib dft X (k := .MUL) rfl rfl cTiny_den cTiny_den (by rw [e]; norm_num)
    (by rw [e, abs_of_pos] <;> norm_num)
/-- `(/ 6 3)` is `2`, `(/ 1 2)` is left, `(/ 10000000000 1)` is another number -/
example : ∃ c, simp2 fineLib dft X (cInt 6) (cInt 3) .DIV_REAL = .ok (some (.const c)) ∧ c.IsInt 2 :=
  (division_kept_partial fineLib dft X rfl (cInt_den 6) (cInt_den 3) (by norm_num)
    (by have := fine_int 2; norm_num at this ⊢; exact this)).1 2 (by norm_num) (by norm_num) (by norm_num)
example : simp2 fineLib dft X (cInt 1) (cInt 2) .DIV_REAL = .ok none := by
  refine (division_kept_partial fineLib dft X rfl (cInt_den 1) (cInt_den 2) (by norm_num)
    (by have := fine_rep 50000000000000000000; norm_num at this ⊢; exact this)).2 fun z hz => ?_
  have h1 : (0 : ℚ) < z := by rw [← hz]; norm_num
  have h2 : (z : ℚ) < 1 := by rw [← hz]; norm_num
  have h1 : 0 < z := by exact_mod_cast h1
  have h2 : z < 1 := by exact_mod_cast h2
  omega
example : ∃ c z', simp2 fineLib dft X (cInt 10000000000) (cInt 1) .DIV_REAL = .ok (some (.const c)) ∧ c.IsInt z' ∧ z' ≠ 10000000000 :=
  division_wrapped_violated fineLib dft X rfl (cInt_den 10000000000) (cInt_den 1) (by norm_num)
    (by have := fine_int 10000000000; norm_num at this ⊢; exact this) (by norm_num) (.inr (by norm_num))
/-- 1 divided by 10²¹ is rounded to the integer 0 -/
example : ∃ c, simp2 fineLib dft X (cInt 1) (cInt (10 ^ 21)) .DIV_REAL = .ok (some (.const c)) ∧ c.IsInt 0 := by
  obtain ⟨c, h, hc, -⟩ := division_rounded_violated fineLib dft X rfl (cInt_den 1) (cInt_den (10 ^ 21)) (by norm_num) (z := 0)
    (by
      show ((((1 : ℤ) : ℚ) / ((10 ^ 21 : ℤ) : ℚ) * 100000000000000000000).floor : ℚ) / 100000000000000000000 = _
      have : (((1 : ℤ) : ℚ) / ((10 ^ 21 : ℤ) : ℚ) * 100000000000000000000).floor = 0 := by decide +kernel
      rw [this]; norm_num) (by norm_num) (by norm_num) (by norm_num)
  exact ⟨c, h, hc⟩
example : simp2 fineLib dft X (cInt 1) (cInt 0) .DIV_REAL = .ok none :=
  division_by_zero_kept fineLib dft X (.inl rfl) (cInt_den 1) (by simpa using cInt_den 0)
example : ∃ c, simp2 fineLib ⟨true, false⟩ X (cInt 1) (cInt 0) .DIV_REAL = .ok (some (.const c)) ∧ c.Denotes fineFmt 0 :=
  division_by_zero_violated fineLib ⟨true, false⟩ X rfl rfl (cInt_den 1) (by simpa using cInt_den 0)
example : ∃ c, simp2 fineLib dft X cHalf (cInt 0) .DIV_INT = .ok (some (.const c)) ∧ c.IsInt (-1) := by
  have := int_division_by_zero_violated fineLib dft X rfl (l := cHalf) (r := cInt 0) rfl cHalf_den (by simpa using cInt_den 0)
  rwa [if_pos (by norm_num)] at this
/-- two to the third -/
example : ∃ c, simp2 fineLib dft X (cInt 2) (cInt 3) .POW = .ok (some (.const c)) ∧ c.Denotes fineFmt 8 := by
  have e : fineLib.rr (((2 : ℤ) : ℚ) ^ (((3 : ℤ) : ℚ) : ℝ) : ℝ) = 8 := by
    have h : (((2 : ℤ) : ℚ) ^ (((3 : ℤ) : ℚ) : ℝ) : ℝ) = ((8 : ℚ) : ℝ) := by
      push_cast
      rw [show (3 : ℝ) = ((3 : ℕ) : ℝ) by norm_num, Real.rpow_natCast]; norm_num
    rw [h, fineLib.rr_rat]
    exact fine_int 8
  obtain ⟨c, h, -, hd⟩ := function2_folded_partial fineLib dft X rfl (k := .POW) rfl (cInt_den 2) (cInt_den 3) (.inl (by norm_num))
  refine ⟨c, h, ?_⟩
  rw [e] at hd
  obtain ⟨q, h1, -, h2⟩ := hd (.inl rfl)
  rw [h2 rfl] at h1
  have := fine_int 8
  norm_num at this
  rwa [this] at h1
example : simp2 fineLib dft X (cInt 2) (cInt 1) .LOG = .throw := log_domain_violated fineLib dft X rfl (cInt_den 2) (cInt_den 1) (by norm_num)

end SMT.RealText
