import Verif.RealText.Model
import Mathlib.Data.List.Induction

/-! # C74: a real constant keeps the value it was made from -/

namespace SMT.RealText
open SMT SMT.Text SMT.Tok SMT.Str SMT.Num

set_option linter.unusedSimpArgs false
set_option linter.unusedVariables false

/-! ## Rounding to an integer -/

theorem rhe_int (z : ℤ) : rhe z = z := by
  unfold rhe
  rw [Int.floor_intCast, sub_self, if_pos (by norm_num)]

theorem rhe_near (q : ℚ) : |(rhe q : ℚ) - q| ≤ 1 / 2 := by
  have h1 := Int.floor_le q
  have h2 := Int.lt_floor_add_one q
  unfold rhe
  rw [abs_le]
  split
  · constructor <;> linarith
  · split
    · push_cast; constructor <;> linarith
    · split
      · constructor <;> linarith
      · push_cast; constructor <;> linarith

theorem rhe_nonneg {q : ℚ} (h : 0 ≤ q) : 0 ≤ rhe q := by
  have h0 : (0 : ℤ) ≤ ⌊q⌋ := Int.floor_nonneg.mpr h
  unfold rhe
  repeat' split
  all_goals omega

theorem rhe_small {q : ℚ} (h0 : 0 ≤ q) (h : q < 1 / 2) : rhe q = 0 := by
  have : ⌊q⌋ = 0 := Int.floor_eq_zero_iff.mpr ⟨h0, by linarith⟩
  unfold rhe
  rw [this]
  norm_num
  intro; linarith

/-! ## Digits -/

theorem isDigit_zero : '0'.isDigit = true := rfl

theorem undec_append (a b : List Char) : undec (a ++ b) = undec a * 10 ^ b.length + undec b := by
  induction b using List.reverseRecOn with
  | nil => simp [undec]
  | append_singleton b c ih =>
    have : ∀ l : List Char, undec (l ++ [c]) = undec l * 10 + (c.toNat - 48) := by
      intro l; unfold undec; rw [List.foldl_append]; rfl
    rw [← List.append_assoc, this, this, ih, List.length_append, List.length_singleton, pow_succ]
    ring

theorem undec_zeros (k : Nat) : undec (List.replicate k '0') = 0 := by
  induction k with
  | zero => rfl
  | succ k ih => rw [List.replicate_succ', undec_append, ih]; rfl

theorem dec_length_le {d : Nat} : ∀ {n : Nat}, 0 < d → n < 10 ^ d → (dec n).length ≤ d := by
  induction d with
  | zero => intro n h; omega
  | succ d ih =>
    intro n _ h
    rw [dec]
    split
    · simp
    · rename_i h10
      rw [List.length_append, List.length_singleton]
      by_cases hd : d = 0
      · subst hd; omega
      · have : n / 10 < 10 ^ d := by rw [pow_succ] at h; omega
        have := ih (by omega) this
        omega

theorem pad_length {d n : Nat} (hd : 0 < d) (h : n < 10 ^ d) : (pad d n).length = d := by
  have := dec_length_le hd h
  simp only [pad, List.length_append, List.length_replicate]
  omega

theorem undec_pad (d n : Nat) : undec (pad d n) = n := by
  rw [pad, undec_append, undec_zeros, undec_dec]; omega

theorem pad_digits (d n : Nat) : ∀ c ∈ pad d n, c.isDigit = true := by
  intro c hc
  simp only [pad, List.mem_append, List.mem_replicate] at hc
  rcases hc with ⟨_, rfl⟩ | hc
  · rfl
  · exact dec_isDigit n c hc

theorem dot_not_digit {c : Char} (h : c.isDigit = true) : c ≠ '.' := by
  rintro rfl; exact absurd h (by decide)

/-- digits, a point, digits -/
theorem udec_point {a b : List Char} (ha : ∀ c ∈ a, c.isDigit = true) : udec (a ++ '.' :: b) = (undec (a ++ b) : ℚ) / 10 ^ b.length := by
  have h : ∀ c ∈ a, decide (c ≠ '.') = true := fun c hc => by simpa using dot_not_digit (ha c hc)
  unfold udec
  rw [List.takeWhile_append_of_pos h, List.dropWhile_append_of_pos h]
  simp

/-- digits without a point -/
theorem udec_digits {a : List Char} (ha : ∀ c ∈ a, c.isDigit = true) : udec a = undec a := by
  have h : ∀ c ∈ a, decide (c ≠ '.') = true := fun c hc => by simpa using dot_not_digit (ha c hc)
  have e1 : a.takeWhile (· ≠ '.') = a := by
    have := List.takeWhile_append_of_pos (l₂ := []) h
    simpa using this
  have e2 : a.dropWhile (· ≠ '.') = [] := by
    have := List.dropWhile_append_of_pos (l₂ := []) h
    simpa using this
  unfold udec
  rw [e1, e2]
  simp

/-- what is left of the decimals when the trailing zeros are removed -/
def cut (b : List Char) : List Char := (b.reverse.dropWhile (· = '0')).reverse

theorem cut_zeros (b : List Char) : ∃ k, b = cut b ++ List.replicate k '0' := by
  refine ⟨(b.reverse.takeWhile (· = '0')).length, ?_⟩
  have h1 := congrArg List.reverse (List.takeWhile_append_dropWhile (p := (· = '0')) (l := b.reverse))
  rw [List.reverse_append, List.reverse_reverse] at h1
  have h2 : (b.reverse.takeWhile (· = '0')).reverse = List.replicate (b.reverse.takeWhile (· = '0')).length '0' := by
    rw [List.eq_replicate_iff]
    refine ⟨by simp, fun c hc => ?_⟩
    have := List.all_takeWhile (p := (· = '0')) (l := b.reverse)
    rw [List.all_eq_true] at this
    simpa using this c (List.mem_reverse.mp hc)
  rw [← h2]; exact h1.symm

theorem cut_getLast (b : List Char) (h : cut b ≠ []) : (cut b).getLast? ≠ some '0' := by
  unfold cut at h ⊢
  rw [List.getLast?_reverse]
  cases hd : b.reverse.dropWhile (· = '0') with
  | nil => simp
  | cons c s =>
    have := List.head?_dropWhile_not (p := (· = '0')) b.reverse
    rw [hd] at this
    simpa using this

theorem strip_point {a b : List Char} (hb : ∀ c ∈ b, c.isDigit = true) :
    strip (a ++ '.' :: b) = if cut b = [] then a else a ++ '.' :: cut b := by
  have e : ((a ++ '.' :: b).reverse.dropWhile (· = '0')).reverse = a ++ '.' :: cut b := by
    rw [List.reverse_append, List.reverse_cons, List.append_assoc, List.dropWhile_append]
    by_cases hz : (b.reverse.dropWhile (· = '0')).isEmpty = true
    · rw [if_pos hz]
      have : cut b = [] := by unfold cut; rw [List.isEmpty_iff.mp hz]; rfl
      rw [this]
      simp [List.dropWhile_cons]
    · rw [if_neg hz]
      simp [cut]
  unfold strip
  simp only [e]
  by_cases hc : cut b = []
  · rw [hc, if_pos rfl]; simp
  · rw [if_neg hc]
    have : (a ++ '.' :: cut b).getLast? ≠ some '.' := by
      rw [List.getLast?_append_cons]
      cases hl : cut b with
      | nil => exact absurd hl hc
      | cons c s =>
        rw [List.getLast?_cons_cons]
        intro hq
        have hm : '.' ∈ cut b := by rw [hl]; exact List.mem_of_getLast? hq
        obtain ⟨k, hk⟩ := cut_zeros b
        exact dot_not_digit (hb '.' (by rw [hk]; exact List.mem_append_left _ hm)) rfl
    rw [if_neg this]

/-! ## The value of a text -/

theorem realGo_digits {s : List Char} (h : ∀ c ∈ s, c.isDigit = true) (dot : Bool) : realGo dot s = true := by
  induction s with
  | nil => rfl
  | cons c s ih =>
    have hc := h c List.mem_cons_self
    rw [realGo, if_neg (by rintro ⟨rfl, _⟩; exact absurd hc (by decide)), if_pos hc]
    exact ih fun x hx => h x (List.mem_cons_of_mem _ hx)

theorem realGo_point {a b : List Char} (ha : ∀ c ∈ a, c.isDigit = true) (hb : ∀ c ∈ b, c.isDigit = true) :
    realGo false (a ++ '.' :: b) = true := by
  induction a with
  | nil => rw [List.nil_append, realGo, if_pos ⟨rfl, rfl⟩]; exact realGo_digits hb true
  | cons c s ih =>
    have hc := ha c List.mem_cons_self
    rw [List.cons_append, realGo, if_neg (by rintro ⟨rfl, _⟩; exact absurd hc (by decide)), if_pos hc]
    exact ih fun x hx => ha x (List.mem_cons_of_mem _ hx)

/-- the value of a number with its sign -/
def sgn (q : ℚ) : ℚ := if q < 0 then -1 else 1

/-- an integer text has its value -/
theorem value_int (F : Fmt) (z : ℤ) : valueOf F (showInt z) = .ok (.fin (F.r z)) := by
  obtain ⟨h1, h2, _⟩ := printed_exact z
  unfold valueOf nodeValue
  rw [if_pos h1, h2]
  rfl

theorem head_digit {a : List Char} (ha : ∀ c ∈ a, c.isDigit = true) (hn : a ≠ []) : ∃ c s, a = c :: s ∧ c.isDigit = true := by
  cases a with
  | nil => exact absurd rfl hn
  | cons c s => exact ⟨c, s, rfl, ha c List.mem_cons_self⟩

/-- digits, a point and digits, signed: the value is read -/
theorem value_point (F : Fmt) (q : ℚ) {a b : List Char} (ha : ∀ c ∈ a, c.isDigit = true) (hn : a ≠ []) (hb : ∀ c ∈ b, c.isDigit = true) :
    valueOf F (signed q (a ++ '.' :: b)) = .ok (.fin (F.r (sgn q * ((undec (a ++ b) : ℚ) / 10 ^ b.length)))) := by
  obtain ⟨c, s, rfl, hc⟩ := head_digit ha hn
  have hs : ∀ x ∈ s, x.isDigit = true := fun x hx => ha x (List.mem_cons_of_mem _ hx)
  have hm : ¬ (c = '-' ∨ c = '+') := by rintro (rfl | rfl) <;> exact absurd hc (by decide)
  have hnd : (s ++ '.' :: b).all Char.isDigit = false := by
    rw [List.all_append, List.all_cons]; simp [show '.'.isDigit = false from rfl]
  have hnd2 : ((c :: s) ++ '.' :: b).all Char.isDigit = false := by
    rw [List.all_append, List.all_cons]; simp [show '.'.isDigit = false from rfl]
  unfold valueOf nodeValue signed sgn
  by_cases h : q < 0
  · rw [if_pos h, if_pos h]
    have e1 : isIntTok ('-' :: ((c :: s) ++ '.' :: b)) = false := by rw [isIntTok, hnd2]; simp
    have e2 : isReal ('-' :: ((c :: s) ++ '.' :: b)) = true := by
      rw [isReal, if_pos (.inl rfl)]; exact realGo_point ha hb
    rw [e1, e2]
    have e3 : decRat ('-' :: ((c :: s) ++ '.' :: b)) = -1 * ((undec ((c :: s) ++ b) : ℚ) / 10 ^ b.length) := by
      rw [decRat, udec_point ha]; ring
    simp only [Bool.false_eq_true, if_false, if_true, e3]
    rfl
  · rw [if_neg h, if_neg h]
    have e1 : isIntTok ((c :: s) ++ '.' :: b) = false := by rw [List.cons_append, isIntTok, hnd]; simp
    have e2 : isReal ((c :: s) ++ '.' :: b) = true := by
      rw [List.cons_append, isReal, if_neg hm]; exact realGo_point (a := c :: s) ha hb
    have e3 : decRat ((c :: s) ++ '.' :: b) = 1 * ((undec ((c :: s) ++ b) : ℚ) / 10 ^ b.length) := by
      rw [one_mul, ← udec_point ha, List.cons_append, decRat]
      · rintro t heq; injection heq with h1 h2; exact hm (.inl h1)
      · rintro t heq; injection heq with h1 h2; exact hm (.inr h1)
    rw [e1, e2, e3]
    rfl

/-- digits without a point, signed -/
theorem value_digits (F : Fmt) (q : ℚ) {a : List Char} (ha : ∀ c ∈ a, c.isDigit = true) (hn : a ≠ []) :
    valueOf F (signed q a) = .ok (.fin (F.r (sgn q * (undec a : ℚ)))) := by
  obtain ⟨c, s, rfl, hc⟩ := head_digit ha hn
  have hs : ∀ x ∈ s, x.isDigit = true := fun x hx => ha x (List.mem_cons_of_mem _ hx)
  have hd : digits (c :: s) = some (undec (c :: s)) := digits_some ⟨hn, ha⟩
  have hall : (c :: s).all Char.isDigit = true := List.all_eq_true.mpr ha
  unfold valueOf nodeValue signed sgn
  by_cases h : q < 0
  · rw [if_pos h, if_pos h]
    have e1 : isIntTok ('-' :: c :: s) = true := by rw [isIntTok, hall]; rfl
    have e2 : toInteger ('-' :: c :: s) = .ok (-(undec (c :: s) : ℤ)) := by rw [toInteger, hd]
    rw [if_pos e1, e2]
    show Res.ok (XR.fin (F.r ((-(undec (c :: s) : ℤ) : ℤ) : ℚ))) = _
    push_cast
    rw [neg_one_mul]
  · rw [if_neg h, if_neg h]
    have e1 : isIntTok (c :: s) = true := by
      rw [isIntTok, hc, List.all_eq_true.mpr hs]; simp
    have e2 : toInteger (c :: s) = .ok (undec (c :: s) : ℤ) := by
      rw [toInteger]
      · rw [hd]
      · rintro t heq; injection heq with h1 h2; rw [h1] at hc; exact absurd hc (by decide)
    rw [if_pos e1, e2, one_mul]
    rfl

theorem undec_cut (a b : List Char) : (undec (a ++ b) : ℚ) / 10 ^ b.length = (undec (a ++ cut b) : ℚ) / 10 ^ (cut b).length := by
  obtain ⟨k, hk⟩ := cut_zeros b
  generalize cut b = c at hk
  subst hk
  rw [← List.append_assoc, undec_append, undec_zeros, List.length_append, List.length_replicate]
  push_cast
  rw [pow_add]
  field_simp
  ring

/-- a decimal without its trailing zeros has the same value -/
theorem value_strip (F : Fmt) (q : ℚ) {a b : List Char} (ha : ∀ c ∈ a, c.isDigit = true) (hn : a ≠ []) (hb : ∀ c ∈ b, c.isDigit = true) :
    valueOf F (signed q (strip (a ++ '.' :: b))) = .ok (.fin (F.r (sgn q * ((undec (a ++ b) : ℚ) / 10 ^ b.length)))) := by
  rw [strip_point hb, undec_cut]
  have hc : ∀ c ∈ cut b, c.isDigit = true := by
    obtain ⟨k, hk⟩ := cut_zeros b
    intro c hc
    exact hb c (by rw [hk]; exact List.mem_append_left _ hc)
  by_cases h : cut b = []
  · rw [if_pos h, h, value_digits F q ha hn]; simp
  · rw [if_neg h, value_point F q ha hn hc]

theorem undec_fixed {d : Nat} (hd : 0 < d) (n : Nat) :
    (undec (dec (n / 10 ^ d) ++ pad d (n % 10 ^ d)) : ℚ) / 10 ^ (pad d (n % 10 ^ d)).length = (n : ℚ) / 10 ^ d := by
  have hlt : n % 10 ^ d < 10 ^ d := Nat.mod_lt _ (by positivity)
  rw [undec_append, undec_dec, undec_pad, pad_length hd hlt]
  congr 1
  exact_mod_cast Nat.div_add_mod' n (10 ^ d)

theorem value_fixed (F : Fmt) (q : ℚ) {d : Nat} (hd : 0 < d) (n : Nat) :
    valueOf F (signed q (fixed d n)) = .ok (.fin (F.r (sgn q * ((n : ℚ) / 10 ^ d)))) := by
  rw [fixed, value_point F q (dec_isDigit _) (dec_ne_nil _) (pad_digits _ _), undec_fixed hd]

theorem value_fixed_strip (F : Fmt) (q : ℚ) {d : Nat} (hd : 0 < d) (n : Nat) :
    valueOf F (signed q (strip (fixed d n))) = .ok (.fin (F.r (sgn q * ((n : ℚ) / 10 ^ d)))) := by
  rw [fixed, value_strip F q (dec_isDigit _) (dec_ne_nil _) (pad_digits _ _), undec_fixed hd]

/-- a text with a letter has no value -/
theorem value_letter (F : Fmt) {s : List Char} {c : Char} (hc : c ∈ s) (h1 : c.isDigit = false) (h2 : c ≠ '.') (h3 : c ≠ '-') (h4 : c ≠ '+') :
    valueOf F s = .ok (.fin 0) := by
  have hg : ∀ (t : List Char) (d : Bool), c ∈ t → realGo d t = false := by
    intro t
    induction t with
    | nil => intro d h; cases h
    | cons x t ih =>
      intro d h
      rw [realGo]
      rcases List.mem_cons.mp h with rfl | h
      · rw [if_neg (by rintro ⟨h, _⟩; exact h2 h), if_neg (by rw [h1]; simp)]
      · rw [ih true h, ih d h]; simp
  have e1 : isIntTok s = false := by
    cases s with
    | nil => rfl
    | cons x t =>
      rw [isIntTok]
      rcases List.mem_cons.mp hc with rfl | h
      · simp [h1, h3, h4]
      · rw [show t.all Char.isDigit = false from List.all_eq_false.mpr ⟨c, h, by rw [h1]; simp⟩]; simp
  have e2 : isReal s = false := by
    cases s with
    | nil => rfl
    | cons x t =>
      rw [isReal]
      rcases List.mem_cons.mp hc with rfl | h
      · rw [if_neg (by rintro (h | h); exact h3 h; exact h4 h)]; exact hg _ _ List.mem_cons_self
      · rw [hg t false h, hg (x :: t) false (List.mem_cons_of_mem _ h)]; simp
  unfold valueOf nodeValue
  rw [e1, e2]
  rfl

/-! ## The properties -/

theorem sgn_abs (q : ℚ) : sgn q * |q| = q := by
  unfold sgn
  split
  · rename_i h; rw [abs_of_neg h]; ring
  · rename_i h; rw [abs_of_nonneg (not_lt.mp h)]; ring

theorem sgn_near {q a : ℚ} {e : ℚ} (h : |a - (|q|)| ≤ e) : |sgn q * a - q| ≤ e := by
  have : sgn q * a - q = sgn q * (a - |q|) := by rw [mul_sub, sgn_abs]
  rw [this, abs_mul]
  have : |sgn q| = 1 := by unfold sgn; split <;> norm_num
  rw [this, one_mul]; exact h

theorem rhe_cast {a : ℚ} (h : 0 ≤ a) : (((rhe a).toNat : ℕ) : ℚ) = (rhe a : ℚ) := by
  have := Int.toNat_of_nonneg (rhe_nonneg h)
  exact_mod_cast congrArg (fun z : ℤ => (z : ℚ)) this

theorem nonzero_of_den {q : ℚ} (h : q.den ≠ 1) : q ≠ 0 := by rintro rfl; exact h rfl

theorem scale_near {a s : ℚ} (hs : 0 < s) (ha : 0 ≤ a) : |((rhe (a * s)).toNat : ℚ) / s - a| ≤ 1 / (2 * s) := by
  rw [rhe_cast (mul_nonneg ha hs.le)]
  have h := rhe_near (a * s)
  have e : (rhe (a * s) : ℚ) / s - a = ((rhe (a * s) : ℚ) - a * s) / s := by field_simp
  rw [e, abs_div, abs_of_pos hs, div_le_iff₀ hs]
  calc _ ≤ 1 / 2 := h
    _ = _ := by field_simp

/-- **an integer constant keeps its value** -/
theorem integer_constant_kept (F : Fmt) (X : Exp10) (z : ℤ) (h : F.r z = z) :
    ∃ s, mkConstReal F X (.real (.fin z)) = .ok s ∧ valueOf F s = .ok (.fin z) := by
  refine ⟨_, rfl, ?_⟩
  rw [realText, if_pos (Rat.den_intCast z), Rat.num_intCast, value_int, h]

theorem fixed_range (F : Fmt) (X : Exp10) {q : ℚ} (hd : q.den ≠ 1) (h1 : 1 / 10 ^ 7 ≤ |q|) (h2 : |q| < 10 ^ 6) :
    valueOf F (realText X (.fin q)) = .ok (.fin (F.r (sgn q * ((rhe (|q| * 10 ^ 17)).toNat / 10 ^ 17)))) := by
  have hq := nonzero_of_den hd
  have l1 : -6 ≤ X.e q := by
    have := X.low q (-7) (by rw [zpow_neg]; norm_num at h1 ⊢; exact h1)
    omega
  have l2 : X.e q ≤ 6 := X.million q hq h2
  rw [realText, if_neg hd, if_pos ⟨l1, l2⟩, value_fixed_strip F q (by norm_num)]

/-- **between 10⁻⁷ and 10⁶ the value is rounded to 17 decimals** (and then to the precision) -/
theorem decimal_constant_near (F : Fmt) (X : Exp10) {q : ℚ} (hd : q.den ≠ 1) (h1 : 1 / 10 ^ 7 ≤ |q|) (h2 : |q| < 10 ^ 6) :
    ∃ s q', mkConstReal F X (.real (.fin q)) = .ok s ∧ valueOf F s = .ok (.fin (F.r q')) ∧ |q' - q| ≤ 1 / (2 * 10 ^ 17) :=
  ⟨_, _, rfl, fixed_range F X hd h1 h2, sgn_near (scale_near (by norm_num) (abs_nonneg q))⟩

/-- the digits of a number that has at most 17 of them -/
theorem digits_exact {a : ℚ} {m k : ℕ} (ha : 0 < a) (h : a = m / 10 ^ k) (hm : m < 10 ^ 17) :
    ∃ n : ℕ, n < 10 ^ 17 ∧ digits17 a = (Int.log 10 a, n) ∧ (n : ℚ) = a / 10 ^ (Int.log 10 a - 16) := by
  have hlog : Int.log 10 a < 17 - k := by
    refine (Int.lt_zpow_iff_log_lt (b := 10) (by norm_num) ha).mp ?_
    rw [zpow_sub₀ (by norm_num), h]
    have : (m : ℚ) < 10 ^ 17 := by exact_mod_cast hm
    have h10 : (0 : ℚ) < 10 ^ k := by positivity
    rw [show ((10 : ℕ) : ℚ) ^ (17 : ℤ) = 10 ^ 17 by norm_num, show ((10 : ℕ) : ℚ) ^ (k : ℤ) = 10 ^ k by norm_num]
    exact (div_lt_div_iff_of_pos_right h10).mpr this
  obtain ⟨j, hj⟩ := Int.eq_ofNat_of_zero_le (show 0 ≤ 16 - Int.log 10 a - k by omega)
  have hv : a / 10 ^ (Int.log 10 a - 16) = ((m * 10 ^ j : ℕ) : ℚ) := by
    rw [show Int.log 10 a - 16 = -((k + j : ℕ) : ℤ) by push_cast; omega, zpow_neg, div_inv_eq_mul, zpow_natCast, h, pow_add]
    push_cast
    field_simp
  have hlt : m * 10 ^ j < 10 ^ 17 := by
    have h1 := Int.lt_zpow_succ_log_self (b := 10) (by norm_num) a
    have h2 : a / 10 ^ (Int.log 10 a - 16) < 10 ^ 17 := by
      rw [div_lt_iff₀ (zpow_pos (by norm_num) _)]
      calc a < _ := h1
        _ = _ := by
          rw [show (10 : ℚ) ^ 17 = 10 ^ (17 : ℤ) by norm_num, ← zpow_add₀ (by norm_num)]
          push_cast
          congr 1; ring
    rw [hv] at h2
    exact_mod_cast h2
  refine ⟨m * 10 ^ j, hlt, ?_, hv.symm⟩
  have hr : (rhe (a / 10 ^ (Int.log 10 a - 16))).toNat = m * 10 ^ j := by
    rw [hv]
    have := rhe_int ((m * 10 ^ j : ℕ) : ℤ)
    rw [Int.cast_natCast] at this
    rw [this]; rfl
  unfold digits17
  rw [hr, if_neg (by omega)]

theorem large_range (F : Fmt) (X : Exp10) {q : ℚ} (hd : q.den ≠ 1) (h1 : 10 ^ 6 ≤ |q|) (h17 : (digits17 |q|).1 < 17) :
    valueOf F (realText X (.fin q)) = .ok (.fin (F.r (sgn q * ((digits17 |q|).2 / 10 ^ (16 - (digits17 |q|).1).toNat)))) := by
  have h0 : 0 < |q| := lt_of_lt_of_le (by norm_num) h1
  have l2 : 6 < X.e q := X.low q 6 (by exact_mod_cast h1)
  have hl : 6 ≤ Int.log 10 |q| := (Int.zpow_le_iff_le_log (b := 10) (by norm_num) h0).mp (by exact_mod_cast h1)
  have hl' : Int.log 10 |q| ≤ (digits17 |q|).1 := by unfold digits17; split <;> simp
  rw [realText, if_neg hd, if_neg (by omega), general, if_pos ⟨by omega, h17⟩]
  by_cases hz : (16 - (digits17 |q|).1).toNat = 0
  · rw [if_pos hz, hz, value_digits F q (dec_isDigit _) (dec_ne_nil _), undec_dec]
    norm_num
  · rw [if_neg hz, value_fixed_strip F q (by omega)]

/-- the 17 digits with their exponent are the number rounded to the unit of its 17th digit -/
theorem digits_near {a : ℚ} (ha : 0 < a) :
    |((digits17 a).2 : ℚ) * 10 ^ ((digits17 a).1 - 16) - a| ≤ a / (2 * 10 ^ 16) := by
  have hu : (0 : ℚ) < 10 ^ (Int.log 10 a - 16) := zpow_pos (by norm_num) _
  have h0 : 0 ≤ a / 10 ^ (Int.log 10 a - 16) := by positivity
  have e : ((digits17 a).2 : ℚ) * 10 ^ ((digits17 a).1 - 16) = (rhe (a / 10 ^ (Int.log 10 a - 16)) : ℚ) * 10 ^ (Int.log 10 a - 16) := by
    rw [← rhe_cast h0]
    unfold digits17
    split
    · rename_i h
      rw [h]
      push_cast
      rw [show Int.log 10 a + 1 - 16 = (Int.log 10 a - 16) + 1 by ring, zpow_add₀ (by norm_num), zpow_one]
      ring
    · rfl
  rw [e]
  have hn := rhe_near (a / 10 ^ (Int.log 10 a - 16))
  have hl := Int.zpow_log_le_self (b := 10) (by norm_num) ha
  have hk : (10 : ℚ) ^ (Int.log 10 a - 16) ≤ a / 10 ^ 16 := by
    rw [zpow_sub₀ (by norm_num)]
    exact (div_le_div_iff_of_pos_right (by norm_num)).mpr (by exact_mod_cast hl)
  have e2 : (rhe (a / 10 ^ (Int.log 10 a - 16)) : ℚ) * 10 ^ (Int.log 10 a - 16) - a =
      (rhe (a / 10 ^ (Int.log 10 a - 16)) - a / 10 ^ (Int.log 10 a - 16)) * 10 ^ (Int.log 10 a - 16) := by
    rw [sub_mul, div_mul_cancel₀ _ (ne_of_gt hu)]
  rw [e2, abs_mul, abs_of_pos hu]
  calc _ ≤ 1 / 2 * (a / 10 ^ 16) := mul_le_mul hn hk hu.le (by norm_num)
    _ = _ := by ring

theorem digits_below {a : ℚ} (h1 : 10 ^ 6 ≤ a) (h2 : a < 10 ^ 17 - 1 / 2) : (digits17 a).1 < 17 := by
  have ha : 0 < a := lt_of_lt_of_le (by norm_num) h1
  have hl : Int.log 10 a < 17 := (Int.lt_zpow_iff_log_lt (b := 10) (by norm_num) ha).mp (by norm_num at h2 ⊢; linarith)
  unfold digits17
  split
  · rename_i h
    by_contra hc
    have hlog : Int.log 10 a = 16 := by simp only at hc; omega
    rw [hlog] at h
    norm_num at h
    have h3 := rhe_near a
    have h4 := rhe_cast ha.le
    rw [h] at h4
    rw [← h4, abs_le] at h3
    push_cast at h3
    norm_num at h2 h3
    linarith [h3.2]
  · exact hl

/-- **a real of at least 10⁶ is rounded to 17 significant digits**, as long as that is below 10¹⁷ -/
theorem large_constant_near (F : Fmt) (X : Exp10) {q : ℚ} (hd : q.den ≠ 1) (h1 : 10 ^ 6 ≤ |q|) (h2 : |q| < 10 ^ 17 - 1 / 2) :
    ∃ s q', mkConstReal F X (.real (.fin q)) = .ok s ∧ valueOf F s = .ok (.fin (F.r q')) ∧ |q' - q| ≤ |q| / (2 * 10 ^ 16) := by
  have h17 := digits_below h1 h2
  have ha : 0 < |q| := lt_of_lt_of_le (by norm_num) h1
  refine ⟨_, _, rfl, large_range F X hd h1 h17, sgn_near ?_⟩
  have e : ((digits17 |q|).2 : ℚ) / 10 ^ (16 - (digits17 |q|).1).toNat = (digits17 |q|).2 * 10 ^ ((digits17 |q|).1 - 16) := by
    rw [← zpow_natCast, Int.toNat_of_nonneg (by omega), div_eq_mul_inv, ← zpow_neg]
    congr 2; ring
  rw [e]
  exact digits_near ha

/-- **a decimal is kept** if it fits the precision and it has at most 17 decimals, between 10⁻⁷ and 10⁶, or at most 17 digits, above.
The claim for all representable numbers is false (`small_constant_lost_violated`, `large_constant_lost_violated`). -/
theorem real_constant_kept_partial (F : Fmt) (X : Exp10) (q : ℚ) (hr : F.r q = q)
    (h : q.den = 1 ∨ (1 / 10 ^ 7 ≤ |q| ∧ |q| < 10 ^ 6 ∧ ∃ m : ℤ, q * 10 ^ 17 = m) ∨
      (10 ^ 6 ≤ |q| ∧ ∃ m k : ℕ, m < 10 ^ 17 ∧ |q| = m / 10 ^ k)) :
    ∃ s, mkConstReal F X (.real (.fin q)) = .ok s ∧ valueOf F s = .ok (.fin q) := by
  by_cases hd : q.den = 1
  · have hq : ((q.num : ℤ) : ℚ) = q := Rat.coe_int_num_of_den_eq_one hd
    have := integer_constant_kept F X q.num (by rw [hq]; exact hr)
    rw [hq] at this; exact this
  · refine ⟨_, rfl, ?_⟩
    rcases h with h | ⟨h1, h2, m, hm⟩ | ⟨h1, m, k, hm, hk⟩
    · exact absurd h hd
    · rw [fixed_range F X hd h1 h2]
      have e : (((rhe (|q| * 10 ^ 17)).toNat : ℕ) : ℚ) = |q| * 10 ^ 17 := by
        rw [rhe_cast (by positivity)]
        have : |q| * 10 ^ 17 = ((|m| : ℤ) : ℚ) := by
          rw [Int.cast_abs, ← hm, abs_mul, abs_of_pos (show (0 : ℚ) < 10 ^ 17 by norm_num)]
        rw [this, rhe_int]
      rw [e, mul_div_assoc, div_self (by norm_num), mul_one, sgn_abs, hr]
    · have h0 : 0 < |q| := lt_of_lt_of_le (by norm_num) h1
      obtain ⟨n, hn, hdg, hv⟩ := digits_exact h0 hk hm
      have hL : Int.log 10 |q| < 17 := by
        refine (Int.lt_zpow_iff_log_lt (b := 10) (by norm_num) h0).mp ?_
        rw [hk]
        have : (m : ℚ) < 10 ^ 17 := by exact_mod_cast hm
        have h10 : (1 : ℚ) ≤ 10 ^ k := one_le_pow₀ (by norm_num)
        calc (m : ℚ) / 10 ^ k ≤ m := div_le_self (by positivity) h10
          _ < 10 ^ 17 := this
          _ = _ := by norm_num
      rw [large_range F X hd h1 (by rw [hdg]; exact hL), hdg]
      dsimp only
      have e : (n : ℚ) / 10 ^ (16 - Int.log 10 |q|).toNat = |q| := by
        rw [hv, ← zpow_natCast, Int.toNat_of_nonneg (by omega), div_div, ← zpow_add₀ (by norm_num)]
        rw [show Int.log 10 |q| - 16 + (16 - Int.log 10 |q|) = 0 by ring, zpow_zero, div_one]
      rw [e, sgn_abs, hr]

/-! ## Values that are lost -/

theorem scientific (F : Fmt) (X : Exp10) {q : ℚ} (hd : q.den ≠ 1) (hx : X.e q < -6 ∨ 6 < X.e q)
    (h : (digits17 |q|).1 < -4 ∨ 17 ≤ (digits17 |q|).1) : valueOf F (realText X (.fin q)) = .ok (.fin 0) := by
  rw [realText, if_neg hd, if_neg (by omega), general, if_neg (by omega)]
  refine value_letter F (c := 'e') ?_ rfl (by decide) (by decide) (by decide)
  unfold signed
  split <;> simp

/-- a nonzero constant below 10⁻⁸ is read as zero -/
theorem small_constant_lost_violated (F : Fmt) (X : Exp10) {q : ℚ} (h0 : q ≠ 0) (h : |q| < 1 / 10 ^ 8) :
    ∃ s, mkConstReal F X (.real (.fin q)) = .ok s ∧ valueOf F s = .ok (.fin 0) := by
  refine ⟨_, rfl, ?_⟩
  have ha : 0 < |q| := abs_pos.mpr h0
  have hd : q.den ≠ 1 := by
    intro hd
    have hq : ((q.num : ℤ) : ℚ) = q := Rat.coe_int_num_of_den_eq_one hd
    have hn : q.num ≠ 0 := by intro h; rw [h] at hq; exact h0 hq.symm
    have : (1 : ℚ) ≤ |q| := by
      rw [← hq]
      exact_mod_cast Int.one_le_abs hn
    have : (1 : ℚ) < 1 / 10 ^ 8 := lt_of_le_of_lt this h
    norm_num at this
  have h' : |q| < (10 : ℚ) ^ (-8 : ℤ) := by rw [zpow_neg]; norm_num at h ⊢; exact h
  have hl : Int.log 10 |q| < -8 := (Int.lt_zpow_iff_log_lt (b := 10) (by norm_num) ha).mp (by exact_mod_cast h')
  have hl' : (digits17 |q|).1 ≤ Int.log 10 |q| + 1 := by unfold digits17; split <;> simp
  exact scientific F X hd (.inl (by have := X.high q _ h0 h'; omega)) (.inl (by omega))

/-- a constant from 10¹⁷ - ½ that is not an integer is read as zero -/
theorem large_constant_lost_violated (F : Fmt) (X : Exp10) {q : ℚ} (hd : q.den ≠ 1) (h : 10 ^ 17 - 1 / 2 ≤ |q|) :
    ∃ s, mkConstReal F X (.real (.fin q)) = .ok s ∧ valueOf F s = .ok (.fin 0) := by
  refine ⟨_, rfl, ?_⟩
  have ha : 0 < |q| := lt_of_lt_of_le (by norm_num) h
  have hx := X.low q 16 (le_trans (by norm_num) h)
  have hl : 16 ≤ Int.log 10 |q| := (Int.zpow_le_iff_le_log (b := 10) (by norm_num) ha).mp (le_trans (by norm_num) h)
  have hl' : Int.log 10 |q| ≤ (digits17 |q|).1 := by unfold digits17; split <;> simp
  refine scientific F X hd (.inr (by omega)) (.inr ?_)
  by_cases hL : Int.log 10 |q| = 16
  · have hlt : |q| < 10 ^ 17 := by
      have := Int.lt_zpow_succ_log_self (b := 10) (by norm_num) |q|
      rw [hL] at this
      norm_num at this ⊢
      exact this
    have hf : ⌊|q|⌋ = 10 ^ 17 - 1 := by
      rw [Int.floor_eq_iff]
      norm_num at h hlt ⊢
      constructor <;> linarith
    have hr : rhe |q| = 10 ^ 17 := by
      unfold rhe
      rw [hf]
      rw [if_neg (by push_cast; norm_num at h ⊢; linarith)]
      split
      · norm_num
      · norm_num
    unfold digits17
    rw [hL]
    rw [show (16 : ℤ) - 16 = 0 by ring, zpow_zero, div_one, hr, if_pos (by decide)]
    decide
  · omega

/-- infinities and NaN are read as zero -/
theorem special_constant_lost_violated (F : Fmt) (X : Exp10) (x : XR) (h : x = .nan ∨ x = .pinf ∨ x = .ninf) :
    ∃ s, mkConstReal F X (.real x) = .ok s ∧ valueOf F s = .ok (.fin 0) := by
  refine ⟨_, rfl, ?_⟩
  rcases h with rfl | rfl | rfl
  · exact value_letter F (c := 'N') (by simp [realText]) rfl (by decide) (by decide) (by decide)
  · exact value_letter F (c := 'i') (by simp [realText]) rfl (by decide) (by decide) (by decide)
  · exact value_letter F (c := 'i') (by simp [realText]) rfl (by decide) (by decide) (by decide)

/-- a folded product of two constants can be read as zero although neither is zero: then it is equal to zero -/
theorem product_lost_violated (F : Fmt) (X : Exp10) (op : XR → XR → XR) {l r : List Char} {x y : XR} {q : ℚ}
    (hl : valueOf F l = .ok x) (hr : valueOf F r = .ok y) (hq : op x y = .fin q) (h0 : q ≠ 0) (h : |q| < 1 / 10 ^ 8)
    (hz : F.r 0 = 0) :
    ∃ s, foldReal F X op l r = .ok s ∧ foldEq F s ['0', '.', '0'] = .ok true := by
  obtain ⟨s, hs, hv⟩ := small_constant_lost_violated F X h0 h
  cases hs
  refine ⟨_, by rw [foldReal, hl, hr]; show Res.ok (realText X (op x y)) = _; rw [hq], ?_⟩
  have h00 : valueOf F ['0', '.', '0'] = .ok (.fin 0) := by
    have := value_point F 0 (a := ['0']) (b := ['0']) (by decide) (by decide) (by decide)
    have e : undec (['0'] ++ ['0']) = 0 := rfl
    rw [e] at this
    simpa [signed, hz] using this
  rw [foldEq, hv, h00]
  show Res.ok (XR.eq (.fin 0) (.fin 0)) = _
  simp [XR.eq]

/-! ## Doubles, integers, numbers and texts -/

/-- **a double is rounded to six decimals** -/
theorem double_constant_near (F : Fmt) (X : Exp10) (q : ℚ) :
    ∃ s q', mkConstReal F X (.dbl q) = .ok s ∧ valueOf F s = .ok (.fin (F.r q')) ∧ |q' - q| ≤ 1 / (2 * 10 ^ 6) ∧
      ((∃ m : ℤ, q * 10 ^ 6 = m) → q' = q) := by
  refine ⟨_, _, rfl, value_fixed F q (by norm_num) _, sgn_near (scale_near (by norm_num) (abs_nonneg q)), ?_⟩
  rintro ⟨m, hm⟩
  have : |q| * 10 ^ 6 = ((|m| : ℤ) : ℚ) := by
    rw [Int.cast_abs, ← hm, abs_mul, abs_of_pos (show (0 : ℚ) < 10 ^ 6 by norm_num)]
  rw [rhe_cast (by positivity), this, rhe_int, ← this, mul_div_assoc, div_self (by norm_num), mul_one, sgn_abs]

/-- a double below 5·10⁻⁷ is read as zero -/
theorem double_constant_lost_violated (F : Fmt) (X : Exp10) (q : ℚ) (h : |q| < 5 / 10 ^ 7) (hz : F.r 0 = 0) :
    ∃ s, mkConstReal F X (.dbl q) = .ok s ∧ valueOf F s = .ok (.fin 0) := by
  refine ⟨_, rfl, ?_⟩
  rw [doubleText, value_fixed F q (by norm_num), rhe_small (by positivity) (by rw [← lt_div_iff₀ (by norm_num)]; norm_num at h ⊢; exact h)]
  simp [hz]

/-- **an integer made real keeps its value**, up to the precision -/
theorem integer_source_kept (F : Fmt) (X : Exp10) (z : ℤ) :
    ∃ s, mkConstReal F X (.int z) = .ok s ∧ valueOf F s = .ok (.fin (F.r z)) := ⟨_, rfl, value_int F z⟩

/-- **an integer `Number` made real keeps its value** if it fits the precision -/
theorem number_source_kept (F : Fmt) (X : Exp10) (z : ℤ) (h : F.r z = z) :
    ∃ s, mkConstReal F X (.num (.int z)) = .ok s ∧ valueOf F s = .ok (.fin z) := by
  obtain ⟨s, h1, h2⟩ := integer_constant_kept F X z h
  refine ⟨s, ?_, h2⟩
  rw [← h1]
  show Res.ok (realText X (.fin (F.r z))) = _
  rw [h]; rfl

/-- **a decimal text keeps its value**, up to the precision: digits, a point, digits and an optional sign -/
theorem text_source_kept (F : Fmt) (X : Exp10) (neg : Bool) {a b : List Char} (ha : ∀ c ∈ a, c.isDigit = true) (hn : a ≠ [])
    (hb : ∀ c ∈ b, c.isDigit = true) :
    ∃ s, mkConstReal F X (.str (signed (if neg then -1 else 1) (a ++ '.' :: b))) = .ok s ∧
      valueOf F s = .ok (.fin (F.r ((if neg then -1 else 1) * ((undec (a ++ b) : ℚ) / 10 ^ b.length)))) := by
  have hv := value_point F (if neg then -1 else 1) ha hn hb
  have hs : sgn (if neg then -1 else 1) = (if neg then -1 else 1) := by cases neg <;> (unfold sgn; norm_num)
  rw [hs] at hv
  refine ⟨_, ?_, hv⟩
  have : isReal (signed (if neg then -1 else 1) (a ++ '.' :: b)) = true := by
    obtain ⟨c, s, rfl, hc⟩ := head_digit ha hn
    have hm : ¬ (c = '-' ∨ c = '+') := by rintro (rfl | rfl) <;> exact absurd hc (by decide)
    cases neg
    · rw [signed, if_neg (by norm_num), List.cons_append, isReal, if_neg hm]; exact realGo_point (a := c :: s) ha hb
    · rw [signed, if_pos (by norm_num), isReal, if_pos (.inl rfl)]; exact realGo_point ha hb
  rw [mkConstReal, if_pos this]

/-- **a text that is not a decimal is refused** -/
theorem bad_text_refused (F : Fmt) (X : Exp10) (s : List Char) (h : isReal s = false) : mkConstReal F X (.str s) = .abort := by
  rw [mkConstReal, if_neg (by rw [h]; simp)]

/-! ## Examples -/

/-- 3.25 is kept, as is -0.0000001 -/
example : ∃ s, mkConstReal exact Exp10.plain (.real (.fin (13 / 4))) = .ok s ∧ valueOf exact s = .ok (.fin (13 / 4)) :=
  real_constant_kept_partial exact Exp10.plain _ rfl
    (.inr (.inl ⟨by rw [abs_of_pos] <;> norm_num, by rw [abs_of_pos] <;> norm_num, 325000000000000000, by norm_num⟩))
example : ∃ s, mkConstReal exact Exp10.plain (.real (.fin (-1 / 10 ^ 7))) = .ok s ∧ valueOf exact s = .ok (.fin (-1 / 10 ^ 7)) :=
  real_constant_kept_partial exact Exp10.plain _ rfl
    (.inr (.inl ⟨by rw [abs_of_neg] <;> norm_num, by rw [abs_of_neg] <;> norm_num, -10000000000, by norm_num⟩))
/-- 123456789.5 has ten digits -/
example : ∃ s, mkConstReal exact Exp10.plain (.real (.fin (246913579 / 2))) = .ok s ∧ valueOf exact s = .ok (.fin (246913579 / 2)) :=
  real_constant_kept_partial exact Exp10.plain _ rfl
    (.inr (.inr ⟨by rw [abs_of_pos] <;> norm_num, 1234567895, 1, by norm_num, by rw [abs_of_pos] <;> norm_num⟩))
/-- 10⁻⁹ is lost -/
example : ∃ s, mkConstReal exact Exp10.plain (.real (.fin (1 / 10 ^ 9))) = .ok s ∧ valueOf exact s = .ok (.fin 0) :=
  small_constant_lost_violated exact Exp10.plain (by norm_num) (by rw [abs_of_pos] <;> norm_num)
/-- 10000000 - 10⁻¹³ needs 20 digits; they are rounded up to 10000000 -/
example : ∃ s q', mkConstReal exact Exp10.plain (.real (.fin (10 ^ 7 - 1 / 10 ^ 13))) = .ok s ∧ valueOf exact s = .ok (.fin (exact.r q')) ∧
    |q' - (10 ^ 7 - 1 / 10 ^ 13)| ≤ |(10 ^ 7 - 1 / 10 ^ 13 : ℚ)| / (2 * 10 ^ 16) :=
  large_constant_near exact Exp10.plain (by decide +kernel) (by rw [abs_of_pos] <;> norm_num) (by rw [abs_of_pos] <;> norm_num)
/-- 10¹⁷ + 1/2 is lost -/
example : ∃ s, mkConstReal exact Exp10.plain (.real (.fin (10 ^ 17 + 1 / 2))) = .ok s ∧ valueOf exact s = .ok (.fin 0) :=
  large_constant_lost_violated exact Exp10.plain (by decide +kernel) (by rw [abs_of_pos] <;> norm_num)
/-- 0.0000001 squared is equal to zero -/
example : ∃ s, foldReal exact Exp10.plain (XR.mul exact) cs!"0.0000001" cs!"0.0000001" = .ok s ∧ foldEq exact s ['0', '.', '0'] = .ok true := by
  have h : valueOf exact cs!"0.0000001" = .ok (.fin (1 / 10 ^ 7)) := by
    have := value_point exact 0 (a := ['0']) (b := cs!"0000001") (by decide) (by decide) (by decide)
    have e : undec (['0'] ++ cs!"0000001") = 1 := by decide
    rw [e] at this
    simpa [signed, sgn, exact] using this
  exact product_lost_violated exact Exp10.plain (XR.mul exact) (q := 1 / 10 ^ 14) h h (by simp [XR.mul, exact]; norm_num) (by norm_num)
    (by rw [abs_of_pos] <;> norm_num) rfl
/-- the double 0.5 is kept, 10⁻⁷ is not -/
example : ∃ s, mkConstReal exact Exp10.plain (.dbl (1 / 10 ^ 7)) = .ok s ∧ valueOf exact s = .ok (.fin 0) :=
  double_constant_lost_violated exact Exp10.plain _ (by rw [abs_of_pos] <;> norm_num) rfl

end SMT.RealText
