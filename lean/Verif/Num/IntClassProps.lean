import Verif.Num.IntClass
import Mathlib.Tactic.Linarith
import Mathlib.Tactic.Positivity
import Mathlib.Tactic.Ring

/-!
# C78: what the integer class computes

Factorials and Fibonacci numbers, conversion to machine integers, roots, division, text in every base, and integers from reals.
-/

namespace SMT.Num.IntClass
open SMT SMT.Num

set_option linter.unusedSimpArgs false
set_option linter.unusedVariables false

/-! ## Specification -/

/-- the value of a list of digits, the most significant first -/
def placeValue (b : ℕ) (ds : List ℕ) : ℕ := ds.foldl (fun a d => a * b + d) 0

/-- `m` is a nearest integer of `q`, the even one when there are two -/
def Nearest (q : ℚ) (m : ℤ) : Prop := |q - m| ≤ 1 / 2 ∧ (|q - m| = 1 / 2 → m % 2 = 0)

/-! ## Factorials and Fibonacci numbers -/

theorem factRun_eq (n : ℕ) (hn : n + 1 < 2 ^ 64) : ∀ (k i : ℕ), 1 ≤ i → i ≤ n + 1 → n + 2 - i ≤ k →
    factRun n k i (((i - 1).factorial : ℕ) : ℤ) = .ok ((n.factorial : ℕ) : ℤ)
  | 0, i, _, h2, h3 => by omega
  | k + 1, i, h1, h2, h3 => by
    rw [factRun]
    by_cases hi : i ≤ n
    · have hs : succU i = i + 1 := by unfold succU; exact Nat.mod_eq_of_lt (by omega)
      have hf : (((i - 1).factorial : ℕ) : ℤ) * (i : ℤ) = ((((i + 1) - 1).factorial : ℕ) : ℤ) := by
        obtain ⟨j, rfl⟩ : ∃ j, i = j + 1 := ⟨i - 1, by omega⟩
        simp only [Nat.add_sub_cancel, Nat.factorial_succ]; push_cast; ring
      rw [if_pos hi, hs, hf]
      exact factRun_eq n hn k (i + 1) (by omega) (by omega) (by omega)
    · rw [if_neg hi]
      obtain rfl : i = n + 1 := by omega
      simp

/-- **C78 (factorial).**  For every argument below the largest `unsigned long`, `factorial(n)` ends, after at most `n` rounds, with `n!`. -/
theorem factorial_exact (n k : ℕ) (hn : n < 2 ^ 64 - 1) (hk : n < k) : factorial k n = .ok ((n.factorial : ℕ) : ℤ) := by
  unfold factorial
  rcases Nat.lt_or_ge n 2 with h | h
  · obtain ⟨k, rfl⟩ : ∃ j, k = j + 1 := ⟨k - 1, by omega⟩
    rw [factRun, if_neg (by omega)]
    rcases Nat.eq_zero_or_pos n with rfl | h0
    · simp
    · obtain rfl : n = 1 := by omega
      simp
  · exact factRun_eq n (by omega) k 2 (by omega) (by omega) (by omega)

theorem factRun_forever : ∀ (k i : ℕ) (r : ℤ), i < 2 ^ 64 → factRun (2 ^ 64 - 1) k i r = .diverge
  | 0, _, _, _ => rfl
  | k + 1, i, r, h => by
    rw [factRun, if_pos (by omega)]
    exact factRun_forever k _ _ (Nat.mod_lt _ (by decide))

/-- **C78 (factorial, fails).**  For the largest `unsigned long` the loop never ends: its counter wraps. -/
theorem factorial_violated (k : ℕ) : factorial k (2 ^ 64 - 1) = .diverge := factRun_forever k 2 1 (by decide)

theorem fibRun_eq (n : ℕ) (hn : n + 1 < 2 ^ 64) : ∀ (k i : ℕ), 2 ≤ i → i ≤ n + 1 → n + 2 - i ≤ k →
    fibRun n k i ((Nat.fib (i - 2) : ℕ) : ℤ) ((Nat.fib (i - 1) : ℕ) : ℤ) = .ok ((Nat.fib n : ℕ) : ℤ)
  | 0, i, _, h2, h3 => by omega
  | k + 1, i, h1, h2, h3 => by
    rw [fibRun]
    by_cases hi : i ≤ n
    · have hs : succU i = i + 1 := by unfold succU; exact Nat.mod_eq_of_lt (by omega)
      have hf : ((Nat.fib (i - 2) : ℕ) : ℤ) + ((Nat.fib (i - 1) : ℕ) : ℤ) = ((Nat.fib ((i + 1) - 1) : ℕ) : ℤ) := by
        obtain ⟨j, rfl⟩ : ∃ j, i = j + 2 := ⟨i - 2, by omega⟩
        simp only [Nat.add_sub_cancel, show j + 2 - 1 = j + 1 by omega, Nat.fib_add_two]; push_cast; ring
      rw [if_pos hi, hs, hf]
      exact fibRun_eq n hn k (i + 1) (by omega) (by omega) (by omega)
    · rw [if_neg hi]
      obtain rfl : i = n + 1 := by omega
      simp

/-- **C78 (Fibonacci).**  For every argument below the largest `unsigned long`, `fibonacci(n)` ends with the `n`-th Fibonacci number. -/
theorem fibonacci_exact (n k : ℕ) (hn : n < 2 ^ 64 - 1) (hk : n < k) : fibonacci k n = .ok ((Nat.fib n : ℕ) : ℤ) := by
  unfold fibonacci
  by_cases h : n ≤ 1
  · rw [if_pos h]
    rcases Nat.eq_zero_or_pos n with rfl | h0
    · simp
    · obtain rfl : n = 1 := by omega
      simp
  · rw [if_neg h]
    exact fibRun_eq n (by omega) k 2 (by omega) (by omega) (by omega)

theorem fibRun_forever : ∀ (k i : ℕ) (a b : ℤ), i < 2 ^ 64 → fibRun (2 ^ 64 - 1) k i a b = .diverge
  | 0, _, _, _, _ => rfl
  | k + 1, i, a, b, h => by
    rw [fibRun, if_pos (by omega)]
    exact fibRun_forever k _ _ _ (Nat.mod_lt _ (by decide))

/-- **C78 (Fibonacci, fails).** -/
theorem fibonacci_violated (k : ℕ) : fibonacci k (2 ^ 64 - 1) = .diverge := by
  unfold fibonacci
  rw [if_neg (by decide)]
  exact fibRun_forever k 2 0 1 (by decide)

example : factorial 30 20 = .ok 2432902008176640000 := by
  rw [factorial_exact 20 30 (by decide) (by decide)]; norm_num [Nat.factorial]
example : fibonacci 100 90 = .ok 2880067194370816120 := by decide +kernel

/-! ## Machine integers -/

theorem getSi_fits {z : ℤ} (h : -2 ^ 63 ≤ z ∧ z < 2 ^ 63) : getSi z = z := if_pos h

theorem wrapInt_fits {z : ℤ} (h1 : -2 ^ 31 ≤ z) (h2 : z < 2 ^ 31) : wrapInt z = z := by unfold wrapInt; omega

/-- **C78 (machine integers).**  Each conversion returns the value itself when it is in the range of the type, and throws otherwise. -/
theorem toInt_exact (z : ℤ) : toInt z = if -2 ^ 31 ≤ z ∧ z < 2 ^ 31 then .ok z else .throw := by
  unfold toInt
  by_cases h : -2 ^ 31 ≤ z ∧ z < 2 ^ 31
  · rw [if_neg (by omega), if_pos h, getSi_fits (by omega), wrapInt_fits h.1 h.2]
  · rw [if_pos (by omega), if_neg h]

theorem toLong_exact (z : ℤ) : toLong z = if -2 ^ 63 ≤ z ∧ z < 2 ^ 63 then .ok z else .throw := by
  unfold toLong
  by_cases h : -2 ^ 63 ≤ z ∧ z < 2 ^ 63
  · rw [if_neg (by simpa using h), if_pos h, getSi_fits h]
  · rw [if_pos h, if_neg h]

theorem toULong_exact (z : ℤ) : toULong z = if 0 ≤ z ∧ z < 2 ^ 64 then .ok z else .throw := by
  unfold toULong
  by_cases h : 0 ≤ z ∧ z < 2 ^ 64
  · rw [if_neg (by omega), if_pos h]
    congr 1; omega
  · rw [if_pos (Or.inr h), if_neg h]

theorem toLongLong_exact (z : ℤ) : toLongLong z = if -2 ^ 63 ≤ z ∧ z < 2 ^ 63 then .ok z else .throw := by
  unfold toLongLong stollOf
  by_cases h : -2 ^ 63 ≤ z ∧ z < 2 ^ 63
  · rw [if_pos h, if_pos h, getSi_fits h]
  · rw [if_neg h, if_neg h]

example : toInt (2 ^ 31) = .throw ∧ toInt (-2 ^ 31) = .ok (-2147483648) ∧ toULong (-1) = .throw ∧ toLong (2 ^ 63) = .throw := by
  decide +kernel

/-! ## Roots and division -/

/-- **C78 (square root).**  `sqrt` throws exactly on negative values and otherwise gives the root rounded down; `safeSqrt` gives 0 there. -/
theorem sqrt_exact (z : ℤ) : (z < 0 → sqrt z = .throw ∧ safeSqrt z = 0) ∧
    (0 ≤ z → ∃ r : ℤ, sqrt z = .ok r ∧ safeSqrt z = r ∧ 0 ≤ r ∧ r ^ 2 ≤ z ∧ z < (r + 1) ^ 2) := by
  unfold sqrt safeSqrt
  constructor
  · intro h; simp [h]
  · intro h
    refine ⟨((Nat.sqrt z.natAbs : ℕ) : ℤ), by rw [if_neg (by omega)], by rw [if_neg (by omega)], by omega, ?_, ?_⟩
    · have := Nat.sqrt_le' z.natAbs
      have h2 : ((Nat.sqrt z.natAbs ^ 2 : ℕ) : ℤ) ≤ (z.natAbs : ℤ) := by exact_mod_cast this
      push_cast at h2; rw [abs_of_nonneg h] at h2; exact h2
    · have := Nat.lt_succ_sqrt' z.natAbs
      have h2 : (z.natAbs : ℤ) < (((Nat.sqrt z.natAbs).succ ^ 2 : ℕ) : ℤ) := by exact_mod_cast this
      push_cast at h2; rw [abs_of_nonneg h] at h2; exact h2

/-- **C78 (roots).**  `root(n)` throws exactly for `n = 0` and for even roots of negative values; otherwise the absolute value of the result
is the root of the absolute value rounded down, and the result is not of the other sign. -/
theorem root_exact (z : ℤ) (n : ℕ) : (root z n = .throw ↔ n = 0 ∨ (z < 0 ∧ n % 2 = 0)) ∧
    (∀ r, root z n = .ok r → |r| ^ n ≤ |z| ∧ |z| < (|r| + 1) ^ n ∧ 0 ≤ r * z.sign) := by
  unfold root
  constructor
  · by_cases h1 : n = 0
    · simp [h1]
    · by_cases h2 : z < 0 ∧ n % 2 = 0
      · simp [h1, h2]
      · rw [if_neg h1, if_neg h2]
        exact ⟨fun h => by simp at h, fun h => absurd h (by omega)⟩
  · intro r h
    split_ifs at h with h1 h2
    obtain rfl : rootZ z n = r := by simpa using h
    unfold rootZ
    set P : ℕ → Prop := fun r => r ^ n ≤ z.natAbs with hP
    set g := Nat.findGreatest (fun r => r ^ n ≤ z.natAbs) z.natAbs with hg
    rcases eq_or_ne z 0 with rfl | hz
    · simp [h1]
    have hs : |z.sign| = 1 := by
      rcases lt_or_gt_of_ne hz with h | h
      · rw [Int.sign_eq_neg_one_of_neg h]; rfl
      · rw [Int.sign_eq_one_of_pos h]; rfl
    have hr : |z.sign * (g : ℤ)| = (g : ℤ) := by rw [abs_mul, hs, one_mul]; simp
    have h0 : g ^ n ≤ z.natAbs := by
      refine Nat.findGreatest_spec (P := fun r => r ^ n ≤ z.natAbs) (m := 0) (Nat.zero_le _) ?_
      show 0 ^ n ≤ z.natAbs
      rw [Nat.zero_pow (by omega)]; omega
    have h3 : z.natAbs < (g + 1) ^ n := by
      by_contra hc
      have hc' : (g + 1) ^ n ≤ z.natAbs := by omega
      have hle : g + 1 ≤ z.natAbs := (Nat.le_self_pow h1 _).trans hc'
      have := Nat.le_findGreatest (P := fun r => r ^ n ≤ z.natAbs) hle hc'
      omega
    rw [hr]
    refine ⟨?_, ?_, ?_⟩
    · have : ((g ^ n : ℕ) : ℤ) ≤ (z.natAbs : ℤ) := by exact_mod_cast h0
      push_cast at this; exact this
    · have : (z.natAbs : ℤ) < (((g + 1) ^ n : ℕ) : ℤ) := by exact_mod_cast h3
      push_cast at this; exact this
    · have : 0 ≤ z.sign * z.sign := mul_self_nonneg _
      calc (0 : ℤ) ≤ (z.sign * z.sign) * g := by positivity
        _ = z.sign * g * z.sign := by ring

/-- **C78 (division).**  Division by zero throws; otherwise quotient and remainder belong together, the remainder is smaller than the divisor and
of the sign of the dividend. -/
theorem div_mod_exact (a b : ℤ) : (b = 0 → div a b = .throw ∧ mod a b = .throw ∧ isDivisibleBy a b = .throw) ∧
    (b ≠ 0 → ∃ q r, div a b = .ok q ∧ mod a b = .ok r ∧ a = q * b + r ∧ |r| < |b| ∧ (0 < a → 0 ≤ r) ∧ (a < 0 → r ≤ 0) ∧
      isDivisibleBy a b = .ok (decide (r = 0))) := by
  unfold div mod isDivisibleBy
  constructor
  · rintro rfl; simp
  · intro hb
    refine ⟨a.tdiv b, a.tmod b, by simp [hb], by simp [hb], ?_, ?_, ?_, ?_, ?_⟩
    · have := Int.mul_tdiv_add_tmod a b
      rw [mul_comm] at this; exact this.symm
    · have h1 := Int.natAbs_tmod a b
      have h2 : a.natAbs % b.natAbs < b.natAbs := Nat.mod_lt _ (by omega)
      rw [Int.abs_eq_natAbs, Int.abs_eq_natAbs, h1]; exact_mod_cast h2
    · intro h; exact Int.tmod_nonneg _ h.le
    · intro h
      have := Int.tmod_nonneg (a := -a) b (by omega)
      rw [Int.neg_tmod] at this; omega
    · rw [if_neg hb]
      congr 1
      exact decide_eq_decide.2 ⟨Int.tmod_eq_zero_of_dvd, Int.dvd_of_tmod_eq_zero⟩

example : root (-28) 3 = .ok (-3) ∧ root (-28) 2 = .throw ∧ div (-7) 2 = .ok (-3) ∧ mod (-7) 2 = .ok (-1) := by decide +kernel

/-! ## Text -/

theorem digit_facts : ∀ b < 63, ∀ d < b, digitVal b (digitChar b d) = d ∧ isSpace (digitChar b d) = false ∧ digitChar b d ≠ '-' := by
  decide +kernel

theorem ofDigits_place (b : ℕ) (ds : List ℕ) : Nat.ofDigits b ds.reverse = placeValue b ds := by
  have : ∀ (ds : List ℕ) (a : ℕ), ds.foldl (fun a d => a * b + d) a = Nat.ofDigits b ds.reverse + b ^ ds.length * a := by
    intro ds
    induction ds with
    | nil => intro a; simp
    | cons d ds ih =>
      intro a
      simp only [List.foldl_cons, ih, List.reverse_cons, Nat.ofDigits_append, List.length_reverse, List.length_cons, pow_succ]
      simp; ring
  rw [placeValue, this]; simp

/-- digits that are read are those between the sign and the end; a lone text of digits means its place value -/
theorem readDigits_value (b : ℕ) (cs : List Char) (hne : cs ≠ []) (h : ∀ c ∈ cs, digitVal b c < b ∧ isSpace c = false) :
    readDigits b cs = some (placeValue b (cs.map (digitVal b))) := by
  cases cs with
  | nil => exact absurd rfl hne
  | cons c t =>
    have hf : (c :: t).filter (fun c => !isSpace c) = c :: t := List.filter_eq_self.2 fun x hx => by simp [(h x hx).2]
    have ha : (c :: t).all (fun c => decide (digitVal b c < b)) = true := by
      simp only [List.all_eq_true, decide_eq_true_eq]; exact fun x hx => (h x hx).1
    have h1 := (h c (by simp)).1
    rw [readDigits, if_neg (by omega), hf]
    dsimp only
    rw [if_pos ha, ← ofDigits_place]

/-- **C78 (reading).**  A text of digits of the base, with or without a minus sign, is read as its place value in every base from 2 to 62. -/
theorem ofText_value (b : ℕ) (cs : List Char) (hne : cs ≠ [])
    (h : ∀ c ∈ cs, digitVal b c < b ∧ isSpace c = false ∧ c ≠ '-') :
    ofText cs b = .ok ((placeValue b (cs.map (digitVal b)) : ℕ) : ℤ) ∧
    ofText ('-' :: cs) b = .ok (-((placeValue b (cs.map (digitVal b)) : ℕ) : ℤ)) := by
  have hr := readDigits_value b cs hne fun c hc => ⟨(h c hc).1, (h c hc).2.1⟩
  constructor
  · cases cs with
    | nil => exact absurd rfl hne
    | cons c t =>
      have hd : (c :: t).dropWhile isSpace = c :: t := by simp [(h c (by simp)).2.1]
      have hs : setStr b (c :: t) = (readDigits b (c :: t)).map fun n => (n : ℤ) := by
        unfold setStr
        rw [hd]
        split
        · rename_i t' heq
          exact absurd (List.cons.inj heq).1 (h c (by simp)).2.2
        · rfl
      simp [ofText, hs, hr]
  · have hs : setStr b ('-' :: cs) = (readDigits b cs).map fun n => -(n : ℤ) := by
      unfold setStr
      have hd : ('-' :: cs).dropWhile isSpace = '-' :: cs := by simp [show isSpace '-' = false by decide]
      rw [hd]; rfl
    simp [ofText, hs, hr]

/-- **C78 (writing).**  In every base from 2 to 62, the text of a value is its sign and digits of the base, the first of which is not 0 unless the value
is 0, and whose place value is the absolute value; in any other base the call throws. -/
theorem toText_value (z base : ℤ) : (base < 2 ∨ 62 < base → toText z base = .throw) ∧
    (2 ≤ base ∧ base ≤ 62 → ∃ ds : List ℕ, toText z base = .ok ((if z < 0 then ['-'] else []) ++ ds.map (digitChar base.toNat)) ∧
      ds ≠ [] ∧ (∀ d ∈ ds, (d : ℤ) < base) ∧ (z ≠ 0 → ds.head? ≠ some 0) ∧ (placeValue base.toNat ds : ℤ) = |z| ∧ (z = 0 → ds = [0])) := by
  unfold toText
  constructor
  · intro h; rw [if_pos (by omega)]
  · intro h
    rw [if_neg (by omega)]
    obtain ⟨b, rfl⟩ : ∃ b : ℕ, base = b := ⟨base.toNat, by omega⟩
    simp only [Int.toNat_natCast]
    rcases eq_or_ne z 0 with rfl | hz
    · exact ⟨[0], by simp [getStr, digitChar], by simp, by simp; omega, by simp, by simp [placeValue], by simp⟩
    · have hb : 1 < b := by omega
      refine ⟨(Nat.digits b z.natAbs).reverse, by simp [getStr, hz], ?_, ?_, ?_, ?_, by simp [hz]⟩
      · rw [Ne, List.reverse_eq_nil_iff, Nat.digits_eq_nil_iff_eq_zero]; omega
      · intro d hd
        exact_mod_cast Nat.digits_lt_base hb (List.mem_reverse.1 hd)
      · intro _ h0
        rw [List.head?_reverse] at h0
        have hne : Nat.digits b z.natAbs ≠ [] := by rw [Ne, Nat.digits_eq_nil_iff_eq_zero]; omega
        rw [List.getLast?_eq_some_getLast hne] at h0
        exact Nat.getLast_digit_ne_zero b (m := z.natAbs) (by omega) (by simpa using h0)
      · rw [← ofDigits_place, List.reverse_reverse, Nat.ofDigits_digits]; simp

/-- **C78 (text round trip).**  Every value, written in any base from 2 to 62, is read back as itself in that base. -/
theorem text_round (z : ℤ) (b : ℕ) (h1 : 2 ≤ b) (h2 : b ≤ 62) : ∃ s, toText z b = .ok s ∧ ofText s b = .ok z := by
  obtain ⟨ds, ht, hne, hlt, -, hv, -⟩ := (toText_value z b).2 ⟨by omega, by omega⟩
  refine ⟨_, ht, ?_⟩
  simp only [Int.toNat_natCast] at hv ⊢
  have hd : ∀ d ∈ ds, d < b := fun d h => by exact_mod_cast hlt d h
  have hm : (ds.map (digitChar b)).map (digitVal b) = ds := by
    rw [List.map_map]
    conv_rhs => rw [← List.map_id ds]
    exact List.map_congr_left fun d h => (digit_facts b (by omega) d (hd d h)).1
  have hc : ∀ c ∈ ds.map (digitChar b), digitVal b c < b ∧ isSpace c = false ∧ c ≠ '-' := by
    intro c hc
    obtain ⟨d, h, rfl⟩ := List.mem_map.1 hc
    have f := digit_facts b (by omega) d (hd d h)
    exact ⟨by rw [f.1]; exact hd d h, f.2.1, f.2.2⟩
  have := ofText_value b (ds.map (digitChar b)) (by simpa using hne) hc
  rw [hm, hv] at this
  by_cases hz : z < 0
  · rw [if_pos hz, List.singleton_append, this.2, abs_of_neg hz]; simp
  · rw [if_neg hz, List.nil_append, this.1, abs_of_nonneg (by omega)]

/-- **C78 (texts are told apart).**  In one base, different values have different texts. -/
theorem text_inj (z z' : ℤ) (b : ℕ) (h1 : 2 ≤ b) (h2 : b ≤ 62) (h : toText z b = toText z' b) : z = z' := by
  obtain ⟨s, e, r⟩ := text_round z b h1 h2
  obtain ⟨s', e', r'⟩ := text_round z' b h1 h2
  rw [e, e'] at h
  obtain rfl : s = s' := by simpa using h
  rw [r] at r'; simpa using r'

/-- **C78 (reading, fails).**  A text is read with white space inside, but not with a plus sign; letters mean the same in either case up to base 36 and
different digits above. -/
theorem ofText_violated :
    ofText "1 2".toList 10 = .ok 12 ∧ ofText "+12".toList 10 = .throw ∧
    ofText "fF".toList 16 = .ok 255 ∧ ofText "aA".toList 62 = .ok (36 * 62 + 10) := by decide +kernel

example : toText (-255) 16 = .ok "-ff".toList ∧ toText 255 62 = .ok "47".toList ∧ toText 5 63 = .throw := by
  decide +kernel

/-! ## Reals -/

theorem nearest_spec (q : ℚ) : Nearest q (nearest q) := by
  have h1 := Int.floor_le q
  have h2 := Int.lt_floor_add_one q
  unfold nearest Nearest
  split_ifs with a b c
  · rw [abs_of_nonneg (by linarith)]; exact ⟨a.le, fun e => absurd e a.ne⟩
  · push_cast
    rw [abs_of_nonpos (by linarith)]; exact ⟨by linarith, fun e => absurd e (by intro e; linarith)⟩
  · rw [abs_of_nonneg (by linarith)]; exact ⟨by linarith, fun _ => c⟩
  · push_cast
    rw [abs_of_nonpos (by linarith)]; exact ⟨by linarith, fun _ => by omega⟩

theorem nearest_unique {q : ℚ} {m m' : ℤ} (h : Nearest q m) (h' : Nearest q m') : m = m' := by
  by_contra hne
  have key : ∀ m m' : ℤ, Nearest q m → Nearest q m' → m < m' → False := by
    intro m m' h h' hl
    have c : (m : ℚ) + 1 ≤ m' := by exact_mod_cast hl
    have a := abs_le.1 h.1
    have b := abs_le.1 h'.1
    have e : (m' : ℚ) = m + 1 := by linarith
    have e' : m' = m + 1 := by exact_mod_cast e
    have q1 : q - m = 1 / 2 := by linarith
    have q2 : q - m' = -(1 / 2) := by linarith
    have r1 := h.2 (by rw [q1]; norm_num)
    have r2 := h'.2 (by rw [q2]; norm_num)
    omega
  rcases lt_or_gt_of_ne hne with h1 | h1
  · exact key _ _ h h' h1
  · exact key _ _ h' h h1

/-- **C78 (integer of a real).**  `toInteger` of a finite real is its nearest integer, the even one of two; an integer valued real is not changed; NaN and the
infinities give 0. -/
theorem toInteger_exact (x : XR) : (∀ q m, x = .fin q → (realToInteger x = m ↔ Nearest q m)) ∧
    (∀ m : ℤ, realToInteger (.fin m) = m) ∧ (x = .nan ∨ x = .pinf ∨ x = .ninf → realToInteger x = 0) := by
  refine ⟨?_, ?_, ?_⟩
  · rintro q m rfl
    exact ⟨fun h => h ▸ nearest_spec q, fun h => nearest_unique (nearest_spec q) h⟩
  · intro m
    exact nearest_unique (nearest_spec (m : ℚ)) ⟨by simp, by simp⟩
  · rintro (rfl | rfl | rfl) <;> rfl

/-- **C78 (long long of a real).**  `toLongLong` gives the nearest integer, or the end of the range on that side. -/
theorem realToLongLong_exact (q : ℚ) (m : ℤ) (h : Nearest q m) :
    realToLongLong (.fin q) = if m < -2 ^ 63 then -2 ^ 63 else if 2 ^ 63 ≤ m then 2 ^ 63 - 1 else m := by
  obtain rfl := nearest_unique (nearest_spec q) h
  have e : realToInteger (.fin q) = nearest q := rfl
  unfold realToLongLong
  rw [e]
  generalize nearest q = m
  by_cases a : m < -2 ^ 63
  · rw [if_neg (fun c => absurd c.1 (by omega)), if_neg (by omega), if_pos a]
  · by_cases b : 2 ^ 63 ≤ m
    · rw [if_neg (fun c => absurd c.2 (by omega)), if_pos (by omega), if_neg a, if_pos b]
    · rw [if_pos (show -2 ^ 63 ≤ m ∧ m < 2 ^ 63 from ⟨by omega, by omega⟩), if_neg a, if_neg b, getSi_fits ⟨by omega, by omega⟩]

/-- **C78 (int of a real).**  `toInt` gives the nearest integer when that is in the range of `int`. -/
theorem realToInt_partial (q : ℚ) (m : ℤ) (h : Nearest q m) (h1 : -2 ^ 31 ≤ m) (h2 : m < 2 ^ 31) : realToInt (.fin q) = m := by
  obtain rfl := nearest_unique (nearest_spec q) h
  simp only [realToInt, realGetSi]
  rw [min_eq_right (by omega), max_eq_right (by omega), wrapInt_fits h1 h2]

theorem nearest_int (z : ℤ) : nearest (z : ℚ) = z := (toInteger_exact (.fin z)).2.1 z

theorem realToInt_int (z : ℤ) (h1 : -2 ^ 63 ≤ z) (h2 : z < 2 ^ 63) : realToInt (.fin z) = wrapInt z := by
  simp only [realToInt, realGetSi, nearest_int]
  rw [min_eq_right (by omega), max_eq_right (by omega)]

/-- **C78 (int of a real, fails).**  Outside the range the value wraps without an error: two different integers that differ by a multiple of `2^32` give one `int`,
positive ones may give negative ones, and an infinity gives `-1`; the conversion of an integer throws in these cases. -/
theorem realToInt_violated :
    (∀ z k : ℤ, -2 ^ 63 ≤ z → z < 2 ^ 63 → -2 ^ 63 ≤ z + k * 2 ^ 32 → z + k * 2 ^ 32 < 2 ^ 63 →
      realToInt (.fin ((z + k * 2 ^ 32 : ℤ) : ℚ)) = realToInt (.fin z)) ∧
    realToInt (.fin ((3000000000 : ℤ) : ℚ)) = -1294967296 ∧ realToInt .pinf = -1 ∧ realToInt .ninf = 0 ∧ toInt 3000000000 = .throw := by
  refine ⟨?_, ?_, by decide +kernel, by decide +kernel, by decide +kernel⟩
  · intro z k a b c d
    rw [realToInt_int _ c d, realToInt_int _ a b]
    unfold wrapInt; omega
  · rw [realToInt_int _ (by decide) (by decide)]; decide +kernel

/-- **C78 (numbers).**  `Number::toInteger` keeps integers and takes the nearest integer of a finite real. -/
theorem numToInteger_exact (n : Number) : (∀ i, n = .int i → numToInteger n = i) ∧
    (∀ q m, n = .real (.fin q) → (numToInteger n = m ↔ Nearest q m)) := by
  refine ⟨?_, ?_⟩
  · rintro i rfl; rfl
  · rintro q m rfl
    exact (toInteger_exact (.fin q)).1 q m rfl

/-- **C78 (the constant zero).**  `Number::zero()` is a real: adding it to an integer gives the real that the integer is rounded to. -/
theorem add_zero_value (F : Fmt) (i : ℤ) (h0 : F.r 0 = 0) : Number.add F (.int i) (numZero F) = .real (.fin (F.r i)) := by
  simp [Number.add, numZero, Number.toReal, XR.add, h0, F.idem]

/-- **C78 (the constant zero, neutral).**  The sum with `Number::zero()` has the value of the integer when the integer is representable. -/
theorem add_zero_partial (F : Fmt) (i : ℤ) (h0 : F.r 0 = 0) (hi : F.r i = i) :
    numToInteger (Number.add F (.int i) (numZero F)) = i := by
  rw [add_zero_value F i h0, hi]; exact nearest_int i

/-- rounding down to an even integer: what a format does to integers of one bit more than its precision -/
def evenFmt : Fmt where
  r q := 2 * (⌊q / 2⌋ : ℚ)
  mono a b h := by
    have : ⌊a / 2⌋ ≤ ⌊b / 2⌋ := Int.floor_le_floor (by linarith)
    have : ((⌊a / 2⌋ : ℤ) : ℚ) ≤ ((⌊b / 2⌋ : ℤ) : ℚ) := by exact_mod_cast this
    linarith
  idem a := by
    show 2 * ((⌊2 * ((⌊a / 2⌋ : ℤ) : ℚ) / 2⌋ : ℤ) : ℚ) = 2 * ((⌊a / 2⌋ : ℤ) : ℚ)
    rw [mul_div_cancel_left₀ _ (by norm_num : (2 : ℚ) ≠ 0), Int.floor_intCast]

/-- **C78 (the constant zero, fails).**  Adding `Number::zero()` to an integer that the format cannot represent changes its value. -/
theorem add_zero_violated : ∃ (F : Fmt) (i : ℤ), F.r 0 = 0 ∧ numToInteger (Number.add F (.int i) (numZero F)) ≠ i := by
  have h3 : evenFmt.r ((3 : ℤ) : ℚ) = ((2 : ℤ) : ℚ) := by
    show 2 * ((⌊((3 : ℤ) : ℚ) / 2⌋ : ℤ) : ℚ) = _
    rw [show ⌊((3 : ℤ) : ℚ) / 2⌋ = 1 from Int.floor_eq_iff.2 ⟨by norm_num, by norm_num⟩]; norm_num
  have h0 : evenFmt.r 0 = 0 := by
    show 2 * ((⌊(0 : ℚ) / 2⌋ : ℤ) : ℚ) = _
    rw [show ⌊(0 : ℚ) / 2⌋ = 0 from Int.floor_eq_iff.2 ⟨by norm_num, by norm_num⟩]; norm_num
  refine ⟨evenFmt, 3, h0, ?_⟩
  rw [add_zero_value evenFmt 3 h0, h3]
  show nearest ((2 : ℤ) : ℚ) ≠ 3
  rw [nearest_int]; decide

end SMT.Num.IntClass
