import Verif.Num.Math

/-!
# C14 and C25

Specification: Mathlib's `Nat.Prime`, `Nat.factorial`, `Even`, `Odd`; greatest common divisor and least common multiple by
their defining properties; SMT-LIB's `div`/`mod` by the equation `a = b*q + r`, `0 ≤ r < |b|`.
-/

namespace SMT.Math

/-! ## Specification -/

/-- `q` and `r` are quotient and remainder of `a` by `b` in the sense of SMT-LIB's theory of integers -/
def Euclid (a b q r : Int) : Prop := a = b * q + r ∧ 0 ≤ r ∧ r < |b|

/-- greatest common divisor: nonnegative, divides both, every common divisor divides it -/
def IsGcd (a b g : Int) : Prop := 0 ≤ g ∧ g ∣ a ∧ g ∣ b ∧ ∀ d, d ∣ a → d ∣ b → d ∣ g

/-- least common multiple: nonnegative, a multiple of both, divides every common multiple -/
def IsLcm (a b m : Int) : Prop := 0 ≤ m ∧ a ∣ m ∧ b ∣ m ∧ ∀ d, a ∣ d → b ∣ d → m ∣ d

theorem Euclid.unique {a b q r q' r' : Int} (h : Euclid a b q r) (h' : Euclid a b q' r') : q = q' ∧ r = r' := by
  obtain ⟨e, l, u⟩ := h
  obtain ⟨e', l', u'⟩ := h'
  have hb : b ≠ 0 := by rintro rfl; simp at u; omega
  have h1 : r = r' := by
    have d : b ∣ r - r' := ⟨q' - q, by rw [mul_sub]; omega⟩
    have := Int.eq_zero_of_abs_lt_dvd (m := |b|) (x := r - r') (by rw [Int.abs_eq_natAbs]; exact Int.natAbs_dvd.mpr d) (by rw [abs_lt]; constructor <;> omega)
    omega
  refine ⟨?_, h1⟩
  subst h1
  exact Int.eq_of_mul_eq_mul_left hb (by omega)

theorem euclid_ediv (a b : Int) (hb : b ≠ 0) : Euclid a b (a / b) (a % b) :=
  ⟨(Int.mul_ediv_add_emod a b).symm, Int.emod_nonneg a hb, Int.emod_lt_abs a hb⟩

/-! ## C25 -/

theorem tdiv_eq_ediv_iff (a b : Int) (hb : b ≠ 0) : a.tdiv b = a / b ↔ 0 ≤ a ∨ b ∣ a := by
  rw [Int.tdiv_eq_ediv]
  split
  · rename_i h; simp [h]
  · rename_i h
    have : b.sign ≠ 0 := by rw [Ne, Int.sign_eq_zero_iff_zero]; exact hb
    constructor
    · intro e; omega
    · intro e; exact absurd e h

theorem tmod_eq_emod_iff (a b : Int) (hb : b ≠ 0) : a.tmod b = a % b ↔ 0 ≤ a ∨ b ∣ a := by
  rw [Int.tmod_eq_emod]
  split
  · rename_i h; simp [h]
  · rename_i h
    constructor
    · intro e; have : (b.natAbs : Int) ≠ 0 := by omega
      omega
    · intro e; exact absurd e h

/-- **C25.**  `div` of two literals is folded to the SMT-LIB quotient exactly when the dividend is nonnegative or a multiple of
the divisor. -/
theorem div_exact_partial (a b : Int) (hb : b ≠ 0) : ∃ q, simp2 .div (some a) (some b) = .ok (.int q) ∧
    ((∃ r, Euclid a b q r) ↔ 0 ≤ a ∨ b ∣ a) := by
  refine ⟨a.tdiv b, by simp [simp2, divZ, hb, Res.bind], ?_⟩
  rw [← tdiv_eq_ediv_iff a b hb]
  constructor
  · rintro ⟨r, h⟩; exact (h.unique (euclid_ediv a b hb)).1
  · intro e; rw [e]; exact ⟨_, euclid_ediv a b hb⟩

/-- **C25.**  The same for `mod`. -/
theorem mod_exact_partial (a b : Int) (hb : b ≠ 0) : ∃ r, simp2 .mod (some a) (some b) = .ok (.int r) ∧
    ((∃ q, Euclid a b q r) ↔ 0 ≤ a ∨ b ∣ a) := by
  refine ⟨a.tmod b, by simp [simp2, modZ, hb, Res.bind], ?_⟩
  rw [← tmod_eq_emod_iff a b hb]
  constructor
  · rintro ⟨q, h⟩; exact (h.unique (euclid_ediv a b hb)).2
  · intro e; rw [e]; exact ⟨_, euclid_ediv a b hb⟩

/-- **C25.**  `abs` of a literal. -/
theorem abs_exact (a : Int) : simp1 .abs (some a) = .ok (.int |a|) := by
  simp only [simp1]
  rcases abs_cases a with ⟨h, h2⟩ | ⟨h, h2⟩ <;> rw [h]
  · rw [if_neg (by omega)]
  · rw [if_pos h2]

/-- **C25.**  Divisibility of literals, for a nonzero divisor (SMT-LIB demands a positive one). -/
theorem divisible_exact (a b : Int) (hb : b ≠ 0) : simp2 .divisible (some a) (some b) = .ok (.bool (decide (b ∣ a))) := by
  simp only [simp2, modZ, if_neg hb, Res.bind]
  congr 2
  rw [Bool.eq_iff_iff]
  simp [Int.dvd_iff_tmod_eq_zero]

/-- **C25, violated.**  A negative dividend that is not a multiple of the divisor is always folded to a wrong quotient and a
wrong remainder; `-7` by `2` gives `-3` and `-1`. -/
theorem div_violated (a b : Int) (hb : b ≠ 0) (ha : a < 0) (hd : ¬ b ∣ a) : ∃ q r,
    simp2 .div (some a) (some b) = .ok (.int q) ∧ simp2 .mod (some a) (some b) = .ok (.int r) ∧ (∀ r', ¬ Euclid a b q r') ∧
      ∀ q', ¬ Euclid a b q' r := by
  obtain ⟨q, h1, h2⟩ := div_exact_partial a b hb
  obtain ⟨r, h3, h4⟩ := mod_exact_partial a b hb
  refine ⟨q, r, h1, h3, fun r' h => ?_, fun q' h => ?_⟩
  · rcases h2.mp ⟨r', h⟩ with h | h
    · omega
    · exact hd h
  · rcases h4.mp ⟨q', h⟩ with h | h
    · omega
    · exact hd h

/-- **C25, violated.**  A zero divisor throws an exception. -/
theorem zero_violated (o : O) (ho : o = .div ∨ o = .mod ∨ o = .divisible) (a : Int) : simp2 o (some a) (some 0) = .throw := by
  rcases ho with rfl | rfl | rfl <;> rfl

example : simp2 .div (some (-7)) (some 2) = .ok (.int (-3)) ∧ simp2 .mod (some (-7)) (some 2) = .ok (.int (-1)) ∧
    Euclid (-7) 2 (-4) 1 := by
  refine ⟨by decide, by decide, ?_⟩
  simp [Euclid]

/-! ## C14 -/

theorem powLoop_eq (base exp : Int) : ∀ (n : Nat) (i r : Int), (exp - i).toNat = n → powLoop base exp i r = r * base ^ n := by
  intro n
  induction n with
  | zero => intro i r h; rw [powLoop, if_neg (by omega)]; simp
  | succ n ih =>
    intro i r h
    rw [powLoop, if_pos (by omega), ih _ _ (by omega)]; ring

theorem pow_eq (base exp : Int) (h : 0 ≤ exp) : pow base exp = base ^ exp.toNat := by
  unfold pow
  split
  · rename_i e; subst e; simp
  · rw [powLoop_eq base exp (exp - 1).toNat 1 base rfl, ← pow_succ']
    congr 1; omega

/-- **C14.**  Powers of two. -/
theorem pow2_exact_partial (n : Int) (h : 0 ≤ n) : simp1 .pow2 (some n) = .ok (.int (2 ^ n.toNat)) := by
  simp only [simp1, pow_eq 2 n h]

/-- **C14, violated.**  For every negative exponent the result is 2 (SMT-LIB's `int.pow2` gives 0). -/
theorem pow2_violated (n : Int) (h : n < 0) : simp1 .pow2 (some n) = .ok (.int 2) := by
  simp only [simp1, pow]
  rw [if_neg (by omega), powLoop, if_neg (by omega)]

theorem gcd_natAbs (a b : Int) : (gcd a b).natAbs = Int.gcd a b := by
  fun_induction gcd a b with
  | case1 a => simp
  | case2 a b hb ih =>
    rw [ih, Int.gcd_def, Int.gcd_def, Int.natAbs_tmod, Nat.gcd_comm, ← Nat.gcd_rec, Nat.gcd_comm]

theorem gcd_nonneg (a b : Int) (ha : 0 ≤ a) (hb : 0 ≤ b) : 0 ≤ gcd a b := by
  fun_induction gcd a b with
  | case1 a => exact ha
  | case2 a b hb' ih => exact ih hb (Int.tmod_nonneg _ ha)

theorem isGcd_gcd (a b : Int) : IsGcd a b (Int.gcd a b) :=
  ⟨by omega, Int.gcd_dvd_left _ _, Int.gcd_dvd_right _ _, fun _ h1 h2 => Int.dvd_coe_gcd h1 h2⟩

/-- **C14.**  The folded `gcd` is the greatest common divisor up to sign for all integers, and exactly for nonnegative ones. -/
theorem gcd_exact_partial (a b : Int) : ∃ g, simp2 .gcd (some a) (some b) = .ok (.int g) ∧ IsGcd a b |g| ∧
    (0 ≤ a → 0 ≤ b → IsGcd a b g) := by
  have h : |gcd a b| = Int.gcd a b := by rw [Int.abs_eq_natAbs, gcd_natAbs]
  refine ⟨gcd a b, rfl, by rw [h]; exact isGcd_gcd a b, fun ha hb => ?_⟩
  rw [← abs_of_nonneg (gcd_nonneg a b ha hb), h]; exact isGcd_gcd a b

/-- **C14, violated.**  `gcd(-4, 0)` is folded to `-4`. -/
theorem gcd_violated : simp2 .gcd (some (-4)) (some 0) = .ok (.int (-4)) ∧ IsGcd (-4) 0 4 ∧ ¬ IsGcd (-4) 0 (-4) := by
  refine ⟨by simp [simp2, gcd], ?_, fun h => by have := h.1; omega⟩
  have := isGcd_gcd (-4) 0
  simpa using this

theorem isLcm_lcm (a b : Int) : IsLcm a b (Int.lcm a b) :=
  ⟨by omega, Int.dvd_lcm_left _ _, Int.dvd_lcm_right _ _, fun _ h1 h2 => Int.coe_lcm_dvd h1 h2⟩

theorem lcm_abs (a b : Int) (h : ¬ (a = 0 ∧ b = 0)) : ∃ m, lcm a b = .ok m ∧ |m| = Int.lcm a b ∧ (0 ≤ a → 0 ≤ b → 0 ≤ m) := by
  have hg : gcd a b ≠ 0 := by
    intro e
    have := gcd_natAbs a b
    rw [e] at this
    simp only [Int.natAbs_zero] at this
    exact h (Int.gcd_eq_zero_iff.mp this.symm)
  refine ⟨(a * b).tdiv (gcd a b), by simp [lcm, divZ, hg], ?_, fun ha hb => ?_⟩
  · rw [Int.abs_eq_natAbs, Int.natAbs_tdiv, Int.natAbs_mul, gcd_natAbs, Int.lcm_def, Int.gcd_def]
    rfl
  · exact Int.tdiv_nonneg (Int.mul_nonneg ha hb) (gcd_nonneg a b ha hb)

/-- **C14.**  The folded `lcm` is the least common multiple up to sign unless both arguments are zero, and exactly for
nonnegative arguments. -/
theorem lcm_exact_partial (a b : Int) (h : ¬ (a = 0 ∧ b = 0)) : ∃ m, simp2 .lcm (some a) (some b) = .ok (.int m) ∧
    IsLcm a b |m| ∧ (0 ≤ a → 0 ≤ b → IsLcm a b m) := by
  obtain ⟨m, h1, h2, h3⟩ := lcm_abs a b h
  refine ⟨m, by simp [simp2, h1, Res.bind], by rw [h2]; exact isLcm_lcm a b, fun ha hb => ?_⟩
  rw [← abs_of_nonneg (h3 ha hb), h2]; exact isLcm_lcm a b

/-- **C14, violated.**  `lcm(0, 0)` throws instead of giving 0; `lcm(-2, 3)` is folded to `-6`. -/
theorem lcm_violated : simp2 .lcm (some 0) (some 0) = .throw ∧ IsLcm 0 0 0 ∧ simp2 .lcm (some (-2)) (some 3) = .ok (.int (-6)) ∧
    ¬ IsLcm (-2) 3 (-6) := by
  refine ⟨by simp [simp2, lcm, gcd, divZ, Res.bind], by simp [IsLcm], ?_, fun h => by have := h.1; omega⟩
  simp [simp2, lcm, gcd, divZ, Res.bind]

theorem prime_iff (n : Nat) (h : 2 ≤ n) : n.Prime ↔ ∀ m, 2 ≤ m → m * m ≤ n → ¬ m ∣ n := by
  rw [Nat.prime_def_le_sqrt]
  constructor
  · rintro ⟨_, h2⟩ m hm hmm; exact h2 m hm (Nat.le_sqrt.mpr hmm)
  · intro h2; exact ⟨h, fun m hm hms => h2 m hm (Nat.le_sqrt.mp hms)⟩

theorem primeLoop_iff (n : Nat) (i : Int) (hi : 3 ≤ i) : primeLoop n i = true ↔
    ∀ m : Nat, i ≤ m → (m : Int) % 2 = i % 2 → m * m ≤ n → ¬ m ∣ n := by
  fun_induction primeLoop (n : Int) i with
  | case1 i h e =>
    simp only [Bool.false_eq_true, false_iff, not_forall]
    refine ⟨i.toNat, by omega, by omega, ?_, ?_⟩
    · have : ((i.toNat * i.toNat : Nat) : Int) ≤ n := by push_cast; rw [Int.toNat_of_nonneg (by omega)]; exact h.2
      exact_mod_cast this
    · rw [not_not]
      have := Int.dvd_of_tmod_eq_zero e
      rw [← Int.toNat_of_nonneg (show 0 ≤ i by omega)] at this
      exact_mod_cast this
  | case2 i h e ih =>
    rw [ih (by omega)]
    constructor
    · intro hm m h1 h2 h3
      by_cases he : (m : Int) = i
      · intro hd
        apply e
        rw [← he]
        exact Int.tmod_eq_zero_of_dvd (by exact_mod_cast hd)
      · exact hm m (by omega) (by omega) h3
    · intro hm m h1 h2 h3
      exact hm m (by omega) (by omega) h3
  | case3 i h =>
    simp only [true_iff]
    intro m h1 h2 h3
    exfalso
    apply h
    refine ⟨hi, ?_⟩
    have : i * i ≤ (m : Int) * m := by nlinarith
    have h4 : (m : Int) * m ≤ n := by exact_mod_cast h3
    omega

/-- **C14.**  Primality of every integer literal. -/
theorem isPrime_exact (n : Int) : simp1 .isPrime (some n) = .ok (.bool true) ↔ 0 ≤ n ∧ n.toNat.Prime := by
  simp only [simp1, Res.ok.injEq, Out.bool.injEq]
  unfold isPrime
  split
  · rename_i h
    simp only [Bool.false_eq_true, false_iff, not_and]
    intro h0 hp
    have := hp.two_le
    omega
  · rename_i h
    obtain ⟨k, rfl⟩ := Int.eq_ofNat_of_zero_le (show 0 ≤ n by omega)
    simp only [Int.toNat_natCast]
    split
    · rename_i e
      have : k = 2 := by omega
      subst this
      simp [Nat.prime_two]
    · rename_i e2
      split
      · rename_i e
        simp only [Bool.false_eq_true, false_iff, not_and]
        intro _ hp
        have hd : 2 ∣ k := by
          have := Int.dvd_of_tmod_eq_zero e
          exact_mod_cast this
        rcases (Nat.dvd_prime hp).mp hd with h | h <;> omega
      · rename_i e
        rw [primeLoop_iff k 3 (by omega), prime_iff k (by omega)]
        have hodd : ¬ 2 ∣ k := by
          intro hd
          exact e (Int.tmod_eq_zero_of_dvd (by exact_mod_cast hd))
        constructor
        · intro hm
          refine ⟨by omega, fun m h1 h2 hd => ?_⟩
          by_cases hme : m % 2 = 0
          · exact hodd (dvd_trans (Nat.dvd_of_mod_eq_zero hme) hd)
          · exact hm m (by omega) (by omega) h2 hd
        · intro hm m h1 _ h2
          exact hm.2 m (by omega) h2

/-- **C14.**  Parity of every integer literal. -/
theorem parity_exact (n : Int) : (simp1 .isEven (some n) = .ok (.bool true) ↔ ∃ k, n = 2 * k) ∧
    (simp1 .isOdd (some n) = .ok (.bool true) ↔ ∃ k, n = 2 * k + 1) := by
  have h : n.tmod 2 = 0 ↔ n % 2 = 0 := by rw [← Int.dvd_iff_tmod_eq_zero, Int.dvd_iff_emod_eq_zero]
  constructor
  · simp only [simp1, isEven, Res.ok.injEq, Out.bool.injEq, beq_iff_eq, h]
    constructor
    · intro e; exact ⟨n / 2, by omega⟩
    · rintro ⟨k, rfl⟩; omega
  · simp only [simp1, isOdd, Res.ok.injEq, Out.bool.injEq, bne_iff_ne, ne_eq, h]
    constructor
    · intro e; exact ⟨n / 2, by omega⟩
    · rintro ⟨k, rfl⟩; omega

theorem factLoop_eq (n : Nat) : ∀ (k j : Nat), k + j = n → factLoop n (j + 1) (j.factorial) = n.factorial := by
  intro k
  induction k with
  | zero => intro j h; rw [factLoop, if_neg (by omega)]; congr 1; congr 1; omega
  | succ k ih =>
    intro j h
    rw [factLoop, if_pos (by omega)]
    have := ih (j + 1) (by omega)
    rw [Nat.factorial_succ] at this
    push_cast at this ⊢
    rw [mul_comm]; exact this

/-- **C14.**  Factorials of nonnegative literals (a negative one is reported as an error). -/
theorem fact_exact (n : Int) (h : 0 ≤ n) : simp1 .fact (some n) = .ok (.int (n.toNat.factorial)) := by
  obtain ⟨k, rfl⟩ := Int.eq_ofNat_of_zero_le h
  simp only [simp1, Int.toNat_natCast]
  rw [if_neg (by omega)]
  split
  · rename_i e
    have : k = 0 := by omega
    subst this; rfl
  · have := factLoop_eq k k 0 (by omega)
    simp only [Nat.factorial_zero, Nat.cast_zero, zero_add, Nat.cast_one] at this
    rw [← this]; rfl

/-- **Not part of the statement, but observable.**  These operators can only be used on literals: a variable as operand ends
the process. -/
theorem nonliteral_aborts : simp1 .isPrime none = .abort ∧ simp1 .isEven none = .abort ∧ simp1 .isOdd none = .abort ∧
    simp1 .fact none = .abort ∧ ∀ x, simp2 .gcd none x = .abort ∧ simp2 .lcm none x = .abort ∧ simp2 .divisible none x = .abort :=
  ⟨rfl, rfl, rfl, rfl, fun _ => ⟨rfl, rfl, rfl⟩⟩

end SMT.Math
