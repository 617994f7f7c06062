/-!
# Decimal text of natural numbers

`std::to_string` of an unsigned value and GMP's `mpz_get_str` in base ten print the shortest decimal form; both are
library functions and are specified here rather than modelled.
-/

namespace SMT.Text

/-- `cs!"abc"` is the character list `['a', 'b', 'c']`. -/
macro:max "cs!" s:str : term => do
  let cs := s.getString.toList.toArray.map fun c => (⟨(Lean.Syntax.mkCharLit c).raw⟩ : Lean.TSyntax `term)
  `([$cs,*])

/-- the digit character of `n < 10` -/
def digit (n : Nat) : Char := Char.ofNat (48 + n)

/-- decimal text of `n` -/
def dec (n : Nat) : List Char :=
  if n < 10 then [digit n] else dec (n / 10) ++ [digit (n % 10)]
termination_by n
decreasing_by omega

/-- value of a digit string -/
def undec (cs : List Char) : Nat := cs.foldl (fun a c => a * 10 + (c.toNat - 48)) 0

theorem digit_toNat {n : Nat} (h : n < 10) : (digit n).toNat = 48 + n := by
  unfold digit
  have : ∀ m, m < 10 → (Char.ofNat (48 + m)).toNat = 48 + m := by decide
  exact this n h

theorem digit_isDigit {n : Nat} (h : n < 10) : (digit n).isDigit = true := by
  have : ∀ m, m < 10 → (digit m).isDigit = true := by decide
  exact this n h

theorem dec_ne_nil (n : Nat) : dec n ≠ [] := by
  rw [dec]; split <;> simp

theorem dec_isDigit (n : Nat) : ∀ c ∈ dec n, c.isDigit = true := by
  induction n using Nat.strongRecOn with
  | _ n ih =>
    rw [dec]; split
    · rename_i h; intro c hc; simp only [List.mem_singleton] at hc; subst hc; exact digit_isDigit h
    · intro c hc
      simp only [List.mem_append, List.mem_singleton] at hc
      rcases hc with hc | rfl
      · exact ih (n / 10) (by omega) c hc
      · exact digit_isDigit (by omega)

/-- Reading the decimal text of a number gives the number. -/
theorem undec_dec (n : Nat) : undec (dec n) = n := by
  induction n using Nat.strongRecOn with
  | _ n ih =>
    rw [dec]; split
    · rename_i h; simp [undec, digit_toNat h]
    · have := ih (n / 10) (by omega)
      unfold undec at this ⊢
      rw [List.foldl_append, this]
      simp only [List.foldl_cons, List.foldl_nil, digit_toNat (show n % 10 < 10 by omega)]
      omega

theorem dec_inj {m n : Nat} (h : dec m = dec n) : m = n := by
  rw [← undec_dec m, ← undec_dec n, h]

example : dec 1024 = "1024".toList := by
  rw [dec, dec, dec, dec]; decide

end SMT.Text
