import Verif.Num.Spec

/-! # C46: mixed integer/real numbers -/

namespace SMT.Num
open Number

@[simp] theorem fin_lt {a b : ℚ} : fin a < fin b ↔ a < b := by simp [fin]
@[simp] theorem fin_le {a b : ℚ} : fin a ≤ fin b ↔ a ≤ b := by simp [fin]
@[simp] theorem fin_inj {a b : ℚ} : fin a = fin b ↔ a = b := by simp [fin]
@[simp] theorem bot_lt_fin (a : ℚ) : (⊥ : EQ) < fin a := by simp [fin]
@[simp] theorem fin_lt_top (a : ℚ) : fin a < (⊤ : EQ) := by
  exact WithBot.coe_lt_coe.mpr (WithTop.coe_lt_top a)
@[simp] theorem bot_ne_fin (a : ℚ) : (⊥ : EQ) ≠ fin a := (bot_lt_fin a).ne
@[simp] theorem fin_ne_bot (a : ℚ) : fin a ≠ (⊥ : EQ) := (bot_lt_fin a).ne'
@[simp] theorem fin_ne_top (a : ℚ) : fin a ≠ (⊤ : EQ) := (fin_lt_top a).ne
@[simp] theorem top_ne_fin (a : ℚ) : (⊤ : EQ) ≠ fin a := (fin_lt_top a).ne'
@[simp] theorem not_fin_lt_bot (a : ℚ) : ¬ fin a < (⊥ : EQ) := by simp
@[simp] theorem not_top_lt_fin (a : ℚ) : ¬ (⊤ : EQ) < fin a := by simp
@[simp] theorem bot_lt_top' : (⊥ : EQ) < (⊤ : EQ) := bot_lt_top

/-- `<` is the order of the values. -/
theorem lt_iff {F : Fmt} {a b : Number} (ha : a.Ok F) (hb : b.Ok F) :
    lt F a b = true ↔ a.w < b.w := by
  rcases a with i | (_ | _ | q | _) <;> rcases b with j | (_ | _ | p | _) <;>
    simp_all [Number.Ok, lt, Number.w, Number.toReal, XR.lt]

/-- `==` is equality of the values. -/
theorem eq_iff {F : Fmt} {a b : Number} (ha : a.Ok F) (hb : b.Ok F) :
    eq F a b = true ↔ a.w = b.w := by
  rcases a with i | (_ | _ | q | _) <;> rcases b with j | (_ | _ | p | _) <;>
    simp_all [Number.Ok, eq, Number.w, Number.toReal, XR.eq]

/-- `<=` is the order of the values. -/
theorem le_iff {F : Fmt} {a b : Number} (ha : a.Ok F) (hb : b.Ok F) :
    le F a b = true ↔ a.w ≤ b.w := by
  have h : le F a b = true ↔ (lt F a b = true ∨ eq F a b = true) := by
    rcases a with i | x <;> rcases b with j | y <;> simp [le, lt, eq, XR.le, Bool.or_eq_true]
    omega
  rw [h, lt_iff ha hb, eq_iff ha hb, le_iff_lt_or_eq]

/-- `>` is the order of the values. -/
theorem gt_iff {F : Fmt} {a b : Number} (ha : a.Ok F) (hb : b.Ok F) :
    gt F a b = true ↔ b.w < a.w := by
  rw [gt, Bool.not_eq_true', ← Bool.not_eq_true, le_iff ha hb, not_le]

/-- `>=` is the order of the values. -/
theorem ge_iff {F : Fmt} {a b : Number} (ha : a.Ok F) (hb : b.Ok F) :
    ge F a b = true ↔ b.w ≤ a.w := by
  rw [ge, Bool.not_eq_true', ← Bool.not_eq_true, lt_iff ha hb, not_lt]

/-- C46, comparisons: on numbers that are not NaN and whose integers fit the working precision the
six comparison operators are the order of the extended rationals they stand for, whatever the mix
of representations.  Integers compare with integers exactly, at any size. -/
theorem compare_exact_partial (F : Fmt) :
    (∀ a b : Number, a.Ok F → b.Ok F →
      (lt F a b = true ↔ a.w < b.w) ∧ (le F a b = true ↔ a.w ≤ b.w) ∧
      (gt F a b = true ↔ a.w > b.w) ∧ (ge F a b = true ↔ a.w ≥ b.w) ∧
      (eq F a b = true ↔ a.w = b.w) ∧ (ne F a b = true ↔ a.w ≠ b.w)) ∧
    (∀ i j : Int,
      (lt F (.int i) (.int j) = true ↔ i < j) ∧ (le F (.int i) (.int j) = true ↔ i ≤ j) ∧
      (gt F (.int i) (.int j) = true ↔ i > j) ∧ (ge F (.int i) (.int j) = true ↔ i ≥ j) ∧
      (eq F (.int i) (.int j) = true ↔ i = j) ∧ (ne F (.int i) (.int j) = true ↔ i ≠ j)) := by
  refine ⟨fun a b ha hb => ⟨lt_iff ha hb, le_iff ha hb, gt_iff ha hb, ge_iff ha hb, eq_iff ha hb,
    ?_⟩, fun i j => ?_⟩
  · rw [ne, Bool.not_eq_true', ← Bool.not_eq_true, eq_iff ha hb]
  · simp [lt, le, gt, ge, eq, ne]

example : (Number.int 3).Ok exact ∧ (Number.real (.fin (7/2))).Ok exact ∧
    lt exact (.int 3) (.real (.fin (7/2))) = true := by
  refine ⟨rfl, trivial, ?_⟩
  simp only [lt, XR.lt, toReal, exact, decide_eq_true_eq]
  norm_num

/-- C46, comparisons, where they fail: as soon as two integers are rounded to the same real
(2^128 and 2^128+1 at 128 bits), mixed `==` identifies both with that real, so `==` is not
transitive, and an integer compares equal to a real that differs from it. -/
theorem compare_violated (F : Fmt) (i j : Int) (hij : i ≠ j) (h : F.r i = F.r j) :
    ∃ a b c : Number, eq F a b = true ∧ eq F b c = true ∧ eq F a c = false ∧
      ∃ q : ℚ, b.w = fin q ∧ (a.w ≠ fin q ∨ c.w ≠ fin q) := by
  refine ⟨.int i, .real (.fin (F.r i)), .int j, ?_, ?_, ?_, F.r i, rfl, ?_⟩
  · simp [eq, XR.eq, toReal]
  · simp [eq, XR.eq, toReal, h]
  · simp [eq, hij]
  · simp only [Number.w, ne_eq, fin_inj]
    by_contra hc
    push Not at hc
    have : (i : ℚ) = (j : ℚ) := by rw [hc.1, hc.2]
    exact hij (by exact_mod_cast this)

example : coarse.r ((1 : Int) : ℚ) = coarse.r ((2 : Int) : ℚ) ∧ (1 : Int) ≠ 2 := by
  constructor
  · simp only [coarse]; norm_cast
  · decide

/-- a finite number that is represented exactly -/
def Number.Is (F : Fmt) (n : Number) (q : ℚ) : Prop := n.w = fin q ∧ n.Ok F

theorem is_cases {F : Fmt} {n : Number} {q : ℚ} (h : n.Is F q) :
    (∃ i : Int, n = .int i ∧ (i : ℚ) = q ∧ F.r i = i) ∨ n = .real (.fin q) := by
  obtain ⟨h1, h2⟩ := h
  rcases n with i | (_ | _ | p | _)
  · exact .inl ⟨i, rfl, by simpa [Number.w] using h1, h2⟩
  · exact absurd h2 (by simp [Number.Ok])
  · simp [Number.w] at h1
  · simp only [Number.w, fin_inj] at h1; exact .inr (by rw [h1])
  · simp [Number.w] at h1

theorem is_toReal {F : Fmt} {n : Number} {q : ℚ} (h : n.Is F q) : n.toReal F = .fin q := by
  rcases is_cases h with ⟨i, rfl, h1, h2⟩ | rfl
  · simp only [toReal]; rw [h2, h1]
  · rfl

theorem is_real (F : Fmt) (q : ℚ) : (Number.real (.fin q)).Is F q := ⟨rfl, trivial⟩

/-- C46, arithmetic: `+ - *` and unary minus give the exact result whenever that result fits the
working precision, whatever the mix of representations. -/
theorem arith_exact_partial (F : Fmt) (a b : Number) (x y : ℚ) (ha : a.Is F x) (hb : b.Is F y) :
    (F.r (x + y) = x + y → (add F a b).Is F (x + y)) ∧
    (F.r (x - y) = x - y → (sub F a b).Is F (x - y)) ∧
    (F.r (x * y) = x * y → (mul F a b).Is F (x * y)) ∧
    (F.r (-x) = -x → (neg a).Is F (-x)) ∧
    (F.r |x| = |x| → (Number.abs a).Is F |x|) := by
  have ra := is_toReal ha
  have rb := is_toReal hb
  refine ⟨fun h => ?_, fun h => ?_, fun h => ?_, fun h => ?_, fun h => ?_⟩
  · rcases is_cases ha with ⟨i, rfl, h1, h2⟩ | rfl <;> rcases is_cases hb with ⟨j, rfl, h3, h4⟩ | rfl
    · simp only [add, Number.Is, Number.w, Number.Ok, fin_inj]
      push_cast; rw [h1, h3]; exact ⟨rfl, h⟩
    all_goals
      have e : ∀ c : Number, c = .real (XR.add F (.fin x) (.fin y)) → c.Is F (x + y) := by
        rintro c rfl
        simp only [XR.add, h]
        exact is_real F _
      exact e _ (by rw [← ra, ← rb]; rfl)
  · have h' : F.r (x + -y) = x - y := by rw [← sub_eq_add_neg, h]
    rcases is_cases ha with ⟨i, rfl, h1, h2⟩ | rfl <;> rcases is_cases hb with ⟨j, rfl, h3, h4⟩ | rfl
    · simp only [sub, Number.Is, Number.w, Number.Ok, fin_inj]
      push_cast; rw [h1, h3]; exact ⟨rfl, h⟩
    all_goals
      have e : ∀ c : Number, c = .real (XR.sub F (.fin x) (.fin y)) → c.Is F (x - y) := by
        rintro c rfl
        simp only [XR.sub, XR.neg, XR.add, h']
        exact is_real F _
      exact e _ (by rw [← ra, ← rb]; rfl)
  · rcases is_cases ha with ⟨i, rfl, h1, h2⟩ | rfl <;> rcases is_cases hb with ⟨j, rfl, h3, h4⟩ | rfl
    · simp only [mul, Number.Is, Number.w, Number.Ok, fin_inj]
      push_cast; rw [h1, h3]; exact ⟨rfl, h⟩
    all_goals
      have e : ∀ c : Number, c = .real (XR.mul F (.fin x) (.fin y)) → c.Is F (x * y) := by
        rintro c rfl
        simp only [XR.mul, h]
        exact is_real F _
      exact e _ (by rw [← ra, ← rb]; rfl)
  · rcases is_cases ha with ⟨i, rfl, h1, h2⟩ | rfl
    · refine ⟨by simp [neg, Number.w, h1], ?_⟩
      simp only [neg, Number.Ok]; push_cast; rw [h1, h]
    · exact is_real F _
  · rcases is_cases ha with ⟨i, rfl, h1, h2⟩ | rfl
    · have : ((i.natAbs : Int) : ℚ) = |x| := by rw [Int.natCast_natAbs, ← h1]; exact Int.cast_abs
      refine ⟨by simp only [Number.abs, Number.w]; rw [this], ?_⟩
      simp only [Number.abs, Number.Ok]; rw [this, h]
    · have : (if x < 0 then -x else x) = |x| := by
        split
        · exact (abs_of_neg (by assumption)).symm
        · exact (abs_of_nonneg (by linarith)).symm
      simp only [Number.abs, XR.abs, this]; exact is_real F _

example : (Number.int 3).Is exact 3 ∧ (Number.real (.fin (1/2))).Is exact (1/2) ∧
    exact.r (3 + 1/2) = 3 + 1/2 := ⟨⟨rfl, rfl⟩, is_real _ _, rfl⟩

/-- C46, arithmetic, rounding: integers are added, subtracted and multiplied exactly at any size;
with a real involved the result is the rounding of the exact result on the (rounded) operands. -/
theorem arith_rounded (F : Fmt) :
    (∀ i j : Int, add F (.int i) (.int j) = .int (i + j) ∧ sub F (.int i) (.int j) = .int (i - j) ∧
      mul F (.int i) (.int j) = .int (i * j)) ∧
    (∀ (a : Number) (x q : ℚ), a.Is F x →
      add F a (.real (.fin q)) = .real (.fin (F.r (x + q))) ∧
      add F (.real (.fin q)) a = .real (.fin (F.r (q + x))) ∧
      sub F a (.real (.fin q)) = .real (.fin (F.r (x - q))) ∧
      sub F (.real (.fin q)) a = .real (.fin (F.r (q - x))) ∧
      mul F a (.real (.fin q)) = .real (.fin (F.r (x * q))) ∧
      mul F (.real (.fin q)) a = .real (.fin (F.r (q * x)))) := by
  refine ⟨fun _ _ => ⟨rfl, rfl, rfl⟩, fun a x q ha => ?_⟩
  have ra := is_toReal ha
  have rq : toReal F (.real (.fin q)) = .fin q := rfl
  have hs : ∀ u v : ℚ, XR.sub F (.fin u) (.fin v) = .fin (F.r (u - v)) := by
    intro u v; simp only [XR.sub, XR.neg, XR.add, sub_eq_add_neg]
  have e1 : ∀ b : Number, add F b (.real (.fin q)) = .real (XR.add F (toReal F b) (.fin q)) := by
    rintro (_ | _) <;> rfl
  have e2 : ∀ b : Number, add F (.real (.fin q)) b = .real (XR.add F (.fin q) (toReal F b)) := by
    rintro (_ | _) <;> rfl
  have e3 : ∀ b : Number, sub F b (.real (.fin q)) = .real (XR.sub F (toReal F b) (.fin q)) := by
    rintro (_ | _) <;> rfl
  have e4 : ∀ b : Number, sub F (.real (.fin q)) b = .real (XR.sub F (.fin q) (toReal F b)) := by
    rintro (_ | _) <;> rfl
  have e5 : ∀ b : Number, mul F b (.real (.fin q)) = .real (XR.mul F (toReal F b) (.fin q)) := by
    rintro (_ | _) <;> rfl
  have e6 : ∀ b : Number, mul F (.real (.fin q)) b = .real (XR.mul F (.fin q) (toReal F b)) := by
    rintro (_ | _) <;> rfl
  simp only [e1, e2, e3, e4, e5, e6, ra, hs, XR.add, XR.mul, and_self]

/-- C46, division: `/` gives the exact quotient of any two numbers when it fits the working
precision, and throws or yields an infinity or NaN only for a zero divisor. -/
theorem div_exact_partial (F : Fmt) (a b : Number) (x y : ℚ) (ha : a.Is F x) (hb : b.Is F y)
    (hy : y ≠ 0) (h : F.r (x / y) = x / y) : ∃ c, div F a b = .ok c ∧ c.Is F (x / y) := by
  have ra := is_toReal ha
  have rb := is_toReal hb
  have hr : ∀ c : Number, c = .real (XR.div F (.fin x) (.fin y)) → c.Is F (x / y) := by
    rintro c rfl; simp only [XR.div, hy, if_false, h]; exact is_real F _
  rcases is_cases ha with ⟨i, rfl, h1, h2⟩ | rfl <;> rcases is_cases hb with ⟨j, rfl, h3, h4⟩ | rfl
  · have hj : j ≠ 0 := by rintro rfl; exact hy (by rw [← h3]; rfl)
    simp only [div, hj, if_false]
    split
    · rename_i hm
      refine ⟨_, rfl, ?_⟩
      have hd : (i.tdiv j : ℚ) = x / y := by
        rw [← h1, ← h3]
        have := Int.tdiv_mul_cancel_of_tmod_eq_zero hm
        rw [eq_div_iff (by exact_mod_cast hj)]
        exact_mod_cast this
      refine ⟨by simp [Number.w, hd], ?_⟩
      simp only [Number.Ok]; rw [hd, h]
    · exact ⟨_, rfl, hr _ (by rw [ra, rb])⟩
  · exact ⟨_, rfl, hr _ (by rw [ra, rb])⟩
  · exact ⟨_, rfl, hr _ (by rw [ra, rb])⟩
  · exact ⟨_, rfl, hr _ (by rw [ra, rb])⟩

/-- C46, compound assignment: agrees with the operator when the left side is a real, or when both
are integers (`/=` only when divisible). -/
theorem asg_partial (F : Fmt) (a b : Number) (h : (∃ x, a = .real x) ∨ ∃ j, b = .int j) :
    addAsg F a b = add F a b ∧ subAsg F a b = sub F a b ∧ mulAsg F a b = mul F a b ∧
    ((∀ i j, a = .int i → b = .int j → j ≠ 0 → i.tmod j = 0) → divAsg F a b = div F a b) := by
  rcases h with ⟨x, rfl⟩ | ⟨j, rfl⟩
  · cases b <;> exact ⟨rfl, rfl, rfl, fun _ => rfl⟩
  · cases a with
    | real x => exact ⟨rfl, rfl, rfl, fun _ => rfl⟩
    | int i =>
      refine ⟨rfl, rfl, rfl, fun h => ?_⟩
      simp only [divAsg, div]
      split
      · rfl
      · rename_i hj; rw [if_pos (h i j rfl rfl hj)]

/-- C46, compound assignment, where it fails: `i += q` with an integer left side and a real right
side leaves `i` unchanged, for all `i` and all `q`; so it is wrong whenever `q` is not zero.  The
same for `-=`, and for `*=` and `/=` unless `i` is 0 or `q` is 1.  And `1 /= 2` is 0. -/
theorem asg_violated (F : Fmt) (i : Int) (q : ℚ) :
    (q ≠ 0 → (addAsg F (.int i) (.real (.fin q))).w ≠ fin (i + q)) ∧
    (q ≠ 0 → (subAsg F (.int i) (.real (.fin q))).w ≠ fin (i - q)) ∧
    (i ≠ 0 → q ≠ 1 → (mulAsg F (.int i) (.real (.fin q))).w ≠ fin (i * q)) ∧
    divAsg F (.int 1) (.int 2) = .ok (.int 0) := by
  refine ⟨fun h => ?_, fun h => ?_, fun h1 h2 => ?_, rfl⟩
  · simp only [addAsg, Number.w, ne_eq, fin_inj]; intro hc; apply h; linarith
  · simp only [subAsg, Number.w, ne_eq, fin_inj]; intro hc; apply h; linarith
  · simp only [mulAsg, Number.w, ne_eq, fin_inj]; intro hc
    have hi : (i : ℚ) ≠ 0 := by exact_mod_cast h1
    have : (i : ℚ) * (q - 1) = 0 := by linarith
    rcases mul_eq_zero.mp this with h | h
    · exact hi h
    · exact h2 (by linarith)

/-- C46: `++`/`--` add and subtract one. -/
theorem inc_exact_partial (F : Fmt) (a : Number) (x : ℚ) (ha : a.Is F x) (h1 : F.r 1 = 1)
    (h : F.r (x + 1) = x + 1) (h' : F.r (x - 1) = x - 1) :
    (inc F a).Is F (x + 1) ∧ (dec F a).Is F (x - 1) := by
  rcases is_cases ha with ⟨i, rfl, h2, h3⟩ | rfl
  · refine ⟨⟨by simp [inc, Number.w, h2], ?_⟩, ⟨by simp [dec, Number.w, h2], ?_⟩⟩
    · simp only [inc, Number.Ok]; push_cast; rw [h2, h]
    · simp only [dec, Number.Ok]; push_cast; rw [h2, h']
  · simp only [inc, dec, XR.add, XR.sub, XR.neg, h1, h, ← sub_eq_add_neg, h']
    exact ⟨is_real F _, is_real F _⟩

/-- C46: `floor` and `ceil` are the floor and ceiling of the value. -/
theorem floor_exact (F : Fmt) (a : Number) (x : ℚ) (ha : a.Is F x) :
    (floor a).w = fin (x.floor : ℚ) ∧ (ceil a).w = fin (x.ceil : ℚ) := by
  rcases is_cases ha with ⟨i, rfl, h2, h3⟩ | rfl
  · subst h2; simp only [floor, ceil, Number.w, Rat.floor_intCast, Rat.ceil_intCast, and_self]
  · exact ⟨rfl, rfl⟩

end SMT.Num
