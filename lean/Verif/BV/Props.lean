import Verif.BV.Lemmas3
/-!
# Properties C01-C10: bit-vector constant folding

`con x` is the constant node of `x : BitVec w`, `foldBin o l r` is what `simp_oper` returns for two
constant operands. `BinOp.spec` is the SMT-LIB meaning, taken from Lean's core `BitVec` library.
Hypotheses `0 < w` and `w < ulim` (= 2^64) are the widths an SMT-LIB sort / `size_t` can have.
-/

namespace SMT.BV
open Res

/-- SMT-LIB meaning of each binary operator, in terms of the core library. -/
def BinOp.spec {w : Nat} : BinOp → BitVec w → BitVec w → BitVec w
  | .and, x, y => x &&& y
  | .or, x, y => x ||| y
  | .xor, x, y => x ^^^ y
  | .nand, x, y => ~~~(x &&& y)
  | .nor, x, y => ~~~(x ||| y)
  | .xnor, x, y => ~~~(x ^^^ y)
  | .add, x, y => x + y
  | .sub, x, y => x - y
  | .mul, x, y => x * y
  | .udiv, x, y => x.smtUDiv y
  | .urem, x, y => x.umod y
  | .sdiv, x, y => x.smtSDiv y
  | .srem, x, y => x.srem y
  | .smod, x, y => x.smod y
  | .shl, x, y => x <<< y.toNat
  | .lshr, x, y => x >>> y.toNat
  | .ashr, x, y => x.sshiftRight y.toNat

theorem foldBin_of_util {w : Nat} (h0 : 0 < w) (hw : w < ulim) (o : BinOp) (x y z : BitVec w)
    (h : o.util (lit x) (lit y) = ok (lit z)) : foldBin o (con x) (con y) = ok (con z) := by
  have : foldBin o (con x) (con y) = mkConstBv (lit z) w := by
    unfold foldBin
    simp only [con, h, ok_bind]
    cases o <;> rfl
  rw [this, mkConstBv_lit z h0 hw]

/-! ## C01 -/

/-- The operators whose folding is bitwise. -/
def BinOp.isBitwise : BinOp → Bool
  | .and | .or | .xor | .nand | .nor | .xnor => true
  | _ => false

theorem util_bitwise {w : Nat} (o : BinOp) (ho : o.isBitwise) (x y : BitVec w) :
    o.util (lit x) (lit y) = ok (lit (o.spec x y)) := by
  cases o <;> simp [BinOp.isBitwise] at ho <;> simp only [BinOp.util, BinOp.spec]
  · exact bitwise_lit _ (· && ·) (by decide) x y _ (by simp)
  · exact bitwise_lit _ (· || ·) (by decide) x y _ (by simp)
  · exact bitwise_lit _ (· ^^ ·) (by decide) x y _ (by simp)
  · exact bitwise_lit _ (fun a b => !(a && b)) (by decide) x y _ (by simp)
  · exact bitwise_lit _ (fun a b => !(a || b)) (by decide) x y _ (by simp)
  · exact bitwise_lit _ (fun a b => !(a ^^ b)) (by decide) x y _ (by simp)

/-- **C01** Folding bvand, bvor, bvxor, bvnand, bvnor, bvxnor on two literals of width `w` gives the
literal of the SMT-LIB result. -/
theorem fold_bitwise_exact {w : Nat} (h0 : 0 < w) (hw : w < ulim) (o : BinOp) (ho : o.isBitwise)
    (x y : BitVec w) : foldBin o (con x) (con y) = ok (con (o.spec x y)) :=
  foldBin_of_util h0 hw o x y _ (util_bitwise o ho x y)

example : foldBin .nand (con (0xA#4)) (con (0x6#4)) = ok (con (0xD#4)) :=
  fold_bitwise_exact (by decide) (by rw [ulim_eq]; decide) .nand rfl _ _

/-- **C01** Folding bvnot. -/
theorem fold_not_exact {w : Nat} (h0 : 0 < w) (hw : w < ulim) (x : BitVec w) :
    foldNot (con x) = ok (con (~~~x)) := by
  have : bvNot (lit x) = ok (lit (~~~x)) := by
    simp only [bvNot, body_lit, ok_bind, flip_digits]; rfl
  simp only [foldNot, con, this, ok_bind]
  exact mkConstBv_lit _ h0 hw

example : foldNot (con (0xA#4)) = ok (con (0x5#4)) :=
  fold_not_exact (by decide) (by rw [ulim_eq]; decide) _

/-! ## C02 -/

/-- **C02** Folding bvneg. -/
theorem fold_neg_exact {w : Nat} (h0 : 0 < w) (hw : w < ulim) (x : BitVec w) :
    foldNeg (con x) = ok (con (-x)) := by
  simp only [foldNeg, con, bvNeg_lit, ok_bind]
  exact mkConstBv_lit _ h0 hw

example : foldNeg (con (0x8#4)) = ok (con (0x8#4)) :=
  fold_neg_exact (by decide) (by rw [ulim_eq]; decide) _

/-- **C02** Folding bvadd: addition modulo 2^w. -/
theorem fold_add_exact {w : Nat} (h0 : 0 < w) (hw : w < ulim) (x y : BitVec w) :
    foldBin .add (con x) (con y) = ok (con (x + y)) :=
  foldBin_of_util h0 hw .add x y _ (bvAdd_lit x y)

example : foldBin .add (con (0xB#4)) (con (0x7#4)) = ok (con (0x2#4)) :=
  fold_add_exact (by decide) (by rw [ulim_eq]; decide) _ _

/-- **C02** Folding bvmul: multiplication modulo 2^w. -/
theorem fold_mul_exact {w : Nat} (h0 : 0 < w) (hw : w < ulim) (x y : BitVec w) :
    foldBin .mul (con x) (con y) = ok (con (x * y)) :=
  foldBin_of_util h0 hw .mul x y _ (bvMul_lit h0 x y)

example : foldBin .mul (con (0xB#4)) (con (0x7#4)) = ok (con (0xD#4)) :=
  fold_mul_exact (by decide) (by rw [ulim_eq]; decide) _ _

/-- **C01/C02** n-ary applications of the exact operators fold from the left to the SMT-LIB value. -/
theorem fold_many_exact {w : Nat} (h0 : 0 < w) (hw : w < ulim) (o : BinOp)
    (ho : o.isBitwise ∨ o = .add ∨ o = .mul) (x : BitVec w) (ys : List (BitVec w)) :
    foldMany o (con x) (ys.map con) = ok (con (ys.foldl o.spec x)) := by
  induction ys generalizing x with
  | nil => rfl
  | cons y ys ih =>
    have : foldBin o (con x) (con y) = ok (con (o.spec x y)) := by
      rcases ho with ho | rfl | rfl
      · exact fold_bitwise_exact h0 hw o ho x y
      · exact fold_add_exact h0 hw x y
      · exact fold_mul_exact h0 hw x y
    simp only [List.map_cons, foldMany, this, ok_bind, List.foldl_cons]
    exact ih _

example : foldMany .add (con (1#8)) ([2#8, 3#8].map con) = ok (con (6#8)) :=
  fold_many_exact (by decide) (by rw [ulim_eq]; decide) .add (Or.inr (Or.inl rfl)) _ _

/-! ## C03 -/

/-- **C03** (exact behaviour of the code) bvsub folds to `(x + y) xor (x or y)`. -/
theorem fold_sub_actual {w : Nat} (h0 : 0 < w) (hw : w < ulim) (x y : BitVec w) :
    foldBin .sub (con x) (con y) = ok (con ((x + y) ^^^ (x ||| y))) :=
  foldBin_of_util h0 hw .sub x y _ (bvSub_lit x y)

theorem con_inj {w : Nat} {x y : BitVec w} : con x = con y ↔ x = y := by
  constructor
  · intro h
    exact lit_inj.1 (congrArg Const.text h)
  · intro h; rw [h]

/-- **C03** (full characterisation, the property holds only here) bvsub folding is correct exactly
when both operands are zero. Missing: every other pair of operands, where the code is wrong. -/
theorem fold_sub_correct_iff_partial {w : Nat} (h0 : 0 < w) (hw : w < ulim) (x y : BitVec w) :
    foldBin .sub (con x) (con y) = ok (con (x - y)) ↔ x = 0#w ∧ y = 0#w := by
  rw [fold_sub_actual h0 hw]
  constructor
  · intro h
    have h : (x + y) ^^^ (x ||| y) = x - y := by simpa [con_inj] using h
    have key := vb_subB_wrong (lsb x) (lsb y) (by simp)
    rw [subB_lsb, h] at key
    simp only [vb_lsb, lsb_length] at key
    have e : ((x - y).toNat + y.toNat) % 2 ^ w = x.toNat := by
      rw [← BitVec.toNat_add, BitVec.sub_add_cancel]
    have := key e
    exact ⟨BitVec.eq_of_toNat_eq (by simp [this.1]), BitVec.eq_of_toNat_eq (by simp [this.2])⟩
  · rintro ⟨rfl, rfl⟩; simp

example : foldBin .sub (con (0#4)) (con (0#4)) = ok (con (0#4)) := by
  have := (fold_sub_correct_iff_partial (w := 4) (by decide) (by rw [ulim_eq]; decide) 0#4 0#4).2 ⟨rfl, rfl⟩
  simpa using this

/-- **C03 violated**: 1 - 0 folds to 0. -/
theorem fold_sub_violated : foldBin .sub (con (1#4)) (con (0#4)) = ok (con (0#4)) :=
  fold_sub_actual (by decide) (by rw [ulim_eq]; decide) _ _

/-! ## C04 -/

theorem smtUDiv_ne {w : Nat} (x y : BitVec w) (hy : y ≠ 0#w) : x.smtUDiv y = x / y := by
  have : ¬ y = 0 := hy
  simp only [BitVec.smtUDiv, this, if_false]; rfl

theorem smtUDiv_zero' {w : Nat} (x : BitVec w) : x.smtUDiv (0#w) = BitVec.allOnes w := by
  simp [BitVec.smtUDiv]

/-- **C04** (exact behaviour) bvudiv by a non-zero literal folds to 1 or 0. -/
theorem fold_udiv_actual {w : Nat} (h0 : 0 < w) (hw : w < ulim) (x y : BitVec w) (hy : y ≠ 0#w) :
    foldBin .udiv (con x) (con y) = ok (con (if y ≤ x then 1#w else 0#w)) :=
  foldBin_of_util h0 hw .udiv x y _ (bvUdiv_lit x y hy)

/-- **C04** (partial: full characterisation) bvudiv folding is correct exactly when the divisor is
zero or the quotient is at most 1. Missing: larger quotients, where the code is wrong. -/
theorem fold_udiv_correct_iff_partial {w : Nat} (h0 : 0 < w) (hw : w < ulim) (x y : BitVec w) :
    foldBin .udiv (con x) (con y) = ok (con (x.smtUDiv y)) ↔
      y = 0#w ∨ x.toNat < 2 * y.toNat := by
  by_cases hy : y = 0#w
  · subst hy
    have := foldBin_of_util h0 hw .udiv x (0#w) _ (bvUdiv_zero x)
    rw [this]
    simp [BitVec.smtUDiv]
  · rw [fold_udiv_actual h0 hw x y hy]
    have hpos : 0 < y.toNat := by
      rcases Nat.eq_zero_or_pos y.toNat with h | h
      · exact absurd (BitVec.eq_of_toNat_eq (by simpa using h)) hy
      · exact h
    have hone : (1#w).toNat = 1 := by simp; omega
    simp only [ok.injEq, con_inj, hy, false_or, smtUDiv_ne x y hy]
    constructor
    · intro h
      have h := congrArg BitVec.toNat h
      rw [BitVec.toNat_udiv] at h
      split at h
      next hle =>
        rw [hone] at h
        have := Nat.lt_mul_div_succ x.toNat hpos
        rw [← h] at this; omega
      next hle =>
        rw [BitVec.le_def] at hle; omega
    · intro h
      apply BitVec.eq_of_toNat_eq
      rw [BitVec.toNat_udiv]
      split
      next hle =>
        rw [BitVec.le_def] at hle
        rw [hone]
        symm
        rw [Nat.div_eq_iff (by omega)]; omega
      next hle =>
        rw [BitVec.le_def] at hle
        rw [Nat.div_eq_of_lt (by omega)]; simp

example : foldBin .udiv (con (5#4)) (con (3#4)) = ok (con (1#4)) :=
  (fold_udiv_correct_iff_partial (by decide) (by rw [ulim_eq]; decide) _ _).2 (Or.inr (by decide))
example : foldBin .udiv (con (5#4)) (con (0#4)) = ok (con (15#4)) :=
  (fold_udiv_correct_iff_partial (by decide) (by rw [ulim_eq]; decide) _ _).2 (Or.inl rfl)

/-- **C04 violated**: 6 / 2 folds to 1. -/
theorem fold_udiv_violated : foldBin .udiv (con (6#4)) (con (2#4)) = ok (con (1#4)) :=
  fold_udiv_actual (by decide) (by rw [ulim_eq]; decide) _ _ (by decide)

/-- **C04** (exact behaviour) bvurem by a non-zero literal. -/
theorem fold_urem_actual {w : Nat} (h0 : 0 < w) (hw : w < ulim) (x y : BitVec w) (hy : y ≠ 0#w) :
    foldBin .urem (con x) (con y) =
      ok (con (if y ≤ x then (x + y) ^^^ (x ||| y) else 0#w)) :=
  foldBin_of_util h0 hw .urem x y _ (bvUrem_lit x y hy)

/-- **C04** (partial) bvurem is folded correctly for a zero divisor and for a zero dividend; for a
dividend smaller than the divisor it is correct *only* when the dividend is zero. Missing: `y ≤ x`,
where the code computes `(x+y) xor (x or y)` (see `fold_urem_actual`). -/
theorem fold_urem_partial {w : Nat} (h0 : 0 < w) (hw : w < ulim) (x y : BitVec w)
    (h : y = 0#w ∨ x < y) :
    foldBin .urem (con x) (con y) = ok (con (x.umod y)) ↔ y = 0#w ∨ x = 0#w := by
  rcases h with rfl | h
  · have := foldBin_of_util h0 hw .urem x (0#w) _ (bvUrem_zero x)
    rw [this]; simp
  · have hy : y ≠ 0#w := by rintro rfl; exact absurd h (by simp [BitVec.lt_def])
    rw [fold_urem_actual h0 hw x y hy]
    have hle : ¬ y ≤ x := by rw [BitVec.le_def]; rw [BitVec.lt_def] at h; omega
    have e : x.umod y = x := by
      apply BitVec.eq_of_toNat_eq
      show (x % y).toNat = x.toNat
      rw [BitVec.toNat_umod, Nat.mod_eq_of_lt h]
    simp only [hle, if_false, e, ok.injEq, con_inj, hy, false_or]
    exact eq_comm

example : foldBin .urem (con (9#4)) (con (0#4)) = ok (con (9#4)) :=
  (fold_urem_partial (by decide) (by rw [ulim_eq]; decide) (9#4) (0#4) (Or.inl rfl)).2 (Or.inl rfl)

/-- **C04 violated**: 3 mod 5 folds to 0. -/
theorem fold_urem_violated : foldBin .urem (con (3#4)) (con (5#4)) = ok (con (0#4)) :=
  fold_urem_actual (by decide) (by rw [ulim_eq]; decide) _ _ (by decide)

/-! ## C05 -/

theorem util_sdiv_nonzero {w : Nat} (h0 : 0 < w) (hw : w < ulim) (x y : BitVec w) (hy : y ≠ 0#w) :
    bvSdiv (lit x) (lit y) = ok (lit (x.sdiv y)) := by
  have hb : y.toInt ≠ 0 := fun h => hy ((toInt_eq_zero y).1 h)
  simp only [bvSdiv, bvToInt_lit, ok_bind, lit_length, Nat.add_sub_cancel, hb, if_false, truncDiv_eq,
    intToBv_ok _ w h0 hw]
  have key : BitVec.ofInt w (x.toInt.tdiv y.toInt) = x.sdiv y := by
    apply BitVec.eq_of_toInt_eq
    rw [BitVec.toInt_sdiv, BitVec.toInt_ofInt]
  split
  next h =>
    rw [← key, h.1, h.2]
    congr 2
    rw [ofInt_eq_iff]
    cases w with
    | zero => omega
    | succ n =>
      simp only [Nat.add_sub_cancel, Int.tdiv_neg, Int.tdiv_one]
      rw [Int.pow_succ]
      exact ⟨-1, by omega⟩
  next => rw [key]

/-- **C05** (exact behaviour) bvsdiv by zero. -/
theorem util_sdiv_zero {w : Nat} (h0 : 0 < w) (hw : w < ulim) (x : BitVec w) :
    bvSdiv (lit x) (lit (0#w)) = ok (lit (if w = 1 ∨ x.msb then 1#w else x)) := by
  simp only [bvSdiv, bvToInt_lit, ok_bind, lit_length, Nat.add_sub_cancel, BitVec.toInt_zero, if_true,
    intToBv_ok _ w h0 hw]
  by_cases h1 : w = 1
  · subst h1; simp; rfl
  · simp only [h1, if_false, false_or]
    have hm : x.toInt < 0 ↔ x.msb = true := by
      rw [BitVec.msb_eq_toInt]; simp
    by_cases hx : x.msb = true
    · simp [hm.2 hx, hx]
    · have : ¬ x.toInt < 0 := fun h => hx (hm.1 h)
      simp [this, hx]

/-- **C05** (partial: full characterisation) bvsdiv folding is correct exactly when the divisor is not
zero, or the width is 1, or the dividend is negative. Missing: `x ≥ 0` divided by zero, where the
code returns `x` instead of all ones. -/
theorem fold_sdiv_correct_iff_partial {w : Nat} (h0 : 0 < w) (hw : w < ulim) (x y : BitVec w) :
    foldBin .sdiv (con x) (con y) = ok (con (x.smtSDiv y)) ↔ y ≠ 0#w ∨ w = 1 ∨ x.msb = true := by
  by_cases hy : y = 0#w
  · subst hy
    rw [foldBin_of_util h0 hw .sdiv x (0#w) _ (util_sdiv_zero h0 hw x)]
    simp only [ok.injEq, con_inj, ne_eq, not_true, false_or]
    have e : x.smtSDiv (0#w) = if x.msb then 1#w else BitVec.allOnes w := by
      cases hx : x.msb
      · simp [BitVec.smtSDiv, BitVec.smtUDiv, hx]
      · simp only [BitVec.smtSDiv, hx, BitVec.smtUDiv]
        simp only [BitVec.msb_zero]
        simp
        rw [BitVec.neg_eq_not_add]; simp
    rw [e]
    by_cases hx : x.msb = true
    · simp [hx]
    · simp only [hx, or_false, Bool.false_eq_true, if_false]
      by_cases h1 : w = 1
      · subst h1; simp
      · simp only [h1, if_false, iff_false]
        intro h
        apply hx
        rw [h]
        cases w with
        | zero => omega
        | succ n => simp [BitVec.msb_allOnes]
  · rw [foldBin_of_util h0 hw .sdiv x y _ (util_sdiv_nonzero h0 hw x y hy)]
    simp only [ok.injEq, con_inj, ne_eq, hy, not_false_eq_true, true_or, iff_true]
    have hneg : ∀ z : BitVec w, z ≠ 0#w → -z ≠ 0#w := by
      intro z hz h; apply hz; simpa using congrArg (- ·) h
    have hn := hneg y hy
    have hn' : ¬ y.neg = 0#w := hn
    unfold BitVec.smtSDiv BitVec.sdiv
    cases x.msb <;> cases y.msb <;> simp only [smtUDiv_ne _ _ hy, smtUDiv_ne _ _ hn] <;> first | rfl | (rw [smtUDiv_ne _ _ hn']; rfl)

example : foldBin .sdiv (con (0x8#4)) (con (0xF#4)) = ok (con (0x8#4)) :=
  (fold_sdiv_correct_iff_partial (by decide) (by rw [ulim_eq]; decide) (0x8#4) (0xF#4)).2
    (Or.inl (by decide))

/-- **C05 violated**: 5 sdiv 0 folds to 5 (SMT-LIB: all ones). -/
theorem fold_sdiv_violated : foldBin .sdiv (con (5#4)) (con (0#4)) = ok (con (5#4)) :=
  foldBin_of_util (by decide) (by rw [ulim_eq]; decide) .sdiv _ _ _
    (util_sdiv_zero (by decide) (by rw [ulim_eq]; decide) _)

/-- **C05** bvsrem folding is exact for every pair of operands, zero divisor included. -/
theorem fold_srem_exact {w : Nat} (h0 : 0 < w) (hw : w < ulim) (x y : BitVec w) :
    foldBin .srem (con x) (con y) = ok (con (x.srem y)) := by
  apply foldBin_of_util h0 hw .srem
  simp only [BinOp.util, bvSrem, bvToInt_lit, ok_bind, lit_length, Nat.add_sub_cancel, truncDiv_eq,
    intToBv_ok _ w h0 hw]
  by_cases hy : y.toInt = 0
  · rw [(toInt_eq_zero y).1 hy]; simp
  · simp only [hy, if_false]
    congr 2
    apply BitVec.eq_of_toInt_eq
    rw [BitVec.toInt_srem]
    have : x.toInt - x.toInt.tdiv y.toInt * y.toInt = x.toInt.tmod y.toInt := by
      have := Int.mul_tdiv_add_tmod x.toInt y.toInt
      rw [Int.mul_comm] at this; omega
    rw [this, ← BitVec.toInt_srem, BitVec.ofInt_toInt]

example : foldBin .srem (con (0x9#4)) (con (0x4#4)) = ok (con (0xD#4)) :=
  fold_srem_exact (by decide) (by rw [ulim_eq]; decide) _ _

/-- The value the code computes for bvsmod with a non-zero divisor, as an integer function of the
signed values. -/
def smodActual (a b : Int) : Int :=
  if a % b = 0 then 0
  else if (a > 0 ∧ b > 0) ∨ (a < 0 ∧ b < 0) then a % b
  else if b < 0 then -(-b - a % b) else b - a % b

theorem util_smod {w : Nat} (h0 : 0 < w) (hw : w < ulim) (x y : BitVec w) (hy : y ≠ 0#w) :
    bvSmod (lit x) (lit y) = ok (lit (BitVec.ofInt w (smodActual x.toInt y.toInt))) := by
  have hb : y.toInt ≠ 0 := fun h => hy ((toInt_eq_zero y).1 h)
  simp only [bvSmod, bvToInt_lit, ok_bind, lit_length, Nat.add_sub_cancel, hb, if_false,
    intToBv_ok _ w h0 hw]
  have habs : mathMod x.toInt (if y.toInt > 0 then y.toInt else -y.toInt) = x.toInt % y.toInt := by
    rw [mathMod_pos _ _ (by split <;> omega)]
    split
    · rfl
    · rw [Int.emod_neg]
  rw [habs]
  unfold smodActual
  by_cases h1 : x.toInt % y.toInt = 0
  · simp [h1]
  · simp only [h1, if_false]
    by_cases h2 : (x.toInt > 0 ∧ y.toInt > 0) ∨ (x.toInt < 0 ∧ y.toInt < 0)
    · simp only [h2, if_true]
    · simp only [h2, if_false]
      by_cases h3 : y.toInt < 0
      · have : ¬ y.toInt > 0 := by omega
        simp [h3, this]
      · have : y.toInt > 0 := by omega
        simp [h3, this]

/-- **C05** (partial: full characterisation) bvsmod folding is correct exactly when the divisor is
zero, or the dividend is non-negative, or the divisor divides the dividend, or (by accident) the
remainder is half a positive divisor. Missing: negative dividends otherwise, where the code is
wrong. -/
theorem fold_smod_correct_iff_partial {w : Nat} (h0 : 0 < w) (hw : w < ulim) (x y : BitVec w) :
    foldBin .smod (con x) (con y) = ok (con (x.smod y)) ↔
      y = 0#w ∨ 0 ≤ x.toInt ∨ x.toInt % y.toInt = 0 ∨
        (0 < y.toInt ∧ 2 * (x.toInt % y.toInt) = y.toInt) := by
  by_cases hy : y = 0#w
  · subst hy
    have : bvSmod (lit x) (lit (0#w)) = ok (lit x) := by
      simp [bvSmod, bvToInt_lit]
    rw [foldBin_of_util h0 hw .smod x (0#w) _ this]
    simp
  · rw [foldBin_of_util h0 hw .smod x y _ (util_smod h0 hw x y hy)]
    have hb : y.toInt ≠ 0 := fun h => hy ((toInt_eq_zero y).1 h)
    have e : x.smod y = BitVec.ofInt w (x.toInt.fmod y.toInt) := by
      apply BitVec.eq_of_toInt_eq
      rw [← BitVec.toInt_smod, BitVec.ofInt_toInt]
    simp only [ok.injEq, con_inj, hy, false_or, e, ofInt_eq_iff]
    obtain ⟨n, rfl⟩ : ∃ n, w = n + 1 := ⟨w - 1, by omega⟩
    have b1 := toInt_bounds x
    have b2 := toInt_bounds y
    generalize x.toInt = a at *
    generalize y.toInt = b at *
    have hp : (0 : Int) < 2 ^ n := Int.pow_pos (by omega)
    rw [Int.pow_succ]
    have m1 := Int.emod_nonneg a hb
    have m2 := Int.emod_lt a hb
    rw [Int.fmod_eq_emod]
    have hdvd : (b ∣ a) ↔ a % b = 0 := by
      rw [Int.dvd_iff_emod_eq_zero]
    have small : ∀ z : Int, -(2 ^ n * 2) < z → z < 2 ^ n * 2 → (2 ^ n * 2 ∣ z ↔ z = 0) := by
      intro z hz1 hz2
      constructor
      · rintro ⟨k, hk⟩
        have : k = 0 := by
          rcases Int.lt_trichotomy k 0 with h | h | h
          · have : 2 ^ n * 2 * k ≤ 2 ^ n * 2 * (-1) := Int.mul_le_mul_of_nonneg_left (by omega) (by omega)
            omega
          · exact h
          · have : 2 ^ n * 2 * 1 ≤ 2 ^ n * 2 * k := Int.mul_le_mul_of_nonneg_left (by omega) (by omega)
            omega
        rw [hk, this]; simp
      · rintro rfl; exact ⟨0, by simp⟩
    unfold smodActual
    by_cases h1 : a % b = 0
    · simp [h1, hdvd]
    · simp only [h1, if_false, hdvd, or_false, false_or]
      have hnat : (b.natAbs : Int) = if 0 ≤ b then b else -b := by split <;> omega
      rw [hnat] at m2
      by_cases hb0 : 0 ≤ b
      · simp only [hb0, if_true] at m2
        have hb1 : 0 < b := by omega
        have hb2 : ¬ b < 0 := by omega
        simp only [hb1, hb2, hb0, if_true, if_false, and_false, or_false, true_and, gt_iff_lt, and_true]
        by_cases ha : 0 < a
        · have : (0 ≤ a) := by omega
          simp [ha, this]
        · have ha' : ¬ 0 ≤ a := by
            intro h; have : a = 0 := by omega
            subst this; simp at h1
          simp only [ha, ha', if_false, false_or]
          rw [small _ (by omega) (by omega)]
          omega
      · have hb1 : ¬ 0 < b := by omega
        have hb2 : b < 0 := by omega
        simp only [hb0, if_false] at m2
        simp only [hb1, hb2, hb0, if_true, if_false, and_false, false_or, true_and, gt_iff_lt, and_true, false_and, or_false]
        by_cases ha : a < 0
        · have : ¬ 0 ≤ a := by omega
          simp only [ha, this, if_true, iff_false]
          rw [small _ (by omega) (by omega)]
          omega
        · have : 0 ≤ a := by omega
          simp only [ha, this, if_false, iff_true]
          rw [small _ (by omega) (by omega)]
          omega

example : foldBin .smod (con (0x7#4)) (con (0xD#4)) = ok (con (0xE#4)) :=
  (fold_smod_correct_iff_partial (by decide) (by rw [ulim_eq]; decide) (0x7#4) (0xD#4)).2
    (Or.inr (Or.inl (by decide)))

/-- **C05 violated**: -7 smod 3 folds to 1 (SMT-LIB: 2). -/
theorem fold_smod_violated : foldBin .smod (con (0x9#4)) (con (3#4)) = ok (con (1#4)) :=
  foldBin_of_util (by decide) (by rw [ulim_eq]; decide) .smod _ _ _
    (util_smod (by decide) (by rw [ulim_eq]; decide) _ _ (by decide))

example : (0x9#4).smod 3#4 = 2#4 := by decide

/-! ## C06

`decReading y` is the number one gets by reading the *binary* digits of `y` in base ten; it is what
the code uses as shift amount. -/

theorem fold_shift_common {w : Nat} (h0 : 0 < w) (hw : w < ulim) (o : BinOp)
    (ho : o = .shl ∨ o = .lshr ∨ o = .ashr) (x y : BitVec w) :
    foldBin o (con x) (con y) =
      if decReading y < ulim then
        ok (con (match o with
          | .shl => if decReading y < w then (x >>> decReading y) <<< decReading y else 0#w
          | .lshr => x >>> decReading y
          | _ => x.sshiftRight (decReading y)))
      else throw := by
  have hs := shiftAmount_lit h0 y
  by_cases hlt : decReading y < ulim
  · rw [if_pos hlt] at hs ⊢
    generalize decReading y = s at *
    rcases ho with rfl | rfl | rfl
    · simp only [foldBin, BinOp.util, con, bvShl, body_lit, ok_bind, hs, digits_length]
      by_cases h : s < w
      · rw [if_neg (by omega), if_pos h]
        simp only [ok_bind]
        rw [shl_digits x s h]
        exact mkConstBv_lit _ h0 hw
      · rw [if_pos (by omega), if_neg h]
        simp only [ok_bind]
        exact ofNat_replicate_fit w _ hw
    · simp only [foldBin, BinOp.util, con, bvLshr, body_lit, ok_bind, hs, digits_length]
      by_cases h : s < w
      · rw [if_neg (by omega)]
        simp only [ok_bind]
        rw [lshr_digits x s h]
        exact mkConstBv_lit _ h0 hw
      · rw [if_pos (by omega)]
        simp only [ok_bind]
        rw [BitVec.ushiftRight_eq_zero (by omega)]
        exact ofNat_replicate_fit w _ hw
    · simp only [foldBin, BinOp.util, con, bvAshr, body_lit, ok_bind, hs, digits_length, headD_digits h0]
      by_cases h : s < w
      · rw [if_neg (by omega)]
        simp only [ok_bind]
        rw [ashr_digits x s h]
        exact mkConstBv_lit _ h0 hw
      · rw [if_pos (by omega)]
        simp only [ok_bind]
        have : pre (List.replicate w (dig x.msb)) = lit (x.sshiftRight s) := by
          rw [lit_eq]
          congr 1
          symm
          apply digits_ext
          · simp
          · intro i hi
            simp at hi
            rw [BitVec.getMsbD_sshiftRight]
            have : i < s := by omega
            simp [hi, this]
        rw [this]
        exact mkConstBv_lit _ h0 hw
  · rw [if_neg hlt] at hs ⊢
    rcases ho with rfl | rfl | rfl <;>
      simp only [foldBin, BinOp.util, con, bvShl, bvLshr, bvAshr, body_lit, ok_bind, hs, throw_bind]

theorem shiftRight_large {w : Nat} (x : BitVec w) (s t : Nat) (hs : w ≤ s) (ht : w ≤ t) :
    x.sshiftRight s = x.sshiftRight t := by
  apply BitVec.eq_of_getMsbD_eq
  intro i hi
  rw [BitVec.getMsbD_sshiftRight, BitVec.getMsbD_sshiftRight, if_pos (by omega), if_pos (by omega)]

/-- **C06** (partial) bvlshr and bvashr fold correctly when the shift amount is 0 or 1, or at least the
width (and its decimal reading fits an unsigned long). Missing: amounts from 2 to width-1, and
bvshl by a positive amount below the width (see the `_violated` theorems). -/
theorem fold_shr_partial {w : Nat} (h0 : 0 < w) (hw : w < ulim) (o : BinOp)
    (ho : o = .lshr ∨ o = .ashr) (x y : BitVec w)
    (hy : y.toNat ≤ 1 ∨ (w ≤ y.toNat ∧ decReading y < ulim)) :
    foldBin o (con x) (con y) = ok (con (o.spec x y)) := by
  rw [fold_shift_common h0 hw o (Or.inr ho)]
  have hle := toNat_le_decReading y
  rcases hy with h | ⟨h, hlt⟩
  · rw [decReading_small y h, if_pos (by omega)]
    rcases ho with rfl | rfl <;> rfl
  · rw [if_pos hlt]
    rcases ho with rfl | rfl
    · simp only [BinOp.spec]
      rw [BitVec.ushiftRight_eq_zero (by omega), BitVec.ushiftRight_eq_zero h]
    · simp only [BinOp.spec]
      rw [shiftRight_large x _ y.toNat (by omega) h]

example : foldBin .ashr (con (0x9#4)) (con (1#4)) = ok (con (0xC#4)) :=
  fold_shr_partial (by decide) (by rw [ulim_eq]; decide) .ashr (Or.inr rfl) _ _ (Or.inl (by decide))
example : foldBin .lshr (con (0x9#4)) (con (5#4)) = ok (con (0#4)) :=
  fold_shr_partial (by decide) (by rw [ulim_eq]; decide) .lshr (Or.inl rfl) _ _
    (Or.inr ⟨by decide, by rw [ulim_eq]; decide⟩)

/-- **C06** (partial) bvshl folds correctly when the amount is zero or at least the width. -/
theorem fold_shl_partial {w : Nat} (h0 : 0 < w) (hw : w < ulim) (x y : BitVec w)
    (hy : y.toNat = 0 ∨ (w ≤ y.toNat ∧ decReading y < ulim)) :
    foldBin .shl (con x) (con y) = ok (con (x <<< y.toNat)) := by
  rw [fold_shift_common h0 hw .shl (Or.inl rfl)]
  have hle := toNat_le_decReading y
  rcases hy with h | ⟨h, hlt⟩
  · rw [decReading_small y (by omega), if_pos (by omega), h]
    simp [h0]
  · rw [if_pos hlt]
    simp only
    rw [if_neg (by omega), BitVec.shiftLeft_eq_zero h]

example : foldBin .shl (con (0x9#4)) (con (5#4)) = ok (con (0#4)) :=
  fold_shl_partial (by decide) (by rw [ulim_eq]; decide) _ _ (Or.inr ⟨by decide, by rw [ulim_eq]; decide⟩)

/-- **C06 violated**: 1 shl 1 folds to 0 (the high digits are kept instead of the low ones). -/
theorem fold_shl_violated : foldBin .shl (con (1#4)) (con (1#4)) = ok (con (0#4)) := by
  rw [fold_shift_common (by decide) (by rw [ulim_eq]; decide) .shl (Or.inl rfl), if_pos (by rw [ulim_eq]; decide)]
  rfl

/-- **C06 violated**: 15 lshr 2 folds to 0 because the amount `0010` is read as ten. -/
theorem fold_lshr_violated : foldBin .lshr (con (15#4)) (con (2#4)) = ok (con (0#4)) := by
  rw [fold_shift_common (by decide) (by rw [ulim_eq]; decide) .lshr (Or.inr (Or.inl rfl)), if_pos (by rw [ulim_eq]; decide)]
  rfl

/-- **C06 violated**: folding throws when the amount's digits, read in base ten, exceed an unsigned
long; a 32-bit amount of 2^31 is enough. -/
theorem fold_shift_throws_violated :
    foldBin .lshr (con (1#32)) (con (0x80000000#32)) = throw := by
  rw [fold_shift_common (by decide) (by rw [ulim_eq]; decide) .lshr (Or.inr (Or.inl rfl)),
    if_neg (by rw [ulim_eq]; decide +kernel)]

/-! ## C07 -/

/-- **C07** concat. -/
theorem fold_concat_exact {v w : Nat} (h0 : 0 < v + w) (hw : v + w < ulim) (x : BitVec v) (y : BitVec w) :
    foldConcat (con x) (con y) = ok (con (x ++ y)) := by
  simp only [foldConcat, con, bvConcat, body_lit, ok_bind, ← digits_append]
  exact mkConstBv_lit _ h0 hw

example : foldConcat (con (0x5#4)) (con (0x2#3)) = ok (con (0x2A#7)) :=
  fold_concat_exact (by decide) (by rw [ulim_eq]; decide) _ _

/-- **C07** extract: bits `hi` down to `lo`. -/
theorem fold_extract_exact {w : Nat} (hw : w + 2 < ulim) (x : BitVec w) (hi lo : Nat) (h1 : lo ≤ hi)
    (h2 : hi < w) : foldExtract (con x) hi lo = ok (con (x.extractLsb' lo (hi - lo + 1))) := by
  have e : ((hi : Int) - lo + 1) = ((hi - lo + 1 : Nat) : Int) := by omega
  simp only [foldExtract, con, bvExtract_lit x hi lo hw h1 h2, ok_bind, e]
  rw [toULong_nat (by omega)]
  simp only [ok_bind]
  exact mkConstBv_lit _ (by omega) (by omega)

example : foldExtract (con (0x2A#7)) (4 : Nat) (2 : Nat) = ok (con (2#3)) :=
  fold_extract_exact (by rw [ulim_eq]; decide) (0x2A#7) 4 2 (by decide) (by decide)

/-- **C07** repeat, zero_extend, sign_extend on literals. -/
theorem util_repeat_exact {w : Nat} (x : BitVec w) (n : Nat) (hn : n < ulim) :
    bvRepeat (lit x) n = ok (lit (x.replicate n)) := by
  simp only [bvRepeat, body_lit, ok_bind, toULong_nat hn, replicate_digits]; rfl

@[inherit_doc util_repeat_exact]
theorem util_zero_extend_exact {w : Nat} (x : BitVec w) (n : Nat) (hn : n < ulim) :
    bvZeroExtend (lit x) n = ok (lit (x.zeroExtend (n + w))) := by
  simp only [bvZeroExtend, body_lit, ok_bind, toULong_nat hn, zeroExt_digits]; rfl

@[inherit_doc util_repeat_exact]
theorem util_sign_extend_exact {w : Nat} (h0 : 0 < w) (x : BitVec w) (n : Nat) (hn : n < ulim) :
    bvSignExtend (lit x) n = ok (lit (x.signExtend (n + w))) := by
  simp only [bvSignExtend, body_lit, ok_bind, toULong_nat hn, headD_digits h0, signExt_digits h0]; rfl

example : bvRepeat (lit (0x5#3)) (2 : Nat) = ok (lit (0x2D#6)) :=
  util_repeat_exact (0x5#3) 2 (by rw [ulim_eq]; decide)
example : bvSignExtend (lit (0x5#3)) (2 : Nat) = ok (lit (0x1D#5)) :=
  util_sign_extend_exact (by decide) (0x5#3) 2 (by rw [ulim_eq]; decide)
example : bvZeroExtend (lit (0x5#3)) (2 : Nat) = ok (lit (0x05#5)) :=
  util_zero_extend_exact (0x5#3) 2 (by rw [ulim_eq]; decide)

/-- **C07** (partial) rotations by at most the width. Missing: larger amounts, on which the code
throws although `real_n` was computed for them. -/
theorem util_rotate_partial {w : Nat} (h0 : 0 < w) (hw : w + 2 < ulim) (x : BitVec w) (n : Nat)
    (hn : n ≤ w) :
    bvRotateLeft (lit x) n = ok (lit (x.rotateLeft n)) ∧
    bvRotateRight (lit x) n = ok (lit (x.rotateRight n)) :=
  ⟨bvRotateLeft_lit x n h0 hn hw, bvRotateRight_lit x n h0 hn hw⟩

example : bvRotateLeft (lit (0x5#3)) (1 : Nat) = ok (lit (0x3#3)) :=
  (util_rotate_partial (by decide) (by rw [ulim_eq]; decide) (0x5#3) 1 (by decide)).1

/-- **C07 violated**: rotating left by more than the width throws, for every literal. -/
theorem util_rotate_violated {w : Nat} (h0 : 0 < w) (x : BitVec w) (n : Nat) (hn : w < n)
    (hu : n < ulim) : bvRotateLeft (lit x) n = throw := by
  simp only [bvRotateLeft, body_lit, ok_bind, digits_length]
  rw [if_neg (by omega), toULong_nat hu]
  simp only [ok_bind]
  have : substr (lit x) (2 + n) (usub w n) = throw := by
    unfold substr; rw [if_pos (by rw [lit_length]; omega)]
  rw [this]; rfl

/-! ## C08 -/

/-- **C08** bv2nat is the unsigned value. -/
theorem bv2nat_exact {w : Nat} (x : BitVec w) : bvToNat (lit x) = ok (x.toNat : Int) := bvToNat_lit x

/-- **C08** the signed reading is the two's complement value. -/
theorem bv2int_exact {w : Nat} (x : BitVec w) : bvToInt (lit x) = ok x.toInt := bvToInt_lit x

/-- **C08** nat2bv of `i` at width `w` is the literal of `i mod 2^w`. -/
theorem nat2bv_exact {w : Nat} (h0 : 0 < w) (hw : w < ulim) (i : Nat) :
    foldNatToBv i w = ok (con (BitVec.ofNat w i)) := by
  simp only [foldNatToBv, natToBv_ok i w hw, toULong_nat hw, ok_bind]
  exact mkConstBv_lit _ h0 hw

/-- **C08** int2bv of `i` at width `w` is the literal of `i mod 2^w`, for every integer `i`. -/
theorem int2bv_exact {w : Nat} (h0 : 0 < w) (hw : w < ulim) (i : Int) :
    foldIntToBv i w = ok (con (BitVec.ofInt w i)) := by
  simp only [foldIntToBv, intToBv_ok i w h0 hw, toULong_nat hw, ok_bind]
  exact mkConstBv_lit _ h0 hw

/-- **C08** reading back what int2bv / nat2bv wrote gives the number modulo 2^w, and the identity on
numbers in range. -/
theorem conversions_round_trip {w : Nat} (h0 : 0 < w) (hw : w < ulim) :
    (∀ i : Nat, i < 2 ^ w → ∃ c, foldNatToBv i w = ok c ∧ bvToNat c.text = ok (i : Int)) ∧
    (∀ i : Int, -(2 ^ (w - 1)) ≤ i → i < 2 ^ (w - 1) →
      ∃ c, foldIntToBv i w = ok c ∧ bvToInt c.text = ok i) ∧
    (∀ x : BitVec w, foldNatToBv x.toNat w = ok (con x) ∧ foldIntToBv x.toInt w = ok (con x)) := by
  refine ⟨?_, ?_, ?_⟩
  · intro i hi
    refine ⟨_, nat2bv_exact h0 hw i, ?_⟩
    rw [con, bvToNat_lit, BitVec.toNat_ofNat, Nat.mod_eq_of_lt hi]
  · intro i hlo hhi
    refine ⟨_, int2bv_exact h0 hw i, ?_⟩
    rw [con, bvToInt_lit, BitVec.toInt_ofInt]
    congr 1
    obtain ⟨n, rfl⟩ : ∃ n, w = n + 1 := ⟨w - 1, by omega⟩
    simp only [Nat.add_sub_cancel] at hlo hhi
    have hc : (((2 : Nat) ^ (n + 1) : Nat) : Int) = 2 * 2 ^ n := by simp [Int.pow_succ]; omega
    apply Int.bmod_eq_of_le <;> omega
  · intro x
    rw [nat2bv_exact h0 hw, int2bv_exact h0 hw, BitVec.ofInt_toInt]
    simp

example : foldIntToBv (-3) (4 : Nat) = ok (con (0xD#4)) :=
  int2bv_exact (by decide) (by rw [ulim_eq]; decide) (-3)

/-! ## C09 -/

/-- SMT-LIB meaning of the comparisons. -/
def Cmp.spec {w : Nat} : Cmp → BitVec w → BitVec w → Prop
  | .eqOther, x, y => x = y
  | .distinctOther, x, y => x ≠ y
  | .ult, x, y => x.toNat < y.toNat
  | .ule, x, y => x.toNat ≤ y.toNat
  | .ugt, x, y => x.toNat > y.toNat
  | .uge, x, y => x.toNat ≥ y.toNat
  | .slt, x, y => x.toInt < y.toInt
  | .sle, x, y => x.toInt ≤ y.toInt
  | .sgt, x, y => x.toInt > y.toInt
  | .sge, x, y => x.toInt ≥ y.toInt
  | .other, _, _ => False

/-- **C09** every order comparison of two literals of the same width is folded to the truth value of
the relation on the unsigned / signed values. -/
theorem fold_cmp_exact {w : Nat} (k : Cmp) (hk : k ≠ .other) (x y : BitVec w) :
    ∃ b, foldCmp k (con x) (con y) = ok b ∧ (b = true ↔ k.spec x y) := by
  cases k <;> simp only [foldCmp, con, bvComp, body_lit, ok_bind, bvToNat_lit, bvToInt_lit] <;>
    refine ⟨_, rfl, ?_⟩ <;> simp [Cmp.spec, lit_inj] at *

example : foldCmp .slt (con (0x8#4)) (con (0x1#4)) = ok true := by decide
example : foldCmp .ult (con (0x8#4)) (con (0x1#4)) = ok false := by decide

/-- **C09 violated** for `bvcomp`: it folds to false on every pair of literals, equal ones included
(SMT-LIB: `#b1` when equal). -/
theorem fold_bvcomp_violated {w : Nat} (x : BitVec w) : foldCmp .other (con x) (con x) = ok false := by
  simp only [foldCmp, con, bvComp, body_lit, ok_bind]

/-! ## C10 -/

/-- **C10** whatever binary operator is folded on two literals of width `w`, the produced node is a
literal of width `w` (the call may throw, for shifts only). -/
theorem fold_width {w : Nat} (h0 : 0 < w) (hw : w < ulim) (o : BinOp) (x y : BitVec w) :
    (∃ z : BitVec w, foldBin o (con x) (con y) = ok (con z)) ∨
      (foldBin o (con x) (con y) = throw ∧ (o = .shl ∨ o = .lshr ∨ o = .ashr)) := by
  by_cases hs : o = .shl ∨ o = .lshr ∨ o = .ashr
  · rw [fold_shift_common h0 hw o hs]
    by_cases h : decReading y < ulim
    · rw [if_pos h]; exact Or.inl ⟨_, rfl⟩
    · rw [if_neg h]; exact Or.inr ⟨rfl, hs⟩
  · left
    by_cases hy : y = 0#w
    · subst hy
      cases o with
      | udiv => exact ⟨_, foldBin_of_util h0 hw .udiv x _ _ (bvUdiv_zero x)⟩
      | urem => exact ⟨_, foldBin_of_util h0 hw .urem x _ _ (bvUrem_zero x)⟩
      | sdiv => exact ⟨_, foldBin_of_util h0 hw .sdiv x _ _ (util_sdiv_zero h0 hw x)⟩
      | smod =>
        have : bvSmod (lit x) (lit (0#w)) = ok (lit x) := by simp [bvSmod, bvToInt_lit]
        exact ⟨_, foldBin_of_util h0 hw .smod x _ _ this⟩
      | srem => exact ⟨_, fold_srem_exact h0 hw x _⟩
      | sub => exact ⟨_, fold_sub_actual h0 hw x _⟩
      | add => exact ⟨_, fold_add_exact h0 hw x _⟩
      | mul => exact ⟨_, fold_mul_exact h0 hw x _⟩
      | shl | lshr | ashr => simp at hs
      | and | or | xor | nand | nor | xnor => exact ⟨_, fold_bitwise_exact h0 hw _ rfl x _⟩
    · cases o with
      | udiv => exact ⟨_, fold_udiv_actual h0 hw x y hy⟩
      | urem => exact ⟨_, fold_urem_actual h0 hw x y hy⟩
      | sdiv => exact ⟨_, foldBin_of_util h0 hw .sdiv x y _ (util_sdiv_nonzero h0 hw x y hy)⟩
      | smod => exact ⟨_, foldBin_of_util h0 hw .smod x y _ (util_smod h0 hw x y hy)⟩
      | srem => exact ⟨_, fold_srem_exact h0 hw x _⟩
      | sub => exact ⟨_, fold_sub_actual h0 hw x _⟩
      | add => exact ⟨_, fold_add_exact h0 hw x _⟩
      | mul => exact ⟨_, fold_mul_exact h0 hw x _⟩
      | shl | lshr | ashr => simp at hs
      | and | or | xor | nand | nor | xnor => exact ⟨_, fold_bitwise_exact h0 hw _ rfl x _⟩

example : ∃ z : BitVec 4, foldBin .urem (con (7#4)) (con (3#4)) = ok (con z) :=
  (fold_width (by decide) (by rw [ulim_eq]; decide) .urem _ _).resolve_right (by simp)

/-- **C10 violated** for constants built from hexadecimal text: the width argument is ignored, so
`mkConstBv("#xF", 8)` is a node of sort `(_ BitVec 8)` with a four-digit value. -/
theorem mkConstBv_hex_violated :
    mkConstBv ['#', 'x', 'F'] 8 = ok ⟨['#', 'b', '1', '1', '1', '1'], 8⟩ := by decide

/-- The hexadecimal value is right when the width is four times the number of digits. -/
theorem hexDigits_length (cs ds : List Char) (h : hexDigits cs = ok ds) : ds.length = 4 * cs.length := by
  induction cs generalizing ds with
  | nil => simp [hexDigits] at h; subst h; rfl
  | cons c cs ih =>
    simp only [hexDigits] at h
    cases hd : hexDigit c with
    | ok d =>
      rw [hd] at h
      cases hr : hexDigits cs with
      | ok r =>
        rw [hr] at h
        simp only [ok_bind, ok.injEq] at h
        subst h
        have h4 : d.length = 4 := by
          unfold hexDigit at hd
          split at hd <;> first | (injection hd with hd; subst hd; rfl) | cases hd
        rw [List.length_append, h4, ih r hr, List.length_cons]
        omega
      | _ => rw [hr] at h; simp at h
    | _ => rw [hd] at h; simp at h

end SMT.BV
