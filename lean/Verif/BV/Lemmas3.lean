import Verif.BV.Lemmas2
/-! # Helper lemmas: extract, extend, rotate, shift -/

namespace SMT.BV
open Res

theorem digits_ext {w : Nat} (x : BitVec w) (l : List Char) (hl : l.length = w)
    (h : ∀ i (hi : i < l.length), l[i] = dig (x.getMsbD i)) : digits x = l := by
  apply List.ext_getElem
  · simp [hl]
  · intro i h1 h2
    rw [digits_getElem, h]

theorem usub_le {a b : Nat} (h : b ≤ a) : usub a b = a - b := by simp [usub, h]

theorem substr_ok {s : List Char} {p n : Nat} (h : p ≤ s.length) :
    substr s p n = ok ((s.drop p).take n) := by
  unfold substr; rw [if_neg (by omega)]

theorem bvExtract_lit {w : Nat} (x : BitVec w) (hi lo : Nat) (hw : w + 2 < ulim) (h1 : lo ≤ hi)
    (h2 : hi < w) :
    bvExtract (lit x) hi lo = ok (lit (x.extractLsb' lo (hi - lo + 1))) := by
  have e1 : toULong (hi : Int) = ok hi := toULong_nat (by omega)
  have e2 : toULong (lo : Int) = ok lo := toULong_nat (by omega)
  have hle : ((lo : Int) ≤ (hi : Int)) := by omega
  have e3 : (2 + usub (usub (w + 2 - 2) 1) hi) % ulim = 2 + (w - 1 - hi) := by
    have a1 : usub (w + 2 - 2) 1 = w - 1 := by rw [usub_le (by omega)]; omega
    rw [a1, usub_le (by omega), Nat.mod_eq_of_lt (by omega)]
  simp only [bvExtract, body_lit, ok_bind, hle, decide_true, assert_true, e1, e2, lit_length, e3]
  rw [substr_ok (by rw [lit_length]; omega)]
  simp only [ok_bind]
  congr 1
  rw [lit_eq, lit_eq]
  congr 1
  symm
  apply digits_ext
  · simp [pre]; omega
  · intro i hi'
    simp [pre] at hi'
    simp only [List.getElem_take, List.getElem_drop, pre]
    have : 2 + (w - 1 - hi) + i = (w - 1 - hi + i) + 1 + 1 := by omega
    simp only [this, List.getElem_cons_succ, digits_getElem]
    congr 1
    rw [BitVec.getMsbD, BitVec.getMsbD, BitVec.getLsbD_extractLsb']
    have a1 : w - 1 - hi + i < w := by omega
    have a2 : i < hi - lo + 1 := by omega
    have a3 : hi - lo + 1 - 1 - i < hi - lo + 1 := by omega
    simp only [a1, a2, a3, decide_true, Bool.true_and]
    congr 1
    omega

theorem replicate_digits {w : Nat} (x : BitVec w) (n : Nat) :
    (List.replicate n (digits x)).flatten = digits (x.replicate n) := by
  induction n with
  | zero => simp [digits]
  | succ n ih =>
    rw [List.replicate_succ, List.flatten_cons, ih]
    rw [BitVec.replicate_succ, ← digits_append]
    symm
    apply digits_ext
    · simp; rw [Nat.mul_add]; omega
    · intro i hi
      rw [digits_getElem]
      congr 1
      rw [BitVec.getMsbD, BitVec.getMsbD, BitVec.getLsbD_cast]
      have : w + w * n = w * (n + 1) := by rw [Nat.mul_add]; omega
      simp only [this]

theorem zeroExt_digits {w : Nat} (x : BitVec w) (n : Nat) :
    List.replicate n '0' ++ digits x = digits (x.zeroExtend (n + w)) := by
  symm
  apply digits_ext
  · simp
  · intro i hi
    simp at hi
    rw [List.getElem_append]
    split
    next h =>
      simp at h
      have : (x.zeroExtend (n + w)).getMsbD i = false := by
        simp [BitVec.getMsbD]; intro _ _; apply BitVec.getLsbD_of_ge; omega
      simp [this, dig]
    next h =>
      simp at h
      rw [digits_getElem]
      congr 1
      simp [BitVec.getMsbD]
      have a1 : i < n + w := hi
      have a2 : n + w - 1 - i < n + w := by omega
      have a3 : w - 1 - (i - n) = n + w - 1 - i := by omega
      simp [a1, a2, a3]; intro _; omega

theorem signExt_digits {w : Nat} (h0 : 0 < w) (x : BitVec w) (n : Nat) :
    List.replicate n (dig x.msb) ++ digits x = digits (x.signExtend (n + w)) := by
  symm
  apply digits_ext
  · simp
  · intro i hi
    simp at hi
    rw [BitVec.getMsbD, BitVec.getLsbD_signExtend]
    rw [List.getElem_append]
    have a1 : i < n + w := hi
    have a2 : n + w - 1 - i < n + w := by omega
    split
    next h =>
      simp at h
      rw [if_neg (by omega)]
      simp [a1, a2]
    next h =>
      simp at h
      rw [digits_getElem, if_pos (by omega)]
      have a3 : w - 1 - (i - n) = n + w - 1 - i := by omega
      simp [BitVec.getMsbD, a1, a2, a3]; intro _; omega

theorem headD_digits {w : Nat} (h0 : 0 < w) (x : BitVec w) : (digits x).headD '\x00' = dig x.msb := by
  cases w with
  | zero => omega
  | succ w => rw [digits_head]; rfl

theorem rotl_digits {w : Nat} (x : BitVec w) (n : Nat) (h : n ≤ w) :
    (digits x).drop n ++ (digits x).take n = digits (x.rotateLeft n) := by
  symm
  apply digits_ext
  · simp; omega
  · intro i hi
    simp at hi
    rw [BitVec.getMsbD_rotateLeft, List.getElem_append]
    have hiw : i < w := by omega
    simp only [hiw, decide_true, Bool.true_and]
    split
    next hlt =>
      simp at hlt
      rw [List.getElem_drop, digits_getElem, Nat.add_comm, Nat.mod_eq_of_lt (by omega), Nat.add_comm]
    next hge =>
      simp at hge
      rw [List.getElem_take, digits_getElem]
      congr 2
      simp
      have : n + i = (n + i - w) + w := by omega
      rw [this, Nat.add_mod_right, Nat.mod_eq_of_lt (by omega)]
      omega

theorem bvRotateLeft_lit {w : Nat} (x : BitVec w) (n : Nat) (h0 : 0 < w) (hn : n ≤ w) (hw : w + 2 < ulim) :
    bvRotateLeft (lit x) n = ok (lit (x.rotateLeft n)) := by
  simp only [bvRotateLeft, body_lit, ok_bind, digits_length]
  rw [if_neg (by omega), toULong_nat (by omega)]
  simp only [ok_bind]
  rw [usub_le hn, substr_ok (by rw [lit_length]; omega), substr_ok (by rw [lit_length]; omega)]
  simp only [ok_bind]
  congr 1
  rw [lit_eq, lit_eq, ← rotl_digits x n hn]
  congr 1
  have : 2 + n = n + 1 + 1 := by omega
  simp only [pre, this, List.drop_succ_cons, List.drop_zero]
  congr 1
  apply List.take_of_length_le
  simp

theorem rotr_digits {w : Nat} (x : BitVec w) (n : Nat) (h : n ≤ w) :
    (digits x).drop (w - n) ++ (digits x).take (w - n) = digits (x.rotateRight n) := by
  rw [rotl_digits x (w - n) (by omega)]
  congr 1
  apply BitVec.eq_of_getMsbD_eq
  intro i hi
  rw [BitVec.getMsbD_rotateLeft, BitVec.getMsbD_rotateRight]
  simp only [hi, decide_true, Bool.true_and]
  by_cases hn : n = w
  · subst hn
    simp [Nat.mod_eq_of_lt hi]
  · have hlt : n < w := by omega
    rw [Nat.mod_eq_of_lt hlt]
    split
    next h =>
      congr 1
      rw [Nat.mod_eq_of_lt (by omega : w - n + i < w)]
      have : w + i - n = w - n + i := by omega
      rw [this, Nat.mod_eq_of_lt (by omega)]
    next h =>
      congr 1
      have : w - n + i = (i - n) + w := by omega
      rw [this, Nat.add_mod_right, Nat.mod_eq_of_lt (by omega)]

theorem bvRotateRight_lit {w : Nat} (x : BitVec w) (n : Nat) (h0 : 0 < w) (hn : n ≤ w) (hw : w + 2 < ulim) :
    bvRotateRight (lit x) n = ok (lit (x.rotateRight n)) := by
  simp only [bvRotateRight, body_lit, ok_bind, digits_length]
  rw [if_neg (by omega), toULong_nat (by omega)]
  simp only [ok_bind]
  rw [usub_le hn, usub_le (by omega : n ≤ 2 + w), substr_ok (by rw [lit_length]; omega),
    substr_ok (by rw [lit_length]; omega)]
  simp only [ok_bind]
  congr 1
  rw [lit_eq, lit_eq, ← rotr_digits x n hn]
  congr 1
  have : 2 + w - n = (w - n) + 1 + 1 := by omega
  simp only [pre, this, List.drop_succ_cons, List.drop_zero]
  congr 1
  apply List.take_of_length_le
  simp; omega

/-! ### shifts -/

/-- the shift amount the code uses: the digits of `y` read in base ten -/
def decReading {w : Nat} (y : BitVec w) : Nat :=
  (digits y).foldl (fun a c => a * 10 + (c.toNat - 48)) 0

theorem shiftAmount_lit {w : Nat} (h0 : 0 < w) (y : BitVec w) :
    shiftAmount (lit y) = if decReading y < ulim then ok (decReading y) else throw := by
  have hne : digits y ≠ [] := by intro h; have := congrArg List.length h; simp at this; omega
  have hd : (digits y).all Char.isDigit = true := by
    rw [List.all_eq_true]
    intro c hc
    rcases isBits_digits y c hc with rfl | rfl <;> decide
  have : decValue (digits y) = ok (decReading y : Int) := by
    unfold decValue
    have hm : ∀ ds, digits y ≠ '-' :: ds := by
      intro ds h
      have := isBits_digits y '-' (by rw [h]; simp)
      revert this; decide
    split
    next ds h => exact absurd h (hm ds)
    next => simp only [hne, ne_eq, not_false_eq_true, hd, and_self, if_true]; rfl
  simp only [shiftAmount, body_lit, ok_bind, this]
  by_cases h : decReading y < ulim
  · rw [toULong_nat h, if_pos h]
  · unfold toULong
    rw [if_neg (fun h' => h (by simpa using h'.2)), if_neg h]

theorem foldl_dec (cs : List Char) (a b : Nat) (h : a ≤ b) (hb : IsBits cs) :
    cs.foldl (fun a c => a * 2 + (c.toNat - 48)) a ≤ cs.foldl (fun a c => a * 10 + (c.toNat - 48)) b := by
  induction cs generalizing a b with
  | nil => simpa
  | cons c cs ih =>
    simp only [List.foldl_cons]
    apply ih
    · omega
    · intro d hd; exact hb d (by simp [hd])

theorem foldl_bin (cs : List Char) (a : Nat) (hb : IsBits cs) :
    ((cs.foldl (fun a c => a * 2 + (c.toNat - 48)) a : Nat) : Int) = natLoop cs a := by
  induction cs generalizing a with
  | nil => rfl
  | cons c cs ih =>
    simp only [List.foldl_cons, natLoop]
    rw [ih _ (fun d hd => hb d (by simp [hd]))]
    rcases hb c (by simp) with rfl | rfl <;> simp

theorem toNat_eq_foldl {w : Nat} (y : BitVec w) :
    y.toNat = (digits y).foldl (fun a c => a * 2 + (c.toNat - 48)) 0 := by
  have := foldl_bin (digits y) 0 (isBits_digits y)
  have h2 := natLoop_digits y
  simp at this
  omega

theorem toNat_le_decReading {w : Nat} (y : BitVec w) : y.toNat ≤ decReading y := by
  rw [toNat_eq_foldl]
  exact foldl_dec _ 0 0 (by omega) (isBits_digits y)

/-- the decimal reading agrees with the value exactly for the amounts 0 and 1 -/
theorem decReading_small {w : Nat} (y : BitVec w) (h : y.toNat ≤ 1) : decReading y = y.toNat := by
  have key : ∀ (cs : List Char), IsBits cs → natLoop cs 0 ≤ 1 →
      ((cs.foldl (fun a c => a * 10 + (c.toNat - 48)) 0 : Nat) : Int) = natLoop cs 0 := by
    intro cs
    induction cs with
    | nil => simp [natLoop]
    | cons c cs ih =>
      intro hb hle
      have hb' : IsBits cs := fun d hd => hb d (by simp [hd])
      rcases hb c (by simp) with rfl | rfl
      · simpa [natLoop] using ih hb' (by simpa [natLoop] using hle)
      · cases cs with
        | nil => simp [natLoop]
        | cons d ds =>
          simp only [natLoop] at hle
          rw [natLoop_acc] at hle
          have h1 := vm_bounds ds
          have h2 : (1 : Int) ≤ 2 ^ ds.length := by
            have := Int.pow_pos (n := 2) (m := ds.length) (by omega); omega
          simp at hle
          split at hle <;> omega
  have := key (digits y) (isBits_digits y) (by rw [natLoop_digits]; omega)
  rw [natLoop_digits] at this
  unfold decReading
  omega

theorem shl_digits {w : Nat} (x : BitVec w) (s : Nat) (h : s < w) :
    (digits x).take (w - s) ++ List.replicate s '0' = digits ((x >>> s) <<< s) := by
  symm
  apply digits_ext
  · simp; omega
  · intro i hi
    simp at hi
    rw [BitVec.getMsbD_shiftLeft, List.getElem_append]
    split
    next hlt =>
      simp at hlt
      rw [List.getElem_take, digits_getElem, BitVec.getMsbD_ushiftRight]
      have a1 : i + s < w := by omega
      simp [a1]
    next hge =>
      simp at hge
      rw [BitVec.getMsbD, decide_eq_false (by omega)]
      simp [dig]

theorem lshr_digits {w : Nat} (x : BitVec w) (s : Nat) (h : s < w) :
    List.replicate s '0' ++ (digits x).take (w - s) = digits (x >>> s) := by
  symm
  apply digits_ext
  · simp; omega
  · intro i hi
    simp at hi
    rw [BitVec.getMsbD_ushiftRight, List.getElem_append]
    split
    next hlt =>
      simp at hlt
      simp [hlt, dig]
    next hge =>
      simp at hge
      rw [List.getElem_take, digits_getElem]
      have : i < w := by omega
      simp [this]; intro; omega

theorem ashr_digits {w : Nat} (x : BitVec w) (s : Nat) (h : s < w) :
    List.replicate s (dig x.msb) ++ (digits x).take (w - s) = digits (x.sshiftRight s) := by
  symm
  apply digits_ext
  · simp; omega
  · intro i hi
    simp at hi
    rw [BitVec.getMsbD_sshiftRight, List.getElem_append]
    have hiw : i < w := by omega
    simp only [hiw, decide_true, Bool.true_and]
    split
    next hlt =>
      simp at hlt
      simp [hlt]
    next hge =>
      simp at hge
      rw [List.getElem_take, digits_getElem]
      rw [if_neg (by omega)]; congr 2; simp

theorem replicate_zero_digits (n : Nat) : List.replicate n '0' = digits (0#n) := by
  symm
  apply digits_ext
  · simp
  · intro i hi; simp [BitVec.getMsbD, dig]

theorem ofNat_replicate_fit (w k : Nat) (hw : w < ulim) :
    mkConstBv (pre ('0' :: List.replicate k '0')) w = ok (con (0#w)) := by
  rw [← List.replicate_succ, replicate_zero_digits, ← lit_eq, mkConstBv_lit' _ (by omega) _ hw]
  simp

end SMT.BV
