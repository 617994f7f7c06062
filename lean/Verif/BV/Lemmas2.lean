import Verif.BV.Lemmas
/-! # Helper lemmas: conversions, structure, division, shifts -/

namespace SMT.BV
open Res

theorem natLoop_append (cs : List Char) (c : Char) (acc : Int) :
    natLoop (cs ++ [c]) acc = natLoop cs acc * 2 + (if c = '1' then 1 else 0) := by
  induction cs generalizing acc with
  | nil => rfl
  | cons d ds ih => simp [natLoop, ih]

theorem natLoop_bits (bs : List Bool) : natLoop (bs.map dig).reverse 0 = (vb bs : Int) := by
  induction bs with
  | nil => rfl
  | cons b bs ih =>
    rw [List.map_cons, List.reverse_cons, natLoop_append, ih]
    cases b <;> simp [vb, dig] <;> omega

theorem natLoop_digits {w : Nat} (x : BitVec w) : natLoop (digits x) 0 = (x.toNat : Int) := by
  rw [digits_eq, natLoop_bits, vb_lsb]

theorem bvToNat_lit {w : Nat} (x : BitVec w) : bvToNat (lit x) = ok (x.toNat : Int) := by
  simp [bvToNat, natLoop_digits]

theorem digits_getElem {w : Nat} (x : BitVec w) (i : Nat) (h : i < (digits x).length) :
    (digits x)[i] = dig (x.getMsbD i) := by
  simp [digits, dig]

theorem digits_head {w : Nat} (x : BitVec (w + 1)) :
    digits x = dig x.msb :: (digits x).tail := by
  have h : (digits x) ≠ [] := by
    intro h; have := congrArg List.length h; simp at this
  have := List.cons_head_tail h
  rw [← this]
  simp only [List.tail_cons, List.cons.injEq, and_true]
  rw [List.head_eq_getElem, digits_getElem]
  rfl

theorem bvToInt_lit {w : Nat} (x : BitVec w) : bvToInt (lit x) = ok x.toInt := by
  cases w with
  | zero =>
    have : x = 0#0 := Subsingleton.elim _ _
    subst this; rfl
  | succ n =>
    simp only [bvToInt, body_lit, ok_bind, natLoop_digits, digits_length]
    rw [digits_head x]
    rw [BitVec.toInt_eq_msb_cond]
    cases h : x.msb <;> simp [dig]

theorem binDigits_bits (n : Nat) : ∃ bs : List Bool, binDigits n = (bs.map dig).reverse ∧ vb bs = n := by
  fun_induction binDigits n with
  | case1 n h => exact ⟨[n == 1], by simp, by
      have : n = 0 ∨ n = 1 := by omega
      rcases this with rfl | rfl <;> simp [vb]⟩
  | case2 n h ih =>
    obtain ⟨bs, h1, h2⟩ := ih
    refine ⟨(n % 2 == 1) :: bs, by simp [h1], ?_⟩
    simp only [vb, h2]
    have : n % 2 = 0 ∨ n % 2 = 1 := by omega
    rcases this with h | h <;> simp [h] <;> omega

theorem vb_append_false (bs : List Bool) (k : Nat) : vb (bs ++ List.replicate k false) = vb bs := by
  induction bs with
  | nil => induction k with
    | zero => rfl
    | succ k ih => simp [List.replicate_succ, vb] at *; omega
  | cons b bs ih => simp [vb, ih]

theorem vb_take (bs : List Bool) (n : Nat) : vb (bs.take n) = vb bs % 2 ^ n := by
  induction bs generalizing n with
  | nil => simp [vb]
  | cons b bs ih =>
    cases n with
    | zero => simp [vb, Nat.mod_one]
    | succ n => simp only [List.take_succ_cons, vb, ih]; rw [mod_step]; cases b <;> simp

theorem fit_bits (w : Nat) (bs : List Bool) :
    fit w (bs.map dig).reverse = digits (BitVec.ofNat w (vb bs)) := by
  rw [digits_eq]
  unfold fit
  split
  next h =>
    simp at h
    have : List.replicate (w - (bs.map dig).reverse.length) '0' ++ (bs.map dig).reverse
        = ((bs ++ List.replicate (w - bs.length) false).map dig).reverse := by
      simp [dig]
    rw [this]
    congr 2
    apply eq_lsb
    · simp; omega
    · rw [vb_append_false]
      have h1 := vb_lt bs
      have h2 : 2 ^ bs.length < 2 ^ w := Nat.pow_lt_pow_right (by omega) h
      simp [Nat.mod_eq_of_lt (Nat.lt_trans h1 h2)]
  next h =>
    simp at h
    rw [List.drop_reverse]
    simp only [List.length_reverse, List.length_map]
    rw [← List.map_take]
    have hl : bs.length - (bs.length - w) = w := by omega
    rw [hl]
    congr 2
    apply eq_lsb
    · simp; omega
    · simp [vb_take]

theorem toULong_nat {n : Nat} (h : n < ulim) : toULong (n : Int) = ok n := by
  unfold toULong
  rw [if_pos ⟨by omega, by simpa using h⟩]
  simp

theorem natToBv_ok (i w : Nat) (hw : w < ulim) :
    natToBv i w = ok (lit (BitVec.ofNat w i)) := by
  obtain ⟨bs, h1, h2⟩ := binDigits_bits i
  have : toString2 (i : Int) = binDigits i := rfl
  simp only [natToBv, toULong_nat hw, ok_bind, this, h1, fit_bits, h2]
  rfl

theorem intToBv_ok (i : Int) (w : Nat) (h0 : 0 < w) (hw : w < ulim) :
    intToBv i w = ok (lit (BitVec.ofInt w i)) := by
  simp only [intToBv, toULong_nat hw, ok_bind, h0, decide_true, assert_true]
  have key : (if i.tmod (2 ^ w) < 0 then i.tmod (2 ^ w) + 2 ^ w else i.tmod (2 ^ w))
      = ((BitVec.ofInt w i).toNat : Int) := by
    rw [BitVec.toNat_ofInt]
    have hp : (0 : Int) < 2 ^ w := Int.pow_pos (by omega)
    have h1 : 0 ≤ i % 2 ^ w := Int.emod_nonneg _ (by omega)
    have hc : (((2 : Nat) ^ w : Nat) : Int) = 2 ^ w := by simp
    rw [hc, Int.toNat_of_nonneg h1]
    have h2 := Int.emod_lt_of_pos i hp
    rw [Int.tmod_eq_emod]
    split <;> split <;> omega
  rw [key]
  obtain ⟨bs, h1, h2⟩ := binDigits_bits (BitVec.ofInt w i).toNat
  have : toString2 ((BitVec.ofInt w i).toNat : Int) = binDigits (BitVec.ofInt w i).toNat := rfl
  rw [this, h1, fit_bits, h2, BitVec.ofNat_toNat, BitVec.setWidth_eq]
  rfl

/-- `mkConstBv` of any string of 0/1 digits: zero-extended or truncated to the width. -/
theorem mkConstBv_bits (bs : List Bool) (hne : bs ≠ []) (w : Nat) (hw : w < ulim) :
    mkConstBv (pre (bs.map dig).reverse) w = ok (con (BitVec.ofNat w (vb bs))) := by
  have hne' : (bs.map dig).reverse ≠ [] := by simpa using hne
  have h : natToBvStr (pre (bs.map dig).reverse) w = ok (pre (fit w (bs.map dig).reverse)) := by
    cases hh : (bs.map dig).reverse with
    | nil => exact absurd hh hne'
    | cons d ds => simp [natToBvStr, pre, toULong_nat hw]
  simp only [mkConstBv, h, ok_bind, fit_bits]
  rfl

theorem mkConstBv_lit' {v : Nat} (x : BitVec v) (hv : 0 < v) (w : Nat) (hw : w < ulim) :
    mkConstBv (lit x) w = ok (con (x.setWidth w)) := by
  rw [lit_eq, digits_eq, mkConstBv_bits _ _ _ hw, vb_lsb]
  · rw [BitVec.ofNat_toNat]
  · intro h; have := congrArg List.length h; simp at this; omega

theorem mkConstBv_lit {w : Nat} (x : BitVec w) (h0 : 0 < w) (hw : w < ulim) :
    mkConstBv (lit x) w = ok (con x) := by
  rw [mkConstBv_lit' x h0 w hw]; simp

/-! ### signed arithmetic -/

theorem truncDiv_eq (a b : Int) : truncDiv a b = a.tdiv b := by
  unfold truncDiv
  by_cases ha : a < 0 <;> by_cases hb : b < 0 <;> simp [ha, hb]

theorem mathMod_pos (a b : Int) (hb : 0 < b) : mathMod a b = a % b := by
  unfold mathMod
  rw [Int.tmod_eq_emod]
  have h1 := Int.emod_nonneg a (b := b) (by omega)
  have h2 := Int.emod_lt_of_pos a hb
  have hn : (b.natAbs : Int) = b := by omega
  simp only [gt_iff_lt, hb, if_true]
  split <;> split <;> omega

theorem ofInt_eq_iff {w : Nat} {a b : Int} :
    BitVec.ofInt w a = BitVec.ofInt w b ↔ (2 ^ w : Int) ∣ a - b := by
  constructor
  · intro h
    have := congrArg BitVec.toNat h
    rw [BitVec.toNat_ofInt, BitVec.toNat_ofInt] at this
    have hc : (((2 : Nat) ^ w : Nat) : Int) = 2 ^ w := by simp
    rw [hc] at this
    have hp : (2 ^ w : Int) ≠ 0 := by have := Int.pow_pos (n := 2) (m := w) (by omega); omega
    have h1 := Int.emod_nonneg a hp
    have h2 := Int.emod_nonneg b hp
    have : a % 2 ^ w = b % 2 ^ w := by omega
    exact Int.dvd_of_emod_eq_zero (Int.emod_eq_emod_iff_emod_sub_eq_zero.1 this)
  · intro h
    apply BitVec.eq_of_toNat_eq
    rw [BitVec.toNat_ofInt, BitVec.toNat_ofInt]
    have hc : (((2 : Nat) ^ w : Nat) : Int) = 2 ^ w := by simp
    rw [hc, Int.emod_eq_emod_iff_emod_sub_eq_zero.2 (Int.emod_eq_zero_of_dvd h)]

theorem toInt_bounds {w : Nat} (x : BitVec (w + 1)) :
    -(2 ^ w : Int) ≤ x.toInt ∧ x.toInt < 2 ^ w := by
  have h1 := @BitVec.le_toInt (w + 1) x
  have h2 := @BitVec.toInt_lt (w + 1) x
  simp at h1 h2
  exact ⟨h1, h2⟩

theorem toInt_eq_zero {w : Nat} (y : BitVec w) : y.toInt = 0 ↔ y = 0#w := by
  constructor
  · intro h; apply BitVec.eq_of_toInt_eq; simp [h]
  · intro h; simp [h]

/-! ### unsigned division -/

theorem all_ne_one {w : Nat} (y : BitVec w) : (digits y).all (· ≠ '1') = decide (y = 0#w) := by
  rw [Bool.eq_iff_iff, decide_eq_true_iff, List.all_eq_true]
  constructor
  · intro h
    apply BitVec.eq_of_getMsbD_eq
    intro i hi
    have := h ((digits y)[i]'(by simpa using hi)) (List.getElem_mem (by simpa using hi))
    rw [digits_getElem] at this
    simpa using this
  · rintro rfl c hc
    simp only [digits, List.mem_ofFn] at hc
    obtain ⟨i, rfl⟩ := hc
    simp

/-- value of a big-endian digit list -/
def vm (cs : List Char) : Int := natLoop cs 0

theorem natLoop_acc (cs : List Char) (acc : Int) : natLoop cs acc = acc * 2 ^ cs.length + vm cs := by
  induction cs generalizing acc with
  | nil => simp [natLoop, vm]
  | cons c cs ih =>
    simp only [natLoop, vm, List.length_cons]
    rw [ih, ih (0 * 2 + _), Int.pow_succ]
    grind

theorem vm_bounds (cs : List Char) : 0 ≤ vm cs ∧ vm cs < 2 ^ cs.length := by
  induction cs with
  | nil => simp [vm, natLoop]
  | cons c cs ih =>
    have : vm (c :: cs) = (if c = '1' then 1 else 0) * 2 ^ cs.length + vm cs := by
      simp only [vm, natLoop]; rw [natLoop_acc]; simp [vm]
    rw [this, List.length_cons, Int.pow_succ]
    split <;> omega

theorem geqLoop_eq (as bs : List Char) (h : as.length = bs.length) (ha : IsBits as) (hb : IsBits bs) :
    geqLoop as bs = decide (vm bs ≤ vm as) := by
  induction as generalizing bs with
  | nil => cases bs <;> simp_all [geqLoop, vm, natLoop]
  | cons a as ih =>
    cases bs with
    | nil => simp at h
    | cons b bs =>
      simp only [List.length_cons, Nat.add_right_cancel_iff] at h
      have e1 : vm (a :: as) = (if a = '1' then 1 else 0) * 2 ^ as.length + vm as := by
        simp only [vm, natLoop]; rw [natLoop_acc]; simp [vm]
      have e2 : vm (b :: bs) = (if b = '1' then 1 else 0) * 2 ^ bs.length + vm bs := by
        simp only [vm, natLoop]; rw [natLoop_acc]; simp [vm]
      have i1 := vm_bounds as
      have i2 := vm_bounds bs
      rw [← h] at e2 i2
      have ih' := ih bs h (fun c hc => ha c (by simp [hc])) (fun c hc => hb c (by simp [hc]))
      have l01 : ('0' : Char) < '1' := by decide
      have l10 : ¬ ('1' : Char) < '0' := by decide
      have lrr : ∀ c : Char, ¬ c < c := fun c => Char.lt_irrefl c
      rcases ha a (by simp) with rfl | rfl <;> rcases hb b (by simp) with rfl | rfl <;>
        simp only [geqLoop, l01, l10, lrr, if_true, if_false, ih'] <;>
        simp [e1, e2] <;> omega

theorem divLoop_short (dvs rest rem q : List Char) (hne : rest ≠ [])
    (h : rem.length + rest.length = dvs.length) :
    divLoop dvs rest rem q = ok (q.reverse ++ List.replicate (rest.length - 1) '0' ++
      [if geqLoop (rem ++ rest) dvs then '1' else '0']) := by
  induction rest generalizing rem q with
  | nil => exact absurd rfl hne
  | cons b rest ih =>
    simp only [divLoop]
    cases hr : rest with
    | nil =>
      subst hr
      have hl : (rem ++ [b]).length = dvs.length := by simpa using h
      rw [if_neg (by omega)]
      simp only [hl, ne_eq, not_true, if_false]
      cases hg : geqLoop (rem ++ [b]) dvs
      · simp [divLoop]
      · simp [bvSub, divLoop]
    | cons b2 rest2 =>
      rw [if_pos (by rw [hr] at h; simp at h ⊢; omega), ← hr, ih _ _ (by rw [hr]; simp) (by simp at h ⊢; omega)]
      rw [hr]
      simp only [List.reverse_cons, List.length_cons, List.append_assoc]
      have : rest2.length + 1 + 1 - 1 = (rest2.length + 1 - 1) + 1 := by omega
      rw [this, List.replicate_succ]
      simp

theorem isBits_digits {w : Nat} (x : BitVec w) : IsBits (digits x) := by
  intro c hc
  simp only [digits, List.mem_ofFn] at hc
  obtain ⟨i, rfl⟩ := hc
  by_cases h : x.getMsbD i = true <;> simp [h]

theorem digits_ofBool (w : Nat) (b : Bool) :
    List.replicate w '0' ++ [dig b] = digits (BitVec.ofNat (w + 1) b.toNat) := by
  rw [digits_eq, show List.replicate w '0' ++ [dig b] = ((b :: List.replicate w false).map dig).reverse by
    simp [dig]]
  congr 2
  apply eq_lsb
  · simp
  · have := vb_append_false [b] w
    rw [List.singleton_append] at this
    rw [this]
    simp [vb]
    cases b <;> simp

theorem bvUdiv_lit {w : Nat} (x y : BitVec w) (hy : y ≠ 0#w) :
    bvUdiv (lit x) (lit y) = ok (lit (if y ≤ x then 1#w else 0#w)) := by
  cases w with
  | zero => exact absurd (Subsingleton.elim _ _) hy
  | succ w =>
    simp only [bvUdiv, body_lit, ok_bind, max_digits, padTo_self (w+1) _ (digits_length _), all_ne_one,
      decide_eq_true_eq, hy, if_false]
    rw [divLoop_short _ _ _ _ (by intro h; have := congrArg List.length h; simp at this) (by simp)]
    simp only [ok_bind, List.reverse_nil, List.nil_append, digits_length, Nat.add_sub_cancel]
    have e0 := geqLoop_eq (digits x) (digits y) (by simp) (isBits_digits _) (isBits_digits _)
    have : decide (vm (digits y) ≤ vm (digits x)) = decide (y ≤ x) := by
      simp [vm, natLoop_digits, BitVec.le_def]
    rw [this] at e0
    have := digits_ofBool w (decide (y ≤ x))
    have e : (if geqLoop (digits x) (digits y) = true then '1' else '0') = dig (decide (y ≤ x)) := by
      rw [← e0]; rfl
    rw [e, this, lit_eq]
    congr 3
    by_cases h : y ≤ x <;> simp [h]

theorem bvUdiv_zero {w : Nat} (x : BitVec w) :
    bvUdiv (lit x) (lit (0#w)) = ok (lit (BitVec.allOnes w)) := by
  simp only [bvUdiv, body_lit, ok_bind, all_ne_one, decide_true, if_true, digits_length]
  rw [lit_eq]
  congr 2
  apply List.ext_getElem
  · simp
  · intro i h1 h2
    rw [digits_getElem]
    simp [BitVec.getMsbD] at *
    simp [dig, h2]
    omega

theorem bvUrem_zero {w : Nat} (x : BitVec w) : bvUrem (lit x) (lit (0#w)) = ok (lit x) := by
  simp only [bvUrem, body_lit, ok_bind, all_ne_one, decide_true, if_true]

theorem bvUrem_lit {w : Nat} (x y : BitVec w) (hy : y ≠ 0#w) :
    bvUrem (lit x) (lit y) = ok (lit (if y ≤ x then (x + y) ^^^ (x ||| y) else 0#w)) := by
  have hw : 0 < w := by
    cases w with
    | zero => exact absurd (Subsingleton.elim _ _) hy
    | succ w => omega
  simp only [bvUrem, body_lit, ok_bind, all_ne_one, decide_eq_true_eq, hy, if_false, bvUdiv_lit x y hy,
    bvMul_lit hw, bvSub_lit]
  congr 2
  by_cases h : y ≤ x
  · simp only [h, if_true]
    rw [BitVec.one_mul]
  · simp [h]

/-! ### structure -/

theorem digits_append {v w : Nat} (x : BitVec v) (y : BitVec w) :
    digits (x ++ y) = digits x ++ digits y := by
  apply List.ext_getElem
  · simp
  · intro i h1 h2
    rw [List.getElem_append]
    split
    next h => simp at h; simp [digits_getElem, BitVec.getMsbD_append]; omega
    next h => simp at h; simp [digits_getElem, BitVec.getMsbD_append]; omega

end SMT.BV
