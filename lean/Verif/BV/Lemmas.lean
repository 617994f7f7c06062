import Verif.BV.Spec
/-! # Helper lemmas for the bit-vector model -/

namespace SMT.BV
open Res

/-- value of a little-endian bit list -/
def vb : List Bool → Nat
  | [] => 0
  | b :: bs => b.toNat + 2 * vb bs

theorem mod_step (s v n : Nat) (hs : s < 2) : (s + 2 * v) % 2 ^ (n + 1) = s + 2 * (v % 2 ^ n) := by
  rw [Nat.pow_succ, Nat.mul_comm (2 ^ n) 2, Nat.mod_mul]
  have h1 : (s + 2 * v) / 2 = v := by omega
  rw [h1]; omega

theorem vb_lt (bs : List Bool) : vb bs < 2 ^ bs.length := by
  induction bs with
  | nil => simp [vb]
  | cons b bs ih => cases b <;> simp [vb, Nat.pow_succ] <;> omega

theorem vb_testBit (bs : List Bool) (i : Nat) : (vb bs).testBit i = bs.getD i false := by
  induction bs generalizing i with
  | nil => simp [vb]
  | cons b bs ih =>
    cases i with
    | zero => cases b <;> simp [vb, Nat.testBit_zero] <;> omega
    | succ i =>
      rw [Nat.testBit_succ]
      have : (b.toNat + 2 * vb bs) / 2 = vb bs := by cases b <;> simp <;> omega
      simp [vb, this, ih]

theorem vb_inj {as bs : List Bool} (h : as.length = bs.length) (hv : vb as = vb bs) : as = bs := by
  induction as generalizing bs with
  | nil => cases bs <;> simp_all
  | cons a as ih =>
    cases bs with
    | nil => simp at h
    | cons b bs =>
      simp [vb] at hv h
      have : a = b ∧ vb as = vb bs := by cases a <;> cases b <;> simp at hv ⊢ <;> omega
      rw [this.1, ih h this.2]

/-- little-endian bits of a value -/
def lsb {w : Nat} (x : BitVec w) : List Bool := (List.range w).map x.getLsbD

@[simp] theorem lsb_length {w : Nat} (x : BitVec w) : (lsb x).length = w := by simp [lsb]

theorem lsb_getD {w : Nat} (x : BitVec w) (i : Nat) : (lsb x).getD i false = x.getLsbD i := by
  simp only [lsb, List.getD_eq_getElem?_getD, List.getElem?_map]
  by_cases h : i < w
  · simp [h]
  · simp [h, BitVec.getLsbD_of_ge x i (by omega)]

@[simp] theorem vb_lsb {w : Nat} (x : BitVec w) : vb (lsb x) = x.toNat := by
  apply Nat.eq_of_testBit_eq
  intro i
  rw [vb_testBit, lsb_getD]
  rfl

theorem eq_lsb {w : Nat} {bs : List Bool} {x : BitVec w} (hl : bs.length = w)
    (hv : vb bs = x.toNat) : bs = lsb x := by
  apply vb_inj
  · simp [hl]
  · simp [hv]

theorem lsb_ofNat {w : Nat} {bs : List Bool} (hl : bs.length = w) :
    lsb (BitVec.ofNat w (vb bs)) = bs := by
  symm
  apply eq_lsb hl
  have := vb_lt bs
  rw [hl] at this
  simp [Nat.mod_eq_of_lt this]

theorem digits_eq {w : Nat} (x : BitVec w) : digits x = ((lsb x).map dig).reverse := by
  apply List.ext_getElem
  · simp [digits]
  · intro i h1 h2
    simp [digits] at h1
    simp [digits, lsb, dig, List.getElem_reverse, BitVec.getMsbD]

theorem digits_reverse {w : Nat} (x : BitVec w) : (digits x).reverse = (lsb x).map dig := by
  simp [digits_eq]

@[simp] theorem digits_length {w : Nat} (x : BitVec w) : (digits x).length = w := by simp [digits]

@[simp] theorem lit_length {w : Nat} (x : BitVec w) : (lit x).length = w + 2 := by simp [lit]

@[simp] theorem body_lit {w : Nat} (x : BitVec w) : body (lit x) = ok (digits x) := rfl
@[simp] theorem body_pre (ds : List Char) : body (pre ds) = ok ds := rfl
theorem lit_eq {w : Nat} (x : BitVec w) : lit x = pre (digits x) := rfl

@[simp] theorem dig_eq_one (b : Bool) : (dig b = '1') = (b = true) := by cases b <;> simp [dig]
@[simp] theorem dig_eq_zero (b : Bool) : (dig b = '0') = (b = false) := by cases b <;> simp [dig]
@[simp] theorem dig_inj (a b : Bool) : (dig a = dig b) = (a = b) := by
  cases a <;> cases b <;> simp [dig]

theorem digits_inj {w : Nat} {x y : BitVec w} (h : digits x = digits y) : x = y := by
  rw [digits_eq, digits_eq, List.reverse_inj] at h
  have := (List.map_inj_right (f := dig) (fun a b hab => by simpa using hab)).1 h
  apply BitVec.eq_of_toNat_eq
  rw [← vb_lsb x, this, vb_lsb]

theorem lit_inj {w : Nat} {x y : BitVec w} : lit x = lit y ↔ x = y := by
  constructor
  · intro h; apply digits_inj; simpa [lit] using h
  · intro h; rw [h]

/-- every 0/1 digit string is a literal -/
theorem exists_lit (ds : List Char) (h : IsBits ds) : ∃ x : BitVec ds.length, digits x = ds := by
  have : ∃ bs : List Bool, ds.reverse = bs.map dig := by
    refine ⟨ds.reverse.map (· == '1'), ?_⟩
    rw [List.map_map]
    symm
    conv => rhs; rw [← List.map_id ds.reverse]
    apply List.map_congr_left
    intro c hc
    rcases h c (by simpa using hc) with rfl | rfl <;> simp [dig]
  obtain ⟨bs, hbs⟩ := this
  have hl : bs.length = ds.length := by
    have := congrArg List.length hbs; simpa using this.symm
  refine ⟨BitVec.ofNat _ (vb bs), ?_⟩
  rw [digits_eq, lsb_ofNat hl, ← hbs, List.reverse_reverse]

/-! ### bitwise -/

theorem zipBits_ofFn (f : Char → Char → Char) {w : Nat} (g h : Fin w → Char) :
    zipBits f (List.ofFn g) (List.ofFn h) = ok (List.ofFn fun i => f (g i) (h i)) := by
  induction w with
  | zero => simp [zipBits]
  | succ n ih => simp [List.ofFn_succ, zipBits, ih]

theorem bitwise_lit (f : Char → Char → Char) (g : Bool → Bool → Bool)
    (hf : ∀ a b, f (dig a) (dig b) = dig (g a b)) {w : Nat} (x y z : BitVec w)
    (hz : ∀ i : Fin w, z.getMsbD i = g (x.getMsbD i) (y.getMsbD i)) :
    bitwise f (lit x) (lit y) = ok (lit z) := by
  have : zipBits f (digits x) (digits y) = ok (digits z) := by
    rw [digits, digits, zipBits_ofFn]
    congr 1
    rw [digits]
    congr 1
    funext i
    have := hf (x.getMsbD i) (y.getMsbD i)
    simp only [dig] at this
    rw [this, hz]
  simp only [bitwise, body_lit, ok_bind, this]
  rfl

/-! ### arithmetic loops on Booleans -/

def addB : List Bool → List Bool → Bool → List Bool
  | a :: as, b :: bs, c => (a ^^ b ^^ c) :: addB as bs ((a && b) || (c && (a ^^ b)))
  | _, _, _ => []

theorem addLoop_dig (as bs : List Bool) (c : Bool) :
    addLoop (as.map dig) (bs.map dig) c = (addB as bs c).map dig := by
  induction as generalizing bs c with
  | nil => simp [addLoop, addB]
  | cons a as ih =>
    cases bs with
    | nil => simp [addLoop, addB]
    | cons b bs =>
      cases a <;> cases b <;> cases c <;> simp [addLoop, addB, ← ih]

theorem addB_length (as bs : List Bool) (c : Bool) (h : as.length = bs.length) :
    (addB as bs c).length = as.length := by
  induction as generalizing bs c with
  | nil => simp [addB]
  | cons a as ih =>
    cases bs with
    | nil => simp at h
    | cons b bs => simp only [addB, List.length_cons]; rw [ih]; simpa using h

theorem vb_addB (as bs : List Bool) (c : Bool) (h : as.length = bs.length) :
    vb (addB as bs c) = (vb as + vb bs + c.toNat) % 2 ^ as.length := by
  induction as generalizing bs c with
  | nil => cases bs <;> simp_all [addB, vb, Nat.mod_one]
  | cons a as ih =>
    cases bs with
    | nil => simp at h
    | cons b bs =>
      simp only [List.length_cons, Nat.add_right_cancel_iff] at h
      simp only [addB, vb, ih _ _ h, List.length_cons]
      rw [← mod_step _ _ _ (by cases a <;> cases b <;> cases c <;> simp)]
      congr 1
      cases a <;> cases b <;> cases c <;> simp <;> omega

theorem padTo_self (n : Nat) (ds : List Char) (h : ds.length = n) : padTo n ds = ds := by
  simp [padTo, h]

theorem max_digits {w : Nat} (x y : BitVec w) : max (digits x).length (digits y).length = w := by simp

theorem bvAdd_lit {w : Nat} (x y : BitVec w) : bvAdd (lit x) (lit y) = ok (lit (x + y)) := by
  simp only [bvAdd, body_lit, ok_bind, max_digits, padTo_self w _ (digits_length _), digits_reverse,
    addLoop_dig]
  congr 1
  rw [lit_eq, digits_eq]
  congr 3
  apply eq_lsb
  · rw [addB_length] <;> simp
  · rw [vb_addB] <;> simp

def incB : List Bool → Bool → List Bool
  | [], _ => []
  | b :: bs, c => (b ^^ c) :: incB bs (b && c)

theorem incB_false (bs : List Bool) : incB bs false = bs := by
  induction bs with
  | nil => rfl
  | cons b bs ih => simp [incB, ih]

theorem incLoop_dig (bs : List Bool) : incLoop (bs.map dig) true = (incB bs true).map dig := by
  induction bs with
  | nil => rfl
  | cons b bs ih =>
    cases b
    · cases bs <;> simp [incLoop, incB, incB_false, dig]
    · simp [incLoop, incB, ih, dig]

theorem incB_length (bs : List Bool) (c : Bool) : (incB bs c).length = bs.length := by
  induction bs generalizing c with
  | nil => rfl
  | cons b bs ih => simp [incB, ih]

theorem vb_incB (bs : List Bool) (c : Bool) :
    vb (incB bs c) = (vb bs + c.toNat) % 2 ^ bs.length := by
  induction bs generalizing c with
  | nil => simp [incB, vb, Nat.mod_one]
  | cons b bs ih =>
    simp only [incB, vb, ih, List.length_cons]
    rw [← mod_step _ _ _ (by cases b <;> cases c <;> simp)]
    congr 1
    cases b <;> cases c <;> simp <;> omega

theorem flip_digits {w : Nat} (x : BitVec w) :
    ((digits x).map fun c => if c = '0' then '1' else '0') = digits (~~~x) := by
  rw [digits, digits, List.map_ofFn]
  congr 1
  funext i
  have : (~~~x).getMsbD i = !x.getMsbD i := by
    simp [BitVec.getMsbD_not, i.2]
  simp only [Function.comp, this]
  by_cases h : x.getMsbD i = true <;> simp [h]

theorem bvNeg_lit {w : Nat} (x : BitVec w) : bvNeg (lit x) = ok (lit (-x)) := by
  simp only [bvNeg, body_lit, ok_bind, flip_digits, digits_reverse, incLoop_dig]
  congr 1
  rw [lit_eq, digits_eq]
  congr 3
  apply eq_lsb
  · simp [incB_length]
  · rw [vb_incB, BitVec.neg_eq_not_add]
    simp [BitVec.toNat_add]

/-! ### the borrow loop -/

def subB : List Bool → List Bool → Bool → List Bool
  | a :: as, b :: bs, c => ((a ^^ b ^^ c) ^^ (a || b)) :: subB as bs ((a && b) || (c && (a ^^ b)))
  | _, _, _ => []

theorem subLoop_dig (as bs : List Bool) (c : Bool) :
    subLoop (as.map dig) (bs.map dig) c = (subB as bs c).map dig := by
  induction as generalizing bs c with
  | nil => simp [subLoop, subB]
  | cons a as ih =>
    cases bs with
    | nil => simp [subLoop, subB]
    | cons b bs =>
      cases a <;> cases b <;> cases c <;> simp [subLoop, subB, ← ih]

theorem subB_length (as bs : List Bool) (c : Bool) (h : as.length = bs.length) :
    (subB as bs c).length = as.length := by
  induction as generalizing bs c with
  | nil => simp [subB]
  | cons a as ih =>
    cases bs with
    | nil => simp at h
    | cons b bs => simp only [subB, List.length_cons]; rw [ih]; simpa using h

theorem subB_getD (as bs : List Bool) (c : Bool) (h : as.length = bs.length) (i : Nat) :
    (subB as bs c).getD i false =
      ((addB as bs c).getD i false ^^ (as.getD i false || bs.getD i false)) := by
  induction as generalizing bs c i with
  | nil => cases bs <;> simp_all [subB, addB]
  | cons a as ih =>
    cases bs with
    | nil => simp at h
    | cons b bs =>
      simp only [List.length_cons, Nat.add_right_cancel_iff] at h
      cases i with
      | zero => simp [subB, addB]
      | succ i => simp only [subB, addB, List.getD_cons_succ, ih _ _ h]

theorem subB_lsb {w : Nat} (x y : BitVec w) :
    subB (lsb x) (lsb y) false = lsb ((x + y) ^^^ (x ||| y)) := by
  have hadd : addB (lsb x) (lsb y) false = lsb (x + y) := by
    apply eq_lsb
    · rw [addB_length] <;> simp
    · rw [vb_addB] <;> simp
  apply eq_lsb
  · rw [subB_length] <;> simp
  · apply Nat.eq_of_testBit_eq
    intro i
    rw [vb_testBit, subB_getD _ _ _ (by simp), hadd, lsb_getD, lsb_getD, lsb_getD]
    rw [BitVec.testBit_toNat, BitVec.getLsbD_xor, BitVec.getLsbD_or]

theorem bvSub_lit {w : Nat} (x y : BitVec w) :
    bvSub (lit x) (lit y) = ok (lit ((x + y) ^^^ (x ||| y))) := by
  simp only [bvSub, body_lit, ok_bind, max_digits, padTo_self w _ (digits_length _), digits_reverse,
    subLoop_dig, subB_lsb]
  congr 1
  rw [lit_eq, digits_eq]

/-- the defect formula coincides with subtraction only at (0, 0) -/
theorem vb_subB_wrong (as bs : List Bool) (h : as.length = bs.length)
    (hv : (vb (subB as bs false) + vb bs) % 2 ^ as.length = vb as) : vb as = 0 ∧ vb bs = 0 := by
  induction as generalizing bs with
  | nil => cases bs <;> simp_all [vb]
  | cons a as ih =>
    cases bs with
    | nil => simp at h
    | cons b bs =>
      simp only [List.length_cons, Nat.add_right_cancel_iff] at h
      simp only [subB, vb, List.length_cons] at hv ⊢
      rw [Nat.pow_succ, Nat.mul_comm (2 ^ as.length) 2, Nat.mod_mul] at hv
      cases a <;> cases b <;> simp at hv ⊢
      · have := ih bs h (by
          have h1 : (2 * vb (subB as bs false) + 2 * vb bs) / 2 = vb (subB as bs false) + vb bs := by omega
          rw [h1] at hv; omega)
        omega
      all_goals omega

/-! ### multiplication -/

/-- value of a little-endian table of digit counts -/
def vt : List Nat → Nat
  | [] => 0
  | x :: xs => x + 2 * vt xs

theorem vt_bump (t : List Nat) (p : Nat) (h : p < t.length) : vt (bump t p) = vt t + 2 ^ p := by
  induction t generalizing p with
  | nil => simp at h
  | cons x xs ih =>
    cases p with
    | zero => simp [bump, vt]; omega
    | succ p =>
      have := ih p (by simpa using h)
      simp [bump, vt] at this ⊢
      rw [this, Nat.pow_succ]; omega

@[simp] theorem bump_length (t : List Nat) (p : Nat) : (bump t p).length = t.length := by simp [bump]

theorem mulRow_length (as : List Char) (off : Nat) (t : List Nat) :
    (mulRow as off t).length = t.length := by
  induction as generalizing off t with
  | nil => rfl
  | cons a as ih => simp only [mulRow]; rw [ih]; split <;> simp

theorem vt_mulRow (as : List Bool) (off : Nat) (t : List Nat) (h : off + as.length ≤ t.length) :
    vt (mulRow (as.map dig) off t) = vt t + 2 ^ off * vb as := by
  induction as generalizing off t with
  | nil => simp [mulRow, vb]
  | cons a as ih =>
    simp only [List.length_cons] at h
    simp only [List.map_cons, mulRow, vb]
    rw [ih]
    · cases a <;> simp [dig]
      · rw [Nat.pow_succ]; grind
      · rw [vt_bump _ _ (by omega), Nat.pow_succ]; grind
    · cases a <;> simp [dig] <;> omega

theorem mulTable_length (as bs : List Char) (off : Nat) (t : List Nat) :
    (mulTable as bs off t).length = t.length := by
  induction bs generalizing off t with
  | nil => rfl
  | cons b bs ih => simp only [mulTable]; rw [ih]; split <;> simp [mulRow_length]

theorem vt_mulTable (as bs : List Bool) (off : Nat) (t : List Nat)
    (h : off + as.length + bs.length ≤ t.length + 0) :
    vt (mulTable (as.map dig) (bs.map dig) off t) = vt t + 2 ^ off * (vb as * vb bs) := by
  induction bs generalizing off t with
  | nil => simp [mulTable, vb]
  | cons b bs ih =>
    simp only [List.length_cons] at h
    simp only [List.map_cons, mulTable, vb]
    rw [ih]
    · cases b <;> simp [dig]
      · rw [Nat.pow_succ]; grind
      · rw [vt_mulRow _ _ _ (by omega), Nat.pow_succ]; grind
    · cases b <;> simp [dig, mulRow_length] <;> omega

theorem carryPass_length (t : List Nat) : (carryPass t).length = t.length := by
  fun_induction carryPass t <;> simp_all

theorem vt_carryPass (t : List Nat) : vt (carryPass t) = vt t := by
  fun_induction carryPass t with
  | case1 => rfl
  | case2 => rfl
  | case3 x y r h ih => simp only [vt] at ih ⊢; rw [ih]; omega
  | case4 x y r h ih => simp only [vt] at ih ⊢; rw [ih]

theorem carryPass_small (t : List Nat) (i : Nat) (h : i + 1 < t.length) :
    (carryPass t).getD i 0 < 2 := by
  fun_induction carryPass t generalizing i with
  | case1 => simp at h
  | case2 => simp at h
  | case3 x y r hx ih =>
    cases i with
    | zero => simp; omega
    | succ i =>
      have := ih i (by simpa using h)
      simpa using this
  | case4 x y r hx ih =>
    cases i with
    | zero => simp; omega
    | succ i =>
      have := ih i (by simpa using h)
      simpa using this

theorem take_bits (t : List Nat) (n : Nat) (hn : n ≤ t.length)
    (hs : ∀ i, i < n → t.getD i 0 < 2) :
    ∃ bs : List Bool, bs.length = n ∧ vb bs = vt t % 2 ^ n ∧
      (t.take n).map (fun c => if c = 0 then '0' else '1') = bs.map dig := by
  induction n generalizing t with
  | zero => exact ⟨[], by simp [vb, Nat.mod_one]⟩
  | succ n ih =>
    cases t with
    | nil => simp at hn
    | cons x xs =>
      obtain ⟨bs, h1, h2, h3⟩ := ih xs (by simpa using hn) (fun i hi => by
        have := hs (i + 1) (by omega); simpa using this)
      have hx : x < 2 := by have := hs 0 (by omega); simpa using this
      refine ⟨(x == 1) :: bs, by simp [h1], ?_, ?_⟩
      · simp only [vb, vt, h2]
        rw [mod_step _ _ _ hx]
        have : x = 0 ∨ x = 1 := by omega
        rcases this with rfl | rfl <;> simp
      · have : x = 0 ∨ x = 1 := by omega
        rcases this with rfl | rfl <;> simp [dig, h3]

theorem vt_replicate (n : Nat) : vt (List.replicate n 0) = 0 := by
  induction n with
  | zero => rfl
  | succ n ih => simp [List.replicate_succ, vt, ih]

theorem bvMul_lit {w : Nat} (hw : 0 < w) (x y : BitVec w) :
    bvMul (lit x) (lit y) = ok (lit (x * y)) := by
  simp only [bvMul, body_lit, ok_bind, max_digits, padTo_self w _ (digits_length _), digits_reverse]
  rw [if_neg (by omega)]
  obtain ⟨bs, h1, h2, h3⟩ := take_bits
    (carryPass (mulTable ((lsb x).map dig) ((lsb y).map dig) 0 (List.replicate (2 * w) 0))) w
    (by simp [carryPass_length, mulTable_length]; omega)
    (fun i hi => carryPass_small _ _ (by simp [mulTable_length]; omega))
  rw [h3]
  congr 1
  rw [lit_eq, digits_eq]
  congr 3
  apply eq_lsb h1
  rw [h2, vt_carryPass, vt_mulTable _ _ _ _ (by simp; omega), vt_replicate]
  simp [BitVec.toNat_mul]

end SMT.BV
