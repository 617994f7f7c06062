import Verif.Typing.Sound

/-! # More strict operators, and what the other constructors get wrong (C55) -/

set_option linter.unusedSimpArgs false
set_option linter.unusedVariables false

namespace SMT.Typing
open SMT SMT.Kinds SMT.Sorts

theorem back_bv {a g} (h : RepA true a g) (ht : isBv a = true) : ∃ w, RepA true a (.t (.bv w)) ∧ a.srt = bvSort w := by
  have hk : a.srt.kind = .BV := by simpa [isBv] using ht
  cases h with
  | n h1 h2 h3 h4 h5 h6 => rw [h1] at hk; cases hk
  | t h1 h2 h3 =>
    rename_i ty
    have : ∃ w, ty = .bv w ∧ a.srt = bvSort w := by
      generalize a.srt = s at *
      cases h1 <;> simp_all [Srt.kind, BOOL_SORT, INT_SORT, INTOREAL_SORT, REAL_SORT, STR_SORT, REG_SORT, ROUNDING_MODE_SORT, fpSort,
        arraySort, decSort]
    obtain ⟨w, rfl, e⟩ := this
    exact ⟨w, .t h1 h2 h3, e⟩

theorem back_fp {a g} (h : RepA true a g) (ht : isFp a = true) : ∃ n e s, RepA true a (.t (.fp e s)) ∧ a.srt = fpSort n e s := by
  have hk : a.srt.kind = .FP := by simpa [isFp] using ht
  cases h with
  | n h1 h2 h3 h4 h5 h6 => rw [h1] at hk; cases hk
  | t h1 h2 h3 =>
    rename_i ty
    have : ∃ n e s, ty = .fp e s ∧ a.srt = fpSort n e s := by
      generalize hs : a.srt = s at *
      cases h1 <;> simp_all [Srt.kind, BOOL_SORT, INT_SORT, INTOREAL_SORT, REAL_SORT, STR_SORT, REG_SORT, ROUNDING_MODE_SORT, bvSort,
        arraySort, decSort]
      case fp n e s => exact ⟨n, e, s, ⟨rfl, rfl⟩, rfl⟩
    obtain ⟨n, e, s, rfl, hs⟩ := this
    exact ⟨n, e, s, .t h1 h2 h3, hs⟩

theorem back_rm {a g} (h : RepA true a g) (ht : isRm a = true) : RepA true a (.t .rm) := by
  have hk : a.srt.kind = .ROUNDING_MODE := by simpa [isRm] using ht
  refine back_kind h hk (fun ty' h' => ?_) (by decide)
  generalize a.srt = s at *
  cases h' <;> simp_all [Srt.kind, BOOL_SORT, INT_SORT, INTOREAL_SORT, REAL_SORT, STR_SORT, REG_SORT, ROUNDING_MODE_SORT, bvSort, fpSort,
        arraySort, decSort]

theorem eqS_fp {n n' e e' s s'} (h : eqS (fpSort n e s) (fpSort n' e' s') = true) : e = e' ∧ s = s' := by
  simpa [eqS, fpSort, Srt.kind, childArity, Srt.children, Sorts.width, Srt.arity] using h

/-- bit-vectors and floating-point numbers: the operators with exact tests -/
def strictB : K → Bool
  | .BV_NOT | .BV_TO_NAT | .BV_TO_INT | .FP_ABS | .FP_NEG | .FP_TO_REAL | .FP_ADD | .FP_SUB | .FP_MUL | .FP_DIV | .FP_FMA => true
  | k => fpTest k

/-- **C55, the other direction**, for operators on bit-vectors and floating-point numbers. -/
theorem rejects_illsorted_bits_partial {L k as s gs0} (hk : strictB k = true) (h0 : RepL true as gs0) (he : typ L k as = .ok s) :
    ∃ gs t, RepL true as gs ∧ HasSort k gs t ∧ Rep true s t := by
  by_cases h3 : k = .FP_ADD ∨ k = .FP_SUB ∨ k = .FP_MUL ∨ k = .FP_DIV
  · have he' : ∃ m l r, as = [m, l, r] ∧ req (isRm m && isFp l && isFp r && eqS l.srt r.srt) l.srt = .ok s := by
      rcases h3 with rfl | rfl | rfl | rfl <;> simp only [typ, chkN] at he <;> split at he <;> first | exact ⟨_, _, _, rfl, he⟩ | cases he
    obtain ⟨m, l, r, rfl, he'⟩ := he'
    · obtain ⟨hb, rfl⟩ := req_ok he'
      simp only [Bool.and_eq_true] at hb
      cases h0 with
      | cons h1 h2 =>
      cases h2 with
      | cons h2 h3' =>
      cases h3' with
      | cons h3' h4 =>
        cases h4
        obtain ⟨n, e, s, r2, e2⟩ := back_fp h2 hb.1.1.2
        obtain ⟨n', e', s', r3, e3⟩ := back_fp h3' hb.1.2
        rw [e2, e3] at hb
        obtain ⟨rfl, rfl⟩ := eqS_fp hb.2
        exact ⟨_, _, .cons (back_rm h1 hb.1.1.1) (.cons r2 (.cons r3 .nil)), .fpRm2 h3, (repA_t r2).1⟩
  by_cases h4 : k = .FP_FMA
  · subst h4
    simp only [typ, chkN] at he
    split at he
    · obtain ⟨hb, rfl⟩ := req_ok he
      simp only [Bool.and_eq_true] at hb
      cases h0 with
      | cons h1 h2 =>
      cases h2 with
      | cons h2 h3' =>
      cases h3' with
      | cons h3' h4 =>
      cases h4 with
      | cons h4 h5 =>
        cases h5
        obtain ⟨n, e, s, r2, e2⟩ := back_fp h2 hb.1.1.1.1.2
        obtain ⟨n', e', s', r3, e3⟩ := back_fp h3' hb.1.1.1.2
        obtain ⟨n'', e'', s'', r4, e4⟩ := back_fp h4 hb.1.1.2
        rw [e2, e3, e4] at hb
        obtain ⟨rfl, rfl⟩ := eqS_fp hb.2
        obtain ⟨rfl, rfl⟩ := eqS_fp hb.1.2
        exact ⟨_, _, .cons (back_rm h1 hb.1.1.1.1.1) (.cons r2 (.cons r3 (.cons r4 .nil))), .fma, (repA_t r2).1⟩
    · cases he
  have hn : chkN L k as = none := by revert hk h3 h4; cases k <;> simp [strictB, fpTest, chkN]
  rcases typ_one he hn with ⟨a, rfl, h⟩ | ⟨a, b, rfl, h⟩ | ⟨a, b, c, rfl, h⟩ | ⟨a, b, c, d, rfl, h⟩
  · cases h0 with
    | cons h1 h2 =>
      cases h2
      cases k <;> simp only [strictB, fpTest, Bool.false_eq_true] at hk <;>
        simp only [chk1, reduceCtorEq] at h <;> obtain ⟨hb, rfl⟩ := req_ok h
      case BV_NOT => obtain ⟨w, r, e⟩ := back_bv h1 hb; exact ⟨_, _, .cons r .nil, .bvUn (.inl rfl), (repA_t r).1⟩
      case BV_TO_NAT => obtain ⟨w, r, e⟩ := back_bv h1 hb; exact ⟨_, _, .cons r .nil, .toNat (.inl rfl), .int⟩
      case BV_TO_INT => obtain ⟨w, r, e⟩ := back_bv h1 hb; exact ⟨_, _, .cons r .nil, .toNat (.inr rfl), .int⟩
      case FP_ABS => obtain ⟨n, e, s, r, _⟩ := back_fp h1 hb; exact ⟨_, _, .cons r .nil, .fpUn (.inl rfl), (repA_t r).1⟩
      case FP_NEG => obtain ⟨n, e, s, r, _⟩ := back_fp h1 hb; exact ⟨_, _, .cons r .nil, .fpUn (.inr rfl), (repA_t r).1⟩
      case FP_TO_REAL => obtain ⟨n, e, s, r, _⟩ := back_fp h1 hb; exact ⟨_, _, .cons r .nil, .fpReal, .real⟩
      all_goals (obtain ⟨n, e, s, r, _⟩ := back_fp h1 hb; exact ⟨_, _, .cons r .nil, .fpTest rfl, .bool⟩)
  · exfalso; revert h hk; cases k <;> simp [strictB, fpTest, chk2]
  · exfalso; revert h hk; cases k <;> simp [strictB, fpTest, chk3]
  · exfalso; revert h hk; cases k <;> simp [strictB, fpTest, chk4]

theorem repL_all {p : A → Bool} {ty : Ty} (hp : ∀ a g, RepA true a g → p a = true → RepA true a (.t ty)) :
    ∀ {as gs}, RepL true as gs → as.all p = true → RepL true as (List.replicate as.length (.t ty))
  | _, _, .nil, _ => .nil
  | _, _, .cons h1 h2, h => by
    simp only [List.all_cons, Bool.and_eq_true] at h
    exact .cons (hp _ _ h1 h.1) (repL_all hp h2 h.2)

theorem junct_all {d : A → Bool} : ∀ {as : List A} {s}, junct d as = .ok s → (∀ a ∈ as, d a = false) → s = BOOL_SORT ∧ as.all isBool = true
  | [], s, h, _ => ⟨by simpa [junct] using h.symm, rfl⟩
  | a :: l, s, h, hd => by
    rw [junct] at h
    split at h
    · rename_i hb
      rw [if_neg (by simp [hd a (by simp)])] at h
      obtain ⟨e, h'⟩ := junct_all h (fun x hx => hd x (List.mem_cons_of_mem _ hx))
      exact ⟨e, by simp [hb, h']⟩
    · cases h

theorem rep_bools {as gs} (h : RepL true as gs) (ha : as.all isBool = true) : RepL true as (List.replicate as.length (.t .bool)) :=
  repL_all (fun _ _ => back_bool) h ha

/-- **C55, the other direction**, for operators of any number of operands: with two or more operands (and, for `and` and `or`, without a
literal that decides), what is accepted is well-sorted. -/
theorem rejects_illsorted_many_partial {L k as s gs0} (hk : k = .AND ∨ k = .OR ∨ k = .STR_CONCAT ∨ k = .REG_CONCAT ∨ k = .REG_UNION ∨ k = .REG_INTER)
    (h2 : 2 ≤ as.length) (hlit : ∀ a ∈ as, a.tru = false ∧ a.fls = false) (h0 : RepL true as gs0) (he : typ L k as = .ok s) :
    ∃ gs t, RepL true as gs ∧ HasSort k gs t ∧ Rep true s t := by
  obtain ⟨a, b, l, rfl⟩ := two_le h2
  rcases hk with rfl | rfl | rfl | rfl | rfl | rfl
  · simp only [typ, chkN] at he
    obtain ⟨rfl, hb⟩ := junct_all he (fun x hx => (hlit x hx).2)
    exact ⟨_, _, rep_bools h0 hb, .many rfl h2, .bool⟩
  · simp only [typ, chkN] at he
    obtain ⟨rfl, hb⟩ := junct_all he (fun x hx => (hlit x hx).1)
    exact ⟨_, _, rep_bools h0 hb, .many rfl h2, .bool⟩
  · simp only [typ, chkN, uniform] at he
    obtain ⟨hb, rfl⟩ := req_ok he
    exact ⟨_, _, repL_all (fun _ _ => back_str) h0 hb, .many rfl h2, .str⟩
  all_goals
    simp only [typ, chkN, uniform] at he
    obtain ⟨hb, rfl⟩ := req_ok he
    exact ⟨_, _, repL_all (fun _ _ => back_reg) h0 hb, .many rfl h2, .re⟩

/-- **C55, a floating-point constant of ill-sorted parts is refused**: three operands are accepted only if they are bit-vectors and the
first has width 1.  (The mantissa is shorter than `2 ^ 64 - 1` bits.) -/
theorem rejects_illsorted_fp_partial {L l r v s gs0} (h0 : RepL true [l, r, v] gs0) (hv : width v + 1 < 2 ^ 64) (he : typ L .CONST [l, r, v] = .ok s) :
    ∃ gs t, RepL true [l, r, v] gs ∧ HasSort .CONST gs t ∧ Rep true s t := by
  have he' : req (isBv l && isBv r && isBv v && width l == 1) (fpSort cs!"FP" (width r) (wrap (width v + 1))) = .ok s := he
  obtain ⟨hb, rfl⟩ := req_ok he'
  simp only [Bool.and_eq_true, beq_iff_eq] at hb
  cases h0 with
  | cons h1 h2 =>
  cases h2 with
  | cons h2 h3 =>
  cases h3 with
  | cons h3 h4 =>
    cases h4
    obtain ⟨w1, r1, e1⟩ := back_bv h1 hb.1.1.1
    obtain ⟨w2, r2, e2⟩ := back_bv h2 hb.1.1.2
    obtain ⟨w3, r3, e3⟩ := back_bv h3 hb.1.2
    have x1 : width l = w1 := by rw [width, e1]; rfl
    have x2 : width r = w2 := by rw [width, e2]; rfl
    have x3 : width v = w3 := by rw [width, e3]; rfl
    rw [x1] at hb
    obtain ⟨_, rfl⟩ := hb
    refine ⟨_, _, .cons r1 (.cons r2 (.cons r3 .nil)), .fpLit, ?_⟩
    rw [x2, x3, show wrap (w3 + 1) = w3 + 1 from Nat.mod_eq_of_lt (by omega)]
    exact .fp _ _ _

example : ∃ s, typ ⟨false, false⟩ .CONST [⟨bvSort 1, false, false, false, false, false, 0⟩, ⟨bvSort 8, false, false, false, false, false, 0⟩,
    ⟨bvSort 23, false, false, false, false, false, 0⟩] = .ok s := ⟨_, rfl⟩

/-! ## Violations -/

/-- a variable of the sort -/
def var (s : Srt) : A := ⟨s, false, false, false, false, false, 0⟩
/-- the numeral `n` -/
def num (n : Nat) : A := ⟨INTOREAL_SORT, true, false, false, n == 0, n == 1, n⟩

theorem var_rep {s ty} (h : Rep false s ty) : RepA false (var s) (.t ty) := .t h (by simp [var]) (by simp [var])
theorem num_rep (n : Nat) (h : n < 2 ^ 64) : RepA false (num n) (.n n) := .n rfl rfl rfl h rfl rfl
theorem num_int (n : Nat) : RepA false (num n) (.t .int) := .t .numeral (by simp [num]) (fun _ => .inl rfl)

/-- **Violation.**  `zero_extend` and `sign_extend` forget the width of the operand: `((_ zero_extend 4) x)` with `x` of eight bits gets four
bits, not twelve.  For every width of the operand and every index. -/
theorem extend_violated (L : Logic) (k : K) (hk : k = .BV_ZERO_EXT ∨ k = .BV_SIGN_EXT) (w i : Nat) (hw : 0 < w) (hi : i < 2 ^ 64) :
    RepL false [var (bvSort w), num i] [.t (.bv w), .n i] ∧ HasSort k [.t (.bv w), .n i] (.bv (w + i)) ∧
    ∃ s, typ L k [var (bvSort w), num i] = .ok s ∧ ¬ Rep false s (.bv (w + i)) := by
  refine ⟨.cons (var_rep (.bv w)) (.cons (num_rep i hi) .nil), .ext hk, bvSort i, ?_, ?_⟩
  · rcases hk with rfl | rfl <;> rfl
  · intro h
    have := (rep_kind h).2.2.2.2.2.1 _ rfl
    simp [bvSort, Sorts.width] at this
    omega

/-- **Violation.**  `(ceil x)` of a real is documented to be an integer and has the sort `Real`. -/
theorem ceil_violated (L : Logic) :
    HasSort .CEIL [.t .real] .int ∧ typ L .CEIL [var REAL_SORT] = .ok REAL_SORT ∧ ¬ Rep false REAL_SORT .int :=
  ⟨.one (ts := [.real]) rfl, rfl, fun h => by rcases (rep_kind h).2.1 rfl with e | e <;> simp [REAL_SORT, INT_SORT, INTOREAL_SORT] at e⟩

/-- **Violation.**  With `(set-logic ALL)` a sum of zeros is a sort error, and with a logic of integers and reals it is a real number,
although the operands are integers. -/
theorem zeros_violated :
    HasSort .ADD [.t .int, .t .int] .int ∧ RepL false [num 0, num 0] [.t .int, .t .int] ∧
    typ ⟨false, false⟩ .ADD [num 0, num 0] = .abort ∧ typ ⟨false, true⟩ .ADD [num 0, num 0] = .ok REAL_SORT :=
  ⟨.arith (n := 2) (.inl rfl) (.inl rfl) (by decide), .cons (num_int 0) (.cons (num_int 0) .nil), rfl, rfl⟩

/-- **Violation.**  A product of an integer variable with zero is a real number in a logic of integers and reals. -/
theorem product_violated : typ ⟨false, true⟩ .MUL [num 0, var INT_SORT] = .ok REAL_SORT := rfl

theorem no_bvadd {t} : ¬ HasSort .BV_ADD [.t (.bv 8), .t (.bv 16)] t := by
  intro h
  generalize hg : [Arg.t (.bv 8), Arg.t (.bv 16)] = gs at h
  cases h with
  | one h => simp [sig] at h
  | many h => simp [Typing.many] at h
  | eq hk => simp at hk
  | arith hk => simp at hk
  | neg hk => simp at hk
  | cmp hk => simp at hk
  | bvUn hk => simp at hk
  | bvBin hk => simp [Typing.bvBin] at hk
  | @bvMany _ w n hk hn =>
    match n, hn with
    | n + 2, _ =>
      simp only [List.replicate_succ, List.cons.injEq, Arg.t.injEq, Ty.bv.injEq] at hg
      omega
  | bvCmp hk => simp [Typing.bvCmp] at hk
  | ext hk => simp at hk
  | rotate hk => simp at hk
  | toNat hk => simp at hk
  | toBv hk => simp at hk
  | fpUn hk => simp at hk
  | fpRm hk => simp at hk
  | fpBin hk => simp at hk
  | fpRm2 hk => simp at hk
  | fpTest hk => simp [Typing.fpTest] at hk
  | fpCmp hk => simp [Typing.fpCmp] at hk
  | fpBv hk => simp at hk

/-- **Violation.**  Operators that accept operands of the wrong sort: different widths, a number as condition, strings compared as
numbers, numbers as truth values, a string as an angle, an array index of the wrong width, different floating-point formats, a missing
rounding mode, bits outside of the vector. -/
theorem illsorted_accepted_violated (L : Logic) :
    typ L .BV_ADD [var (bvSort 8), var (bvSort 16)] = .ok (bvSort 8) ∧
    typ L .ITE [var INT_SORT, var BOOL_SORT, var STR_SORT] = .ok BOOL_SORT ∧
    typ L .LT [var STR_SORT, var STR_SORT] = .ok BOOL_SORT ∧
    typ L .XOR [var INT_SORT, var STR_SORT] = .ok BOOL_SORT ∧
    typ L .SIN [var STR_SORT] = .ok REAL_SORT ∧
    typ L .SELECT [var (arraySort (bvSort 8) INT_SORT), var (bvSort 16)] = .ok INT_SORT ∧
    typ L .FP_REM [var (fpSort cs!"FP" 8 24), var (fpSort cs!"FP" 11 53)] = .ok (fpSort cs!"FP" 8 24) ∧
    typ L .FP_SQRT [var STR_SORT, var (fpSort cs!"FP" 8 24)] = .ok (fpSort cs!"FP" 8 24) ∧
    typ L .BV_EXTRACT [var (bvSort 8), num 31, num 0] = .ok (bvSort 32) := by
  refine ⟨rfl, rfl, rfl, rfl, rfl, rfl, rfl, rfl, ?_⟩
  have : (31 + 2 ^ 64 - 0 + 1) % 2 ^ 64 = 32 := by decide
  simp [typ, chkN, chk3, req, isBv, isInt, var, num, bvSort, INTOREAL_SORT, Srt.kind, wrap]

/-- **Violation.**  `max` and `min` leave out their last operand. -/
theorem max_violated (a b : A) (as : List A) : maxOperands (a :: b :: as) = (a :: b :: as).dropLast := rfl

/-! ## The hypotheses are met -/

/-- nodes without any knowledge of their values -/
def plainNodes : Nodes where
  node _ _ s := var s
  numeral := num
  srt _ _ _ := rfl
  bools _ _ _ h := by simp [var] at h
  nums _ _ _ h := by simp [var] at h
  idx := num_rep

/-- the largest example: `(select (store a ((_ extract 7 0) x) (+ y 1)) z)` with `a : (Array (_ BitVec 8) Int)` -/
def exTerm : Tm :=
  .app .SELECT [.app .STORE [.leaf (var (arraySort (bvSort 8) INT_SORT)), .app .BV_EXTRACT [.leaf (var (bvSort 16)), .idx 7, .idx 0],
    .app .ADD [.leaf (var INT_SORT), .leaf (num 1)]], .leaf (var (bvSort 8))]

theorem exTerm_ws : WS ⟨true, false⟩ exTerm (.t .int) := by
  have fits : ∀ k t, ¬ (k = .ADD ∨ k = .MUL) → LogicFits ⟨true, false⟩ k t := fun k t h h' => absurd h' h
  have hx : WS ⟨true, false⟩ (.app .BV_EXTRACT [.leaf (var (bvSort 16)), .idx 7, .idx 0]) (.t (.bv (7 - 0 + 1))) :=
    .app (.cons (.leaf (var_rep (.bv 16))) (.cons (.idx (by decide)) (.cons (.idx (by decide)) .nil)))
      (.extract (by decide) (by decide)) (by simp [WrongSort]) (fits _ _ (by simp)) (by simp [Fits64])
  have hs : WS ⟨true, false⟩ (.app .ADD [.leaf (var INT_SORT), .leaf (num 1)]) (.t .int) :=
    .app (.cons (.leaf (var_rep .int)) (.cons (.leaf (num_int 1)) .nil)) (.arith (n := 2) (.inl rfl) (.inl rfl) (by decide))
      (by simp [WrongSort]) (fun _ => by simp) trivial
  exact .app (.cons (.app (.cons (.leaf (var_rep (.arr (.bv 8) .int))) (.cons hx (.cons hs .nil))) .store (by simp [WrongSort])
    (fits _ _ (by simp)) trivial) (.cons (.leaf (var_rep (.bv 8))) .nil)) .select (by simp [WrongSort]) (fits _ _ (by simp)) trivial

example : ∃ a, make ⟨true, false⟩ plainNodes exTerm = .ok a ∧ RepA false a (.t .int) := term_sort_partial exTerm_ws
example : typ ⟨true, false⟩ .STR_LEN [var INT_SORT] = .abort := rfl
example : strict .STR_LEN = true ∧ typ ⟨true, false⟩ .STR_LEN [var STR_SORT] = .ok INT_SORT := ⟨rfl, rfl⟩
example : typ ⟨true, false⟩ .FP_ADD [var ROUNDING_MODE_SORT, var (fpSort cs!"FP" 8 24), var (fpSort cs!"Float32" 8 24)] =
    .ok (fpSort cs!"FP" 8 24) := rfl
example : typ ⟨true, false⟩ .FP_ADD [var ROUNDING_MODE_SORT, var (fpSort cs!"FP" 8 24), var (fpSort cs!"FP" 11 53)] = .abort := rfl
example : typ ⟨true, false⟩ .AND [var BOOL_SORT, var INT_SORT] = .abort := rfl

end SMT.Typing
