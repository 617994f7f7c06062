import Verif.Basic

/-!
# Evaluation of the other n-ary operators (C35)

The n-ary groups of `evaluateSimpleOp` for the operators that are opaque in `Verif.Term` (bit-vector arithmetic, `max`, `min`,
real division), `evaluateDivInt` and concatenation, on values: an evaluated operand is a value and the flag whether it is a
literal, the constructor `mkOper` is the operation itself (left-associative on several operands), folding two literals is the
operation.
-/

namespace SMT.Eval.Fold

/-- an evaluated operand: literal or not, its value -/
structure Op (α : Type) where
  lit : Bool
  val : α

section
variable {α : Type}

/-- the values of the literals -/
def lits (us : List (Op α)) : List α := (us.filter fun u => u.lit).map Op.val
/-- the values of the other operands -/
def rest (us : List (Op α)) : List α := (us.filter fun u => !u.lit).map Op.val

/-- value of the left-associative application of `f` -/
def app (f : α → α → α) : List α → Option α
  | [] => none
  | a :: l => some (l.foldl f a)

/-- specification: the value of the expression -/
def spec (f : α → α → α) (us : List (Op α)) : Option α := app f (us.map Op.val)

/-- `src/eval_parser.cpp:722-784`: literals folded into one, put last -/
def nary (f : α → α → α) (us : List (Op α)) : Option α :=
  match lits us with
  | [] => app f (rest us)
  | k :: ks => app f (rest us ++ [ks.foldl f k])

/-- `src/eval_parser.cpp:785-852`: if the first operand is a literal, literals are folded with `f` and put first, otherwise with
the flipped operation `g` and put last -/
def first (f g : α → α → α) (us : List (Op α)) : Option α :=
  match lits us with
  | [] => app f (rest us)
  | k :: ks =>
    match us with
    | [] => none
    | u :: _ => if u.lit then app f (ks.foldl f k :: rest us) else app f (rest us ++ [ks.foldl g k])

theorem foldl_flip {f : α → α → α} (h : ∀ a b c, f (f a b) c = f (f a c) b) (l : List α) :
    ∀ a b, l.foldl f (f a b) = f (l.foldl f a) b := by
  induction l with
  | nil => intro a b; rfl
  | cons c l ih => intro a b; simp only [List.foldl_cons]; rw [h, ih]

/-- in a left fold the literals can go first -/
theorem foldl_split {f : α → α → α} (h : ∀ a b c, f (f a b) c = f (f a c) b) (us : List (Op α)) :
    ∀ a, (us.map Op.val).foldl f a = (rest us).foldl f ((lits us).foldl f a) := by
  induction us with
  | nil => intro a; rfl
  | cons u us ih =>
    intro a
    cases hu : u.lit with
    | true =>
      simp only [List.map_cons, List.foldl_cons, rest, lits, List.filter_cons, hu, if_true, Bool.not_true, Bool.false_eq_true, if_false] at ih ⊢
      exact ih _
    | false =>
      simp only [List.map_cons, List.foldl_cons, rest, lits, List.filter_cons, hu, if_true, Bool.not_false, Bool.false_eq_true, if_false] at ih ⊢
      rw [ih, foldl_flip h]

theorem foldl_comm2 {f : α → α → α} (h : ∀ a b c, f (f a b) c = f (f a c) b) (l : List α) :
    ∀ (l' : List α) a, l.foldl f (l'.foldl f a) = l'.foldl f (l.foldl f a) := by
  induction l with
  | nil => intro l' a; rfl
  | cons b l ih => intro l' a; simp only [List.foldl_cons]; rw [← foldl_flip h, ih]

theorem foldl_assoc {f g : α → α → α} (h : ∀ a b c, f (f a b) c = f a (g b c)) (l : List α) :
    ∀ a b, f a (l.foldl g b) = (b :: l).foldl f a := by
  induction l with
  | nil => intro a b; rfl
  | cons c l ih => intro a b; simp only [List.foldl_cons] at ih ⊢; rw [ih, h]

/-- **C35.**  For an associative and commutative operation the result has the value of the expression, for any number of
operands. -/
theorem nary_sound_partial (f : α → α → α) (ha : ∀ a b c, f (f a b) c = f a (f b c)) (hc : ∀ a b, f a b = f b a) (us : List (Op α)) :
    nary f us = spec f us := by
  have hf : ∀ a b c, f (f a b) c = f (f a c) b := by intro a b c; rw [ha, hc b c, ← ha]
  unfold nary
  cases hk : lits us with
  | nil =>
    have : ∀ u ∈ us, (!u.lit) = true := by
      intro u hu
      cases hq : u.lit with
      | false => rfl
      | true =>
        have : u.val ∈ lits us := List.mem_map_of_mem (List.mem_filter.2 ⟨hu, hq⟩)
        rw [hk] at this; cases this
    simp only [spec, rest]
    rw [List.filter_eq_self.2 this]
  | cons k ks =>
    simp only
    cases us with
    | nil => cases hk
    | cons u us =>
      simp only [spec, List.map_cons, app]
      rw [foldl_split hf]
      cases hu : u.lit with
      | true =>
        simp only [lits, List.filter_cons, hu, if_true, List.map_cons, List.cons.injEq] at hk
        obtain ⟨h1, h2⟩ := hk
        have hr : rest (u :: us) = rest us := by simp [rest, hu]
        rw [hr]
        change lits us = ks at h2
        rw [h1, h2]
        cases hr' : rest us with
        | nil => simp [app]
        | cons x l =>
          simp only [List.cons_append, app, List.foldl_append, List.foldl_cons, List.foldl_nil]
          rw [foldl_assoc ha]
          simp only [List.foldl_cons]
          rw [← foldl_flip hf l x k, ← foldl_flip hf ks k x, hc x k, foldl_comm2 hf]
      | false =>
        have h2 : lits us = k :: ks := by simpa [lits, hu] using hk
        have hr : rest (u :: us) = u.val :: rest us := by simp [rest, hu]
        rw [hr, h2]
        simp only [List.cons_append, app, List.foldl_append, List.foldl_cons, List.foldl_nil]
        rw [foldl_assoc ha, ← List.foldl_cons, foldl_comm2 hf]

/-- **C35.**  For `f`, `g` with `(a f b) f c = (a f c) f b = a f (b g c)`, likewise. -/
theorem first_sound_partial (f g : α → α → α) (hf : ∀ a b c, f (f a b) c = f (f a c) b) (ha : ∀ a b c, f (f a b) c = f a (g b c))
    (us : List (Op α)) : first f g us = spec f us := by
  unfold first
  cases hk : lits us with
  | nil =>
    have : ∀ u ∈ us, (!u.lit) = true := by
      intro u hu
      cases hq : u.lit with
      | false => rfl
      | true =>
        have : u.val ∈ lits us := List.mem_map_of_mem (List.mem_filter.2 ⟨hu, hq⟩)
        rw [hk] at this; cases this
    simp only [spec, rest]
    rw [List.filter_eq_self.2 this]
  | cons k ks =>
    simp only
    cases us with
    | nil => cases hk
    | cons u us =>
      simp only [spec, List.map_cons, app]
      rw [foldl_split hf]
      cases hu : u.lit with
      | true =>
        simp only [lits, List.filter_cons, hu, if_true, List.map_cons, List.cons.injEq] at hk
        obtain ⟨h1, h2⟩ := hk
        change lits us = ks at h2
        have hr : rest (u :: us) = rest us := by simp [rest, hu]
        rw [hr, h2, if_pos rfl, h1]
      | false =>
        have h2 : lits us = k :: ks := by simpa [lits, hu] using hk
        have hr : rest (u :: us) = u.val :: rest us := by simp [rest, hu]
        rw [hr, h2, if_neg (by simp)]
        simp only [List.cons_append, app, List.foldl_append, List.foldl_cons, List.foldl_nil]
        rw [foldl_assoc ha, ← List.foldl_cons, foldl_comm2 hf]

/-- **C35.**  With two operands any operation is right in the second group, a commutative one in the first. -/
theorem first_two_partial (f g : α → α → α) (u v : Op α) : first f g [u, v] = spec f [u, v] := by
  rcases u with ⟨_ | _, a⟩ <;> rcases v with ⟨_ | _, b⟩ <;> simp [first, lits, rest, spec, app]
theorem nary_two_partial (f : α → α → α) (hc : ∀ a b, f a b = f b a) (u v : Op α) : nary f [u, v] = spec f [u, v] := by
  rcases u with ⟨_ | _, a⟩ <;> rcases v with ⟨_ | _, b⟩ <;> simp [nary, lits, rest, spec, app, hc]
end

/-! ## Instances -/

/-- `bvadd`, `bvmul`, `bvand`, `bvor`, `bvxor` of every width -/
theorem bv_nary_partial (w : Nat) (us : List (Op (BitVec w))) :
    nary (· + ·) us = spec (· + ·) us ∧ nary (· * ·) us = spec (· * ·) us ∧ nary (· &&& ·) us = spec (· &&& ·) us ∧
    nary (· ||| ·) us = spec (· ||| ·) us ∧ nary (· ^^^ ·) us = spec (· ^^^ ·) us :=
  ⟨nary_sound_partial _ BitVec.add_assoc BitVec.add_comm us, nary_sound_partial _ BitVec.mul_assoc BitVec.mul_comm us,
    nary_sound_partial _ BitVec.and_assoc BitVec.and_comm us, nary_sound_partial _ BitVec.or_assoc BitVec.or_comm us,
    nary_sound_partial _ BitVec.xor_assoc BitVec.xor_comm us⟩

/-- `bvsub` with `bvadd` -/
theorem bv_sub_partial (w : Nat) (us : List (Op (BitVec w))) : first (· - ·) (· + ·) us = spec (· - ·) us := by
  refine first_sound_partial _ _ ?_ ?_ us
  · intro a b c
    simp only [BitVec.sub_eq_add_neg]
    rw [BitVec.add_assoc, BitVec.add_comm (-b), ← BitVec.add_assoc]
  · intro a b c
    simp only [BitVec.sub_eq_add_neg, BitVec.neg_add]
    rw [BitVec.add_assoc]

/-- `max` and `min` on the rationals -/
theorem max_min_partial (us : List (Op Rat)) : nary max us = spec max us ∧ nary min us = spec min us := by
  constructor
  · exact nary_sound_partial _ (by intro a b c; grind) (by intro a b; grind) us
  · exact nary_sound_partial _ (by intro a b c; grind) (by intro a b; grind) us

/-- `/` with `*` on the rationals -/
theorem real_div_partial (us : List (Op Rat)) : first (· / ·) (· * ·) us = spec (· / ·) us := by
  refine first_sound_partial _ _ ?_ ?_ us
  · intro a b c; simp only [Rat.div_def]; grind
  · intro a b c
    simp only [Rat.div_def]
    rw [Rat.mul_assoc, Rat.inv_mul_rev, Rat.mul_comm c⁻¹]

/-- the bit-vector divisions with three operands: `(bvudiv x #x10 #x10)` with `x` not a literal becomes `(bvudiv x #x00)` -/
theorem bv_udiv_violated : first BitVec.smtUDiv (· * ·) [⟨false, 255#8⟩, ⟨true, 16#8⟩, ⟨true, 16#8⟩] ≠
    spec BitVec.smtUDiv [⟨false, 255#8⟩, ⟨true, 16#8⟩, ⟨true, 16#8⟩] := by decide +kernel

/-- `bvnand` with three operands: not associative -/
theorem bv_nand_violated : nary (fun a b : BitVec 1 => ~~~ (a &&& b)) [⟨false, 0#1⟩, ⟨true, 1#1⟩, ⟨true, 1#1⟩] ≠
    spec (fun a b : BitVec 1 => ~~~ (a &&& b)) [⟨false, 0#1⟩, ⟨true, 1#1⟩, ⟨true, 1#1⟩] := by decide +kernel

example : nary (· + ·) [⟨true, 3#8⟩, ⟨false, 200#8⟩, ⟨true, 100#8⟩] = some 47#8 := by decide +kernel
example : first (· - ·) (· + ·) [⟨false, 3#8⟩, ⟨true, 200#8⟩, ⟨true, 100#8⟩] = some 215#8 := by decide +kernel
example : first (· / ·) (· * ·) [⟨false, (12 : Rat)⟩, ⟨true, 2⟩, ⟨false, 3⟩, ⟨true, 5⟩] = some (2 / 5 : Rat) := by decide +kernel

/-! ## Integer division -/

/-- `evaluateDivInt` (`src/eval_parser.cpp:1206-1257`), on values; `none` is the null node: the result is not assigned when the
first operand is a literal not smaller than the product of the others -/
def divInt (us : List (Op Int)) : Option Int :=
  match lits us with
  | [] => app Int.ediv (rest us)
  | k :: ks =>
    match us with
    | [] => none
    | u :: _ =>
      if u.lit then if ks.foldl (· * ·) 1 > k then some 0 else none
      else app Int.ediv (rest us ++ [(k :: ks).foldl (· * ·) 1])

theorem foldl_mul_nonneg (l : List Int) : ∀ a : Int, 0 ≤ a → (∀ x ∈ l, 0 ≤ x) → 0 ≤ l.foldl (· * ·) a := by
  induction l with
  | nil => intro a h _; exact h
  | cons b l ih => intro a h1 h2; exact ih _ (Int.mul_nonneg h1 (h2 b (by simp))) fun x hx => h2 x (by simp [hx])

theorem ediv_ediv' {a : Int} (h : 0 ≤ a) (x b : Int) : x / a / b = x / (a * b) := by
  rw [Int.ediv_ediv, if_neg (by omega)]; simp

theorem foldl_ediv (l : List Int) : ∀ a x : Int, 0 ≤ a → (∀ x ∈ l, 0 ≤ x) →
    l.foldl Int.ediv (x / a) = x / l.foldl (· * ·) a := by
  induction l with
  | nil => intro a x _ _; rfl
  | cons b l ih =>
    intro a x h1 h2
    simp only [List.foldl_cons]
    rw [← ih (a * b) x (Int.mul_nonneg h1 (h2 b (by simp))) fun y hy => h2 y (by simp [hy])]
    congr 1
    exact ediv_ediv' h1 x b

/-- **C35.**  `(div x y … )` with a first operand that is not a literal and divisors that are not negative keeps its value. -/
theorem divInt_sound_partial (u : Op Int) (us : List (Op Int)) (hu : u.lit = false) (hp : ∀ v ∈ us, 0 ≤ v.val) :
    divInt (u :: us) = spec Int.ediv (u :: us) := by
  have hl : lits (u :: us) = lits us := by simp [lits, hu]
  have hr : rest (u :: us) = u.val :: rest us := by simp [rest, hu]
  have hrp : ∀ x ∈ rest us, 0 ≤ x := by
    intro x hx
    obtain ⟨v, hv, rfl⟩ := List.mem_map.1 hx
    exact hp v (List.mem_filter.1 hv).1
  have hlp : ∀ x ∈ lits us, 0 ≤ x := by
    intro x hx
    obtain ⟨v, hv, rfl⟩ := List.mem_map.1 hx
    exact hp v (List.mem_filter.1 hv).1
  have hap : ∀ x ∈ us.map Op.val, 0 ≤ x := by
    intro x hx
    obtain ⟨v, hv, rfl⟩ := List.mem_map.1 hx
    exact hp v hv
  have key : ∀ (l : List Int) (x : Int), (∀ y ∈ l, 0 ≤ y) → l.foldl Int.ediv x = x / l.foldl (· * ·) 1 := by
    intro l x h
    have := foldl_ediv l 1 x (by decide) h
    rwa [Int.ediv_one] at this
  have hmc : ∀ a b c : Int, a * b * c = a * c * b := fun a b c => by rw [Int.mul_assoc, Int.mul_comm b, ← Int.mul_assoc]
  have hs : spec Int.ediv (u :: us) = some (u.val / ((us.map Op.val).foldl (· * ·) 1)) := by
    simp only [spec, List.map_cons, app]
    rw [key _ _ hap]
  rw [hs, foldl_split hmc]
  unfold divInt
  rw [hl, hr]
  cases hk : lits us with
  | nil =>
    simp only [app, List.foldl_nil]
    rw [key _ _ hrp]
  | cons k ks =>
    simp only [hu, Bool.false_eq_true, if_false, List.cons_append, app, List.foldl_append]
    rw [key _ _ hrp]
    simp only [List.foldl_cons, List.foldl_nil]
    rw [hk] at hlp
    have h1 : 0 ≤ (rest us).foldl (· * ·) 1 := foldl_mul_nonneg _ _ (by decide) hrp
    congr 1
    rw [show ∀ a b : Int, Int.ediv a b = a / b from fun _ _ => rfl]
    rw [ediv_ediv' h1]
    congr 1
    have := foldl_comm2 hmc ks (rest us) (1 * k)
    have hm : ∀ (l : List Int) (a : Int), l.foldl (· * ·) a = a * l.foldl (· * ·) 1 := by
      intro l
      induction l with
      | nil => intro a; simp
      | cons b l ih => intro a; simp only [List.foldl_cons]; rw [ih, ih (1 * b)]; simp [Int.mul_assoc]
    rw [hm (rest us) (ks.foldl (· * ·) (1 * k)), Int.mul_comm]

example : divInt [⟨false, 100⟩, ⟨true, 2⟩, ⟨false, 5⟩, ⟨true, 3⟩] = some 3 := by decide

/-- `(div x 3)` under `x := 7`: the null node. -/
theorem div_null_violated (k : Int) (us : List (Op Int)) (h : (lits us).foldl (· * ·) 1 ≤ k) :
    divInt (⟨true, k⟩ :: us) = none := by
  have : lits (⟨true, k⟩ :: us) = k :: lits us := by simp [lits]
  simp only [divInt, this, if_true]
  rw [if_neg (by omega)]

/-- `(div x 3)` under `x := -7`: 0 instead of -3. -/
theorem div_neg_violated (k d : Int) (hk : k < 0) (hd : 0 < d) :
    divInt [⟨true, k⟩, ⟨true, d⟩] = some 0 ∧ spec Int.ediv [⟨true, k⟩, ⟨true, d⟩] = some (k / d) ∧ k / d < 0 := by
  refine ⟨?_, rfl, Int.ediv_neg_of_neg_of_pos hk hd⟩
  simp [divInt, lits]
  omega

/-- Negative divisors are multiplied together: `(div x (- 2) 2)` is not `(div x (- 4))`. -/
theorem div_mul_violated : divInt [⟨false, 7⟩, ⟨true, -2⟩, ⟨true, 2⟩] ≠ spec Int.ediv [⟨false, 7⟩, ⟨true, -2⟩, ⟨true, 2⟩] := by decide

/-! ## Concatenation -/

/-- the loop (`src/eval_parser.cpp:857-895`), on lists: in a run of literals the first one is appended to itself, the operand after
the run is skipped; `fuel` is the number of operands left -/
def catLoop {α : Type} : Nat → List (Op (List α)) → List (Op (List α))
  | 0, _ => []
  | _ + 1, [] => []
  | n + 1, u :: us =>
    if u.lit then
      let run := (u :: us).takeWhile fun v => v.lit
      ⟨true, run.foldl (fun acc v => acc ++ v.val) u.val⟩ :: catLoop n (((u :: us).dropWhile fun v => v.lit).drop 1)
    else u :: catLoop n us

/-- value of the result (`src/eval_parser.cpp:896-909`) -/
def cat {α : Type} (us : List (Op (List α))) : List α := ((catLoop us.length us).map Op.val).flatten

/-- specification -/
def catSpec {α : Type} (us : List (Op (List α))) : List α := (us.map Op.val).flatten

/-- **C35.**  Concatenation keeps its value if no operand evaluates to a literal. -/
theorem cat_sound_partial {α : Type} (us : List (Op (List α))) (h : ∀ u ∈ us, u.lit = false) : cat us = catSpec us := by
  have : catLoop us.length us = us := by
    induction us with
    | nil => rfl
    | cons u us ih =>
      simp only [List.length_cons, catLoop, h u (by simp), Bool.false_eq_true, if_false]
      rw [ih fun v hv => h v (by simp [hv])]
  simp [cat, catSpec, this]

/-- A literal first operand appears twice, and the operand after it is lost. -/
theorem cat_violated {α : Type} (a b : List α) : cat [⟨true, a⟩, ⟨false, b⟩] = a ++ a ∧ cat [⟨true, a⟩, ⟨true, b⟩] = a ++ a ++ b := by
  simp [cat, catLoop]

end SMT.Eval.Fold
