import Verif.Value.Model
import Verif.Num.PropsSet
import Verif.Text.PropsStr

/-!
# C62, C63: what a `Value` holds, and how values compare

Specification: a value is one of: nothing (with a type name), a string, a number, an interval, a Boolean.
-/

noncomputable section
namespace SMT.Value
open SMT SMT.Num SMT.Str

/-! ## Specification -/

/-- what a value is, for its user -/
inductive AVal where
  /-- only the name of a type is known (`unknown`, `bv`, `fp`, `array`) -/
  | bare (t : Ty)
  | str (s : List Char)
  | num (n : Number)
  | itv (A : Interval)
  | bool (b : Bool)

/-- reading of the four members -/
def abs (v : Value) : AVal :=
  match v.ty with
  | .string => .str v.str
  | .number => .num v.num
  | .interval => .itv v.itv
  | .boolean => .bool v.bool
  | t => .bare t

/-- the type of what is held -/
def AVal.ty : AVal → Ty
  | .bare t => t
  | .str _ => .string
  | .num _ => .number
  | .itv _ => .interval
  | .bool _ => .boolean

/-- statements on abstract values -/
inductive AStm where
  | store (x : AVal)
  | ar (o : Ar) (x : AVal)
  | inc
  | dec

/-- a statement, without the members that do not count -/
def Stm.abs : Stm → AStm
  | .setStr s => .store (.str s)
  | .setNum n => .store (.num n)
  | .setItv A => .store (.itv A)
  | .setBool b => .store (.bool b)
  | .assign w => .store (Value.abs w)
  | .ar _ o w => .ar o (Value.abs w)
  | .inc => .inc
  | .dec => .dec

/-- the operators on abstract values: two numbers, two intervals, or the sum of two strings -/
def AVal.ar (F : Fmt) (o : Ar) : AVal → AVal → Option AVal
  | .num a, .num b => match arN F o a b with
    | .ok n => some (.num n)
    | _ => none
  | .itv a, .itv b => match arI F o a b with
    | .ok n => some (.itv n)
    | _ => none
  | .str s, .str t => if o = .add then some (.str (s ++ t)) else none
  | _, _ => none

/-- what a variable holds after one statement: a failed operation changes nothing -/
def AVal.step (F : Fmt) (x : AVal) : AStm → AVal
  | .store y => y
  | .ar o y => (AVal.ar F o x y).getD x
  | .inc => match x with
    | .num n => .num (Number.add F n (.int 1))
    | .itv A => .itv (Interval.inc F A)
    | x => x
  | .dec => match x with
    | .num n => .num (Number.sub F n (.int 1))
    | .itv A => .itv (decI F A)
    | x => x

/-! ## C62 -/

/-- **C62.**  A getter returns the content if the value is of the getter's type, and throws otherwise. -/
theorem getters_exact (v : Value) :
    getStr v = (match abs v with | .str s => .ok s | _ => .throw) ∧
    getNum v = (match abs v with | .num n => .ok n | _ => .throw) ∧
    getItv v = (match abs v with | .itv A => .ok A | _ => .throw) ∧
    getBool v = (match abs v with | .bool b => .ok b | _ => .throw) ∧
    v.ty = (abs v).ty := by
  rcases v with ⟨s, n, A, b, t⟩
  cases t <;> simp [getStr, getNum, getItv, getBool, abs, AVal.ty]

/-- **C62.**  Each constructor and setter stores its argument. -/
theorem stores_exact (u : Bool) (v : Value) (s : List Char) (n : Number) (A : Interval) (b : Bool) :
    abs (ofStr u s) = .str s ∧ abs (ofNum u n) = .num n ∧ abs (ofItv u A) = .itv A ∧ abs (ofBool b) = .bool b ∧
    abs (setStr v s) = .str s ∧ abs (setNum v n) = .num n ∧ abs (setItv v A) = .itv A ∧ abs (setBool v b) = .bool b :=
  ⟨rfl, rfl, rfl, rfl, rfl, rfl, rfl, rfl⟩

variable (F : Fmt)

theorem ar_abs (u : Bool) (o : Ar) (a b : Value) :
    (match ar F u o a b with | .ok w => some (abs w) | _ => none) = AVal.ar F o (abs a) (abs b) := by
  rcases a with ⟨s, n, A, x, t⟩
  rcases b with ⟨s', n', A', x', t'⟩
  cases t <;> cases t' <;> simp only [ar, abs, AVal.ar, reduceCtorEq, and_false, false_and, if_false, and_self, if_true]
  · by_cases h : o = .add
    · rw [if_pos ⟨h, trivial⟩, if_pos h]; rfl
    · rw [if_neg (fun q => h q.1), if_neg h]
  · cases arN F o n n' <;> rfl
  · cases arI F o A A' <;> rfl

/-- **C62.**  Over any history of assignments, stores, compound assignments, increments and decrements, some of which may throw,
a variable holds exactly what the same history of abstract values gives: the members its type does not name never show, neither
the variable's own nor those of the operands. -/
theorem history_exact (v : Value) (l : List Stm) :
    abs (run F v l) = (l.map Stm.abs).foldl (AVal.step F) (abs v) := by
  induction l generalizing v with
  | nil => rfl
  | cons s l ih =>
    rw [List.map_cons, List.foldl_cons]
    have key : ∀ w, stm F v s = .ok w → abs w = AVal.step F (abs v) s.abs := by
      intro w h
      cases s with
      | setStr s => cases h; rfl
      | setNum s => cases h; rfl
      | setItv s => cases h; rfl
      | setBool s => cases h; rfl
      | assign s => cases h; rfl
      | ar u o x =>
        have e := ar_abs F u o v x
        simp only [stm] at h
        rw [h] at e
        simp only [Stm.abs, AVal.step, ← e, Option.getD_some]
      | inc =>
        rcases v with ⟨s, n, A, x, t⟩
        cases t <;> simp only [stm, incV, reduceCtorEq] at h <;> cases h <;> rfl
      | dec =>
        rcases v with ⟨s, n, A, x, t⟩
        cases t <;> simp only [stm, decV, reduceCtorEq] at h <;> cases h <;> rfl
    have key2 : (∀ w, stm F v s ≠ .ok w) → abs v = AVal.step F (abs v) s.abs := by
      intro h
      cases s with
      | setStr s => exact absurd rfl (h _)
      | setNum s => exact absurd rfl (h _)
      | setItv s => exact absurd rfl (h _)
      | setBool s => exact absurd rfl (h _)
      | assign s => exact absurd rfl (h _)
      | ar u o x =>
        have e := ar_abs F u o v x
        simp only [stm] at h
        simp only [Stm.abs, AVal.step]
        cases hr : ar F u o v x with
        | ok w => exact absurd hr (h w)
        | _ => rw [hr] at e; rw [← e]; rfl
      | inc =>
        rcases v with ⟨s, n, A, x, t⟩
        cases t <;> first | rfl | exact absurd rfl (h _)
      | dec =>
        rcases v with ⟨s, n, A, x, t⟩
        cases t <;> first | rfl | exact absurd rfl (h _)
    unfold run
    cases hs : stm F v s with
    | ok w => simp only; rw [ih w, key w hs]
    | _ => simp only; rw [ih v, ← key2 (fun w => by rw [hs]; exact fun h => by cases h)]

/-- **C62.**  Two variables that hold the same, after histories that agree up to the members that do not count, give the same
answers. -/
theorem stale_invisible (v v' : Value) (l l' : List Stm) (hv : abs v = abs v') (hl : l.map Stm.abs = l'.map Stm.abs) :
    getStr (run F v l) = getStr (run F v' l') ∧ getNum (run F v l) = getNum (run F v' l') ∧
    getItv (run F v l) = getItv (run F v' l') ∧ getBool (run F v l) = getBool (run F v' l') := by
  have e : abs (run F v l) = abs (run F v' l') := by rw [history_exact, history_exact, hv, hl]
  obtain ⟨h1, h2, h3, h4, _⟩ := getters_exact (run F v l)
  obtain ⟨k1, k2, k3, k4, _⟩ := getters_exact (run F v' l')
  exact ⟨by rw [h1, k1, e], by rw [h2, k2, e], by rw [h3, k3, e], by rw [h4, k4, e]⟩

/-- a variable that held a string, a number and a Boolean, with a failed sum in between -/
example (u : Bool) : getNum (run exact (ofStr u ['a']) [.setBool true, .setNum (.int 2), .ar u .add (ofStr u ['b']),
    .ar u .mul (ofNum u (.int 3)), .inc]) = .ok (.int 7) := by
  simp [run, stm, setBool, setNum, ar, ofStr, ofNum, ofTy, arN, Number.mul, incV, Number.add, getNum, Res.bind]

/-- **C62, where it fails.**  A value made from the type name alone has a type whose content was never stored: the string, number and
interval are the empty string, zero and the interval [0, 0], but the Boolean is whatever was in memory. -/
theorem bare_violated (u : Bool) : getStr (ofTy u .string) = .ok [] ∧ getNum (ofTy u .number) = .ok (.int 0) ∧
    getBool (ofTy u .boolean) = .ok u := ⟨rfl, rfl, rfl⟩

/-- **C62, where it fails.**  `newValue(long)` keeps the number only if it fits an `int`, `newValue(int)` always keeps it; a string
literal becomes the Boolean `true`. -/
theorem newValue_violated (u : Bool) (i : Int) (h0 : -9223372036854775808 ≤ i) (h1 : i < 9223372036854775808) (s : List Char) :
    abs (newInt u i) = .num (.int i) ∧
    (abs (newLong u i) = .num (.int i) ↔ -2147483648 ≤ i ∧ i < 2147483648) ∧
    abs (newLong u 4294967296) = .num (.int 0) ∧
    abs (newLiteral s) = .bool true := by
  refine ⟨rfl, ?_, rfl, rfl⟩
  simp only [newLong, ofNum, ofTy, abs, AVal.num.injEq, Number.int.injEq, castInt]
  omega

/-- **C62.**  The Boolean operators of two Boolean values; all other types throw. -/
theorem logic_exact (a b : Value) :
    andV a b = (match abs a, abs b with | .bool x, .bool y => .ok (x && y) | _, _ => .throw) ∧
    orV a b = (match abs a, abs b with | .bool x, .bool y => .ok (x || y) | _, _ => .throw) ∧
    notV a = (match abs a with | .bool x => .ok !x | _ => .throw) := by
  rcases a with ⟨s, n, A, x, t⟩
  rcases b with ⟨s', n', A', x', t'⟩
  cases t <;> cases t' <;> simp [andV, orV, notV, abs]

/-- **C62.**  A function of one argument, lifted to values: the number's for a number, the interval's for an interval, an exception
otherwise. -/
theorem un_exact (u : Bool) (f : Number → Res Number) (g : Interval → Res Interval) (a : Value) :
    (∀ n, abs a = .num n → (∀ m, f n = .ok m → ∃ w, un u f g a = .ok w ∧ abs w = .num m) ∧ (f n = .throw → un u f g a = .throw)) ∧
    (∀ A, abs a = .itv A → (∀ B, g A = .ok B → ∃ w, un u f g a = .ok w ∧ abs w = .itv B) ∧ (g A = .throw → un u f g a = .throw)) ∧
    ((abs a).ty ≠ .number → (abs a).ty ≠ .interval → un u f g a = .throw) := by
  rcases a with ⟨s, n, A, x, t⟩
  cases t <;> simp only [abs, un, AVal.ty, reduceCtorEq, false_implies, implies_true, true_and, and_true, ne_eq,
    not_true_eq_false, not_false_eq_true, AVal.num.injEq, AVal.itv.injEq, forall_const]
  · rintro k rfl
    exact ⟨fun m h => ⟨ofNum u m, by rw [h]; rfl, rfl⟩, fun h => by rw [h]; rfl⟩
  · rintro k rfl
    exact ⟨fun m h => ⟨ofItv u m, by rw [h]; rfl, rfl⟩, fun h => by rw [h]; rfl⟩

/-! ## C63 -/

/-- the same content; an interval is known by its ends and its two flags -/
def Same : AVal → AVal → Prop
  | .str s, .str t => s = t
  | .num a, .num b => a.w = b.w
  | .itv A, .itv B => A.lo.w = B.lo.w ∧ A.hi.w = B.hi.w ∧ A.lc = B.lc ∧ A.rc = B.rc
  | .bool a, .bool b => a = b
  | _, _ => False

/-- the order of the contents -/
def Less : AVal → AVal → Prop
  | .str s, .str t => Lt s t
  | .num a, .num b => a.w < b.w
  | .bool a, .bool b => a = false ∧ b = true
  | _, _ => False

/-- no number held is NaN, and the integers fit the working precision -/
def AVal.Ok (F : Fmt) : AVal → Prop
  | .num n => n.Ok F
  | .itv A => A.Ok F
  | _ => True

/-- a string, number or Boolean -/
def AVal.Scalar : AVal → Prop
  | .str _ | .num _ | .bool _ => True
  | _ => False

theorem ltStr_iff (s t : List Char) : ltStr s t = true ↔ Lt s t := by
  induction s generalizing t with
  | nil =>
    cases t with
    | nil => simp only [ltStr, Bool.false_eq_true, false_iff]; intro h; cases h
    | cons b t => simp only [ltStr, true_iff]; exact .nil b t
  | cons a s ih =>
    cases t with
    | nil => simp only [ltStr, Bool.false_eq_true, false_iff]; intro h; cases h
    | cons b t =>
      rw [ltStr]
      split
      · rename_i h1
        exact ⟨fun _ => .head a b s t h1, fun _ => rfl⟩
      · rename_i h1
        split
        · rename_i h2
          simp only [Bool.false_eq_true, false_iff]
          intro h
          cases h with
          | head _ _ _ _ h => omega
          | tail _ _ _ h => omega
        · rename_i h2
          have := char_ext h1 h2
          subst this
          rw [ih]
          refine ⟨.tail a s t, fun h => ?_⟩
          cases h with
          | head _ _ _ _ h => omega
          | tail _ _ _ h => exact h

/-- **C63.**  `==` is equality of contents, `!=` its negation: values of different types are never equal. -/
theorem eq_exact_partial (a b : Value) (ha : (abs a).Ok F) (hb : (abs b).Ok F) :
    (eqV F a b = true ↔ Same (abs a) (abs b)) ∧ neV F a b = !eqV F a b := by
  refine ⟨?_, rfl⟩
  rcases a with ⟨s, n, A, x, t⟩
  rcases b with ⟨s', n', A', x', t'⟩
  cases t <;> cases t' <;> simp [eqV, abs, Same]
  · exact eq_iff ha hb
  · simp only [abs, AVal.Ok, Interval.Ok] at ha hb
    simp only [eqItv, Bool.and_eq_true, eq_iff ha.1 hb.1, eq_iff ha.2 hb.2, beq_iff_eq, and_assoc]

/-- **C63.**  The four order operators of two strings, two numbers or two Booleans: strings by the codes of their bytes, numbers by
value, `false` before `true`. -/
theorem order_exact (a b : Value) (ha : (abs a).Ok F) (hb : (abs b).Ok F) (hs : (abs a).Scalar) (ht : (abs a).ty = (abs b).ty) :
    ∃ l m g k : Bool, ltV F a b = .ok l ∧ leV F a b = .ok m ∧ gtV F a b = .ok g ∧ geV F a b = .ok k ∧
      (l = true ↔ Less (abs a) (abs b)) ∧ (m = true ↔ Less (abs a) (abs b) ∨ Same (abs a) (abs b)) ∧
      (g = true ↔ Less (abs b) (abs a)) ∧ (k = true ↔ Less (abs b) (abs a) ∨ Same (abs b) (abs a)) := by
  have he := (eq_exact_partial F a b ha hb).1
  rcases a with ⟨s, n, A, x, t⟩
  rcases b with ⟨s', n', A', x', t'⟩
  cases t <;> simp only [abs, AVal.Scalar] at hs <;> cases t' <;> simp only [abs, AVal.ty, reduceCtorEq] at ht
  · refine ⟨ltStr s s', _, _, _, rfl, rfl, rfl, rfl, ltStr_iff s s', ?_, ?_, ?_⟩
    · rw [Bool.or_eq_true, he, ltStr_iff]; rfl
    · simp only [abs, Less]
      rw [Bool.not_eq_true', ← Bool.not_eq_true, Bool.or_eq_true, he, ltStr_iff]
      simp only [abs, Same]
      rw [← lt_total, Classical.not_not]
    · simp only [abs, Less, Same]
      rw [Bool.not_eq_true', ← Bool.not_eq_true, ltStr_iff, lt_total]
  · simp only [abs, AVal.Ok] at ha hb
    refine ⟨Number.lt F n n', _, _, _, rfl, rfl, rfl, rfl, lt_iff ha hb, ?_, ?_, ?_⟩
    · rw [Bool.or_eq_true, he, lt_iff ha hb]; rfl
    · simp only [abs, Less]
      rw [Bool.not_eq_true', ← Bool.not_eq_true, Bool.or_eq_true, he, lt_iff ha hb]
      simp only [abs, Same]
      rw [← le_iff_lt_or_eq, not_le]
    · simp only [abs, Less, Same]
      rw [Bool.not_eq_true', ← Bool.not_eq_true, lt_iff ha hb, not_lt, le_iff_lt_or_eq]
  · refine ⟨!x && x', _, _, _, rfl, rfl, rfl, rfl, ?_, ?_, ?_, ?_⟩ <;> cases x <;> cases x' <;> simp [abs, Less, Same, eqV]

theorem lt_irrefl' (s : List Char) : ¬ Lt s s := (lt_total s s).mpr (.inr rfl)

theorem lt_trans' (s t r : List Char) (h : Lt s t) (h' : Lt t r) : Lt s r := by
  induction h generalizing r with
  | nil c t => cases h' <;> exact .nil _ _
  | head a b s t hab =>
    cases h' with
    | head _ c _ r h => exact .head _ _ _ _ (by omega)
    | tail _ _ r h => exact .head _ _ _ _ hab
  | tail a s t _ ih =>
    cases h' with
    | head _ c _ r h => exact .head _ _ _ _ h
    | tail _ _ r h => exact .tail _ _ _ (ih _ h)

/-- **C63.**  The order of the contents of each type is a strict total order. -/
theorem less_order (a b c : Value) (hs : (abs a).Scalar) (h1 : (abs a).ty = (abs b).ty) (h2 : (abs b).ty = (abs c).ty) :
    ¬ Less (abs a) (abs a) ∧ (Less (abs a) (abs b) → Less (abs b) (abs c) → Less (abs a) (abs c)) ∧
    (Less (abs a) (abs b) ∨ Same (abs a) (abs b) ∨ Less (abs b) (abs a)) ∧
    (Less (abs a) (abs b) → ¬ Same (abs a) (abs b) ∧ ¬ Less (abs b) (abs a)) := by
  rcases a with ⟨s, n, A, x, t⟩
  rcases b with ⟨s', n', A', x', t'⟩
  rcases c with ⟨s'', n'', A'', x'', t''⟩
  cases t <;> simp only [abs, AVal.Scalar] at hs <;> cases t' <;> simp only [abs, AVal.ty, reduceCtorEq] at h1 <;>
    cases t'' <;> simp only [abs, AVal.ty, reduceCtorEq] at h2 <;> simp only [abs, Less, Same]
  · refine ⟨lt_irrefl' s, lt_trans' s s' s'', ?_, ?_⟩
    · by_cases h : Lt s' s
      · exact .inr (.inr h)
      · rcases (lt_total s s').mp h with h | h
        · exact .inl h
        · exact .inr (.inl h)
    · intro h
      exact ⟨fun e => lt_irrefl' s' (e ▸ h), fun h' => lt_irrefl' s (lt_trans' _ _ _ h h')⟩
  · exact ⟨lt_irrefl _, lt_trans, lt_trichotomy _ _, fun h => ⟨h.ne, h.not_gt⟩⟩
  · cases x <;> cases x' <;> cases x'' <;> simp

/-- **C63.**  Two intervals that are not empty: `<` says that every point of the first is below every point of the second, `>=` is its
negation. -/
theorem interval_less_exact (a b : Value) (A B : Interval) (ha : abs a = .itv A) (hb : abs b = .itv B) (hA : A.Ok F) (hB : B.Ok F)
    (nA : ∃ x, Interval.Mem x A) (nB : ∃ x, Interval.Mem x B) :
    ∃ l : Bool, ltV F a b = .ok l ∧ geV F a b = .ok (!l) ∧
      (l = true ↔ ∀ x y, Interval.Mem x A → Interval.Mem y B → x < y) := by
  rcases a with ⟨s, n, A, x, t⟩
  rcases b with ⟨s', n', A', x', t'⟩
  cases t <;> simp only [abs, reduceCtorEq, AVal.itv.injEq] at ha
  cases t' <;> simp only [abs, reduceCtorEq, AVal.itv.injEq] at hb
  subst ha hb
  obtain ⟨l, g, h1, _, _, _, h5, _⟩ := Interval.interval_compare_exact F _ _ hA hB nA nB
  refine ⟨l, ?_, ?_, h5⟩
  · simp [ltV, h1]
  · simp [geV, ltV, h1, Res.bind]

/-- **C63.**  Values of different types: `==` is false, and each order operator throws. -/
theorem order_types (a b : Value) (h : a.ty ≠ b.ty) :
    eqV F a b = false ∧ ltV F a b = .throw ∧ leV F a b = .throw ∧ gtV F a b = .throw ∧ geV F a b = .throw := by
  simp [eqV, ltV, leV, gtV, geV, h, Res.bind]

example (u : Bool) : ltV exact (ofStr u ['a']) (ofStr u ['a', 'b']) = .ok true ∧ gtV exact (ofNum u (.int 3)) (ofNum u (.real (.fin (5/2)))) = .ok true ∧
    (abs (ofNum u (.int 3))).Ok exact ∧ (abs (ofNum u (.int 3))).Scalar := by
  refine ⟨rfl, ?_, ?_, trivial⟩
  · simp [gtV, leV, ltV, eqV, ofNum, ofTy, Number.lt, Number.eq, Number.toReal, XR.lt, XR.eq, exact, Res.bind]
    norm_num
  · simp [abs, ofNum, ofTy, AVal.Ok, Number.Ok, exact]

/-- **C63, where it fails.**  A value without content (the default, and a bit-vector, floating-point or array value) differs from
itself and cannot be compared; a NaN differs from itself and is greater than itself; two intervals that overlap are each greater than
the other; an interval is not `<=` an interval it lies below or touches unless it is strictly below or identical. -/
theorem compare_violated (u : Bool) :
    (∀ t, t = .unknown ∨ t = .bv ∨ t = .fp ∨ t = .array → ∀ v : Value, v.ty = t → eqV F v v = false ∧ neV F v v = true ∧ ltV F v v = .throw) ∧
    (eqV F (ofNum u (.real .nan)) (ofNum u (.real .nan)) = false ∧ gtV F (ofNum u (.real .nan)) (ofNum u (.real .nan)) = .ok true) ∧
    (let A := ofItv u ⟨.int 0, .int 2, true, true⟩
     let B := ofItv u ⟨.int 1, .int 3, true, true⟩
     gtV F A B = .ok true ∧ gtV F B A = .ok true ∧ geV F A B = .ok true ∧ leV F A B = .ok false) := by
  refine ⟨?_, ⟨rfl, rfl⟩, ?_⟩
  · rintro t h ⟨s, n, A, x, t'⟩ rfl
    rcases h with h | h | h | h <;> simp only at h <;> subst h <;> simp [eqV, neV, ltV]
  · refine ⟨rfl, rfl, rfl, rfl⟩

end SMT.Value
