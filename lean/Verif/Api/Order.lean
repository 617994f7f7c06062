import Verif.Kind.Model

/-! # Sorting the operands of commutative operators (`src/op_parser.cpp:50-71`, `119-169`, `225-234`; C48) -/

namespace SMT.Order
open SMT.Kinds

/-- `isCommutative` (`src/op_parser.cpp:50-71`) -/
def isCommutative : K → Bool
  | .ADD | .MUL | .AND | .IAND | .OR | .XOR | .BV_ADD | .BV_MUL | .BV_AND | .BV_OR | .BV_XOR | .EQ | .DISTINCT
  | .MAX | .MIN => true
  | _ => false

/-- A `std::sort` on pairs (node, hash) by the hash: some reordering that is sorted.  Nothing is assumed about the order of
pairs with equal hashes (`std::sort` is not stable). -/
structure StdSort (α : Type) where
  run : List (α × Nat) → List (α × Nat)
  perm : ∀ l, (run l).Perm l
  sorted : ∀ l, (run l).Pairwise (fun a b => a.2 ≤ b.2)

/-- `sortParams` (`src/op_parser.cpp:119-169`) -/
def sortParams {α : Type} (S : StdSort α) (hash : α → Nat) : List α → List α
  | [] => []
  | [a] => [a]
  | [a, b] => if hash a > hash b then [b, a] else [a, b]
  | [a, b, c] =>
    let (a, b) := if hash a > hash b then (b, a) else (a, b)
    let (b, c) := if hash b > hash c then (c, b) else (b, c)
    let (a, b) := if hash a > hash b then (b, a) else (a, b)
    [a, b, c]
  | l => (S.run (l.map fun x => (x, hash x))).map Prod.fst

/-- the operands stored in the node (`mkInternalOper`, `src/op_parser.cpp:225-234`) -/
def stored {α : Type} (S : StdSort α) (hash : α → Nat) (k : K) (l : List α) : List α :=
  if isCommutative k then sortParams S hash l else l

/-! ## Specification: the values of the commutative operators -/

/-- bit `i` of an integer in two's complement -/
def bit (z : Int) (i : Nat) : Bool := z / 2 ^ i % 2 == 1

/-- values of the sorts the operators work on -/
inductive V where
  | b (x : Bool) | i (x : Int) | q (x : Rat) | bv (w : Nat) (x : BitVec w) | o (tag : Nat)

/-- `Means k vs v`: the value of the operator of kind `k` on the operand values `vs` is `v` (SMT-LIB; `iand` is the bitwise
conjunction of integers, `max`/`min` are the library's operators) -/
inductive Means : K → List V → V → Prop where
  | and (xs : List Bool) : Means .AND (xs.map .b) (.b (xs.all id))
  | or (xs : List Bool) : Means .OR (xs.map .b) (.b (xs.any id))
  | xor (xs : List Bool) : Means .XOR (xs.map .b) (.b (xs.count true % 2 == 1))
  | addI (xs : List Int) : Means .ADD (xs.map .i) (.i xs.sum)
  | addQ (xs : List Rat) : Means .ADD (xs.map .q) (.q xs.sum)
  | mulI (xs : List Int) : Means .MUL (xs.map .i) (.i (xs.foldr (· * ·) 1))
  | mulQ (xs : List Rat) : Means .MUL (xs.map .q) (.q (xs.foldr (· * ·) 1))
  | iand (xs : List Int) (z : Int) (h : ∀ j, bit z j = xs.all (bit · j)) : Means .IAND (xs.map .i) (.i z)
  | bvadd (w : Nat) (xs : List (BitVec w)) : Means .BV_ADD (xs.map (.bv w)) (.bv w (xs.foldr (· + ·) 0))
  | bvmul (w : Nat) (xs : List (BitVec w)) : Means .BV_MUL (xs.map (.bv w)) (.bv w (xs.foldr (· * ·) 1))
  | bvand (w : Nat) (xs : List (BitVec w)) : Means .BV_AND (xs.map (.bv w)) (.bv w (xs.foldr (· &&& ·) (BitVec.allOnes w)))
  | bvor (w : Nat) (xs : List (BitVec w)) : Means .BV_OR (xs.map (.bv w)) (.bv w (xs.foldr (· ||| ·) 0))
  | bvxor (w : Nat) (xs : List (BitVec w)) : Means .BV_XOR (xs.map (.bv w)) (.bv w (xs.foldr (· ^^^ ·) 0))
  | eqT (vs : List V) (h : ∀ x ∈ vs, ∀ y ∈ vs, x = y) : Means .EQ vs (.b true)
  | eqF (vs : List V) (h : ¬ ∀ x ∈ vs, ∀ y ∈ vs, x = y) : Means .EQ vs (.b false)
  | distT (vs : List V) (h : vs.Nodup) : Means .DISTINCT vs (.b true)
  | distF (vs : List V) (h : ¬ vs.Nodup) : Means .DISTINCT vs (.b false)
  | maxI (xs : List Int) (m : Int) (h : m ∈ xs) (h2 : ∀ x ∈ xs, x ≤ m) : Means .MAX (xs.map .i) (.i m)
  | maxQ (xs : List Rat) (m : Rat) (h : m ∈ xs) (h2 : ∀ x ∈ xs, x ≤ m) : Means .MAX (xs.map .q) (.q m)
  | minI (xs : List Int) (m : Int) (h : m ∈ xs) (h2 : ∀ x ∈ xs, m ≤ x) : Means .MIN (xs.map .i) (.i m)
  | minQ (xs : List Rat) (m : Rat) (h : m ∈ xs) (h2 : ∀ x ∈ xs, m ≤ x) : Means .MIN (xs.map .q) (.q m)
  /-- any other operator: some function of the operands, order included -/
  | other (k : K) (hk : k ∉ [K.AND, .OR, .XOR, .ADD, .MUL, .IAND, .BV_ADD, .BV_MUL, .BV_AND, .BV_OR, .BV_XOR, .EQ, .DISTINCT,
      .MAX, .MIN]) (f : List V → V) (vs : List V) : Means k vs (f vs)

/-! ## Proofs -/

/-- **C48.**  Sorting keeps the operands: same elements, same multiplicities. -/
theorem sortParams_perm {α : Type} (S : StdSort α) (hash : α → Nat) (l : List α) : (sortParams S hash l).Perm l := by
  unfold sortParams
  split
  · exact .refl _
  · exact .refl _
  · split
    · exact .swap _ _ _
    · exact .refl _
  · rename_i a b c
    by_cases h1 : hash a > hash b
    · simp only [h1, if_true]
      by_cases h2 : hash a > hash c
      · simp only [h2, if_true]
        split
        · exact ((List.Perm.swap _ _ _).trans (.cons _ (.swap _ _ _))).trans (.swap _ _ _)
        · exact (List.Perm.cons _ (.swap _ _ _)).trans (.swap _ _ _)
      · simp only [h2, if_false]
        split
        · exact .refl _
        · exact .swap _ _ _
    · simp only [h1, if_false]
      by_cases h2 : hash b > hash c
      · simp only [h2, if_true]
        split
        · exact (List.Perm.swap _ _ _).trans (.cons _ (.swap _ _ _))
        · exact .cons _ (.swap _ _ _)
      · simp only [h2, if_false]
        split
        · exact .swap _ _ _
        · exact .refl _
  · have := (S.perm (l.map fun x => (x, hash x))).map Prod.fst
    simpa [List.map_map, Function.comp_def] using this

/-- **C48.**  The result is in the order of the hashes. -/
theorem sortParams_sorted {α : Type} (S : StdSort α) (hash : α → Nat) (l : List α) :
    (sortParams S hash l).Pairwise (fun a b => hash a ≤ hash b) := by
  unfold sortParams
  split
  · exact .nil
  · simp
  · split <;> simp <;> omega
  · rename_i a b c
    by_cases h1 : hash a > hash b <;> simp only [h1, if_true, if_false]
    · by_cases h2 : hash a > hash c <;> simp only [h2, if_true, if_false] <;> split <;> simp <;> omega
    · by_cases h2 : hash b > hash c <;> simp only [h2, if_true, if_false] <;> split <;> simp <;> omega
  · have hp := S.perm (l.map fun x => (x, hash x))
    have hs := S.sorted (l.map fun x => (x, hash x))
    have hm : ∀ p ∈ S.run (l.map fun x => (x, hash x)), p.2 = hash p.1 := by
      intro p hp'
      have := hp.subset hp'
      simp only [List.mem_map] at this
      obtain ⟨x, _, rfl⟩ := this; rfl
    rw [List.pairwise_map]
    refine List.Pairwise.imp_of_mem ?_ hs
    intro p q hp' hq' hle
    rw [← hm p hp', ← hm q hq']; exact hle

/-- two sorted permutations of a list without equal hashes coincide -/
theorem sorted_unique {α : Type} (hash : α → Nat) (l r : List α) (hp : l.Perm r) (hl : l.Pairwise (fun a b => hash a ≤ hash b))
    (hr : r.Pairwise (fun a b => hash a ≤ hash b)) (hi : ∀ a ∈ l, ∀ b ∈ l, hash a = hash b → a = b) : l = r := by
  induction l generalizing r with
  | nil => exact hp.nil_eq
  | cons a l ih =>
    cases r with
    | nil => exact absurd hp.symm.nil_eq (by simp)
    | cons b r =>
      have hab : a = b := by
        have ha : a ∈ b :: r := hp.subset List.mem_cons_self
        have hb : b ∈ a :: l := hp.symm.subset List.mem_cons_self
        have h1 : hash a ≤ hash b := by
          rcases List.mem_cons.mp hb with rfl | hb'
          · exact Nat.le_refl _
          · exact (List.pairwise_cons.mp hl).1 b hb'
        have h2 : hash b ≤ hash a := by
          rcases List.mem_cons.mp ha with rfl | ha'
          · exact Nat.le_refl _
          · exact (List.pairwise_cons.mp hr).1 a ha'
        exact hi a List.mem_cons_self b hb (by omega)
      subst hab
      congr 1
      exact ih r hp.cons_inv (List.pairwise_cons.mp hl).2 (List.pairwise_cons.mp hr).2
        (fun x hx y hy => hi x (List.mem_cons_of_mem _ hx) y (List.mem_cons_of_mem _ hy))

/-- **C48.**  When different operands have different hashes, the result does not depend on the order in which the operands
were given, nor on the sorting algorithm. -/
theorem sortParams_canonical {α : Type} (S S' : StdSort α) (hash : α → Nat) (l r : List α) (hp : l.Perm r)
    (hi : ∀ a ∈ l, ∀ b ∈ l, hash a = hash b → a = b) : sortParams S hash l = sortParams S' hash r := by
  have h1 := sortParams_perm S hash l
  exact sorted_unique hash _ _ (h1.trans (hp.trans (sortParams_perm S' hash r).symm)) (sortParams_sorted S hash l)
    (sortParams_sorted S' hash r) (fun a ha b hb => hi a (h1.subset ha) b (h1.subset hb))

/-- **C48, what happens on a collision.**  Two different operands with the same hash are kept in the order given, so the two
orders give two different nodes. -/
theorem sortParams_collision {α : Type} (S : StdSort α) (hash : α → Nat) (a b : α) (hab : a ≠ b) (hh : hash a = hash b) :
    sortParams S hash [a, b] ≠ sortParams S hash [b, a] := by
  simp [sortParams, hh, hab]

theorem perm_foldr {α : Type} (f : α → α → α) (e : α) (hf : ∀ x y z, f x (f y z) = f y (f x z)) {l r : List α} (h : l.Perm r) :
    l.foldr f e = r.foldr f e := by
  induction h with
  | nil => rfl
  | cons x _ ih => simp only [List.foldr_cons, ih]
  | swap x y l => simp only [List.foldr_cons, hf]
  | trans _ _ ih1 ih2 => exact ih1.trans ih2

theorem perm_all {α : Type} (f : α → Bool) {l r : List α} (h : l.Perm r) : l.all f = r.all f := by
  rw [Bool.eq_iff_iff, List.all_eq_true, List.all_eq_true]
  exact ⟨fun g x hx => g x (h.symm.subset hx), fun g x hx => g x (h.subset hx)⟩

theorem perm_any {α : Type} (f : α → Bool) {l r : List α} (h : l.Perm r) : l.any f = r.any f := by
  rw [Bool.eq_iff_iff, List.any_eq_true, List.any_eq_true]
  exact ⟨fun ⟨x, hx, g⟩ => ⟨x, h.subset hx, g⟩, fun ⟨x, hx, g⟩ => ⟨x, h.symm.subset hx, g⟩⟩

/-- a permutation of a mapped list is a mapped permutation -/
theorem perm_of_map {α β : Type} (f : α → β) (xs : List α) : ∀ {l : List β}, (xs.map f).Perm l →
    ∃ ys, l = ys.map f ∧ xs.Perm ys := by
  intro l h
  generalize hm : xs.map f = m at h
  induction h generalizing xs with
  | nil => exact ⟨[], rfl, by simp at hm; rw [hm]⟩
  | cons x h ih =>
    cases xs with
    | nil => simp at hm
    | cons a xs =>
      simp only [List.map_cons, List.cons.injEq] at hm
      obtain ⟨ys, e, hp⟩ := ih xs hm.2
      exact ⟨a :: ys, by simp [e, hm.1], .cons _ hp⟩
  | swap x y l =>
    match xs, hm with
    | a :: b :: xs, hm =>
      simp only [List.map_cons, List.cons.injEq] at hm
      exact ⟨b :: a :: xs, by simp [hm.1, hm.2.1, hm.2.2], .swap _ _ _⟩
  | trans _ _ ih1 ih2 =>
    obtain ⟨ys, e, hp⟩ := ih1 xs hm
    obtain ⟨zs, e', hp'⟩ := ih2 ys e.symm
    exact ⟨zs, e', hp.trans hp'⟩

/-- the commutative operators have the same value on reordered operands -/
theorem means_perm {k : K} (hk : isCommutative k = true) {vs ws : List V} {v : V} (hp : vs.Perm ws) (h : Means k vs v) :
    Means k ws v := by
  cases h with
  | other _ hk' =>
    unfold isCommutative at hk
    split at hk <;> simp at hk' hk
  | and xs => obtain ⟨ys, rfl, hq⟩ := perm_of_map _ xs hp; rw [perm_all _ hq]; exact .and ys
  | or xs => obtain ⟨ys, rfl, hq⟩ := perm_of_map _ xs hp; rw [perm_any _ hq]; exact .or ys
  | xor xs => obtain ⟨ys, rfl, hq⟩ := perm_of_map _ xs hp; rw [hq.count_eq]; exact .xor ys
  | addI xs =>
    obtain ⟨ys, rfl, hq⟩ := perm_of_map _ xs hp
    have e : xs.sum = ys.sum := perm_foldr (· + ·) 0 (fun x y z => by omega) hq
    rw [e]; exact .addI ys
  | addQ xs =>
    obtain ⟨ys, rfl, hq⟩ := perm_of_map _ xs hp
    have e : xs.sum = ys.sum := perm_foldr (· + ·) 0 (fun x y z => by
      rw [← Rat.add_assoc, Rat.add_comm x y, Rat.add_assoc]) hq
    rw [e]; exact .addQ ys
  | mulI xs =>
    obtain ⟨ys, rfl, hq⟩ := perm_of_map _ xs hp
    rw [perm_foldr (· * ·) 1 (fun x y z => by rw [Int.mul_left_comm]) hq]; exact .mulI ys
  | mulQ xs =>
    obtain ⟨ys, rfl, hq⟩ := perm_of_map _ xs hp
    rw [perm_foldr (· * ·) 1 (fun x y z => by rw [← Rat.mul_assoc, Rat.mul_comm x y, Rat.mul_assoc]) hq]; exact .mulQ ys
  | iand xs z h =>
    obtain ⟨ys, rfl, hq⟩ := perm_of_map _ xs hp
    exact .iand ys z (fun j => by rw [h j, perm_all _ hq])
  | bvadd w xs =>
    obtain ⟨ys, rfl, hq⟩ := perm_of_map _ xs hp
    rw [perm_foldr (· + ·) 0 (fun x y z => by rw [← BitVec.add_assoc, BitVec.add_comm x y, BitVec.add_assoc]) hq]
    exact .bvadd w ys
  | bvmul w xs =>
    obtain ⟨ys, rfl, hq⟩ := perm_of_map _ xs hp
    rw [perm_foldr (· * ·) 1 (fun x y z => by rw [← BitVec.mul_assoc, BitVec.mul_comm x y, BitVec.mul_assoc]) hq]
    exact .bvmul w ys
  | bvand w xs =>
    obtain ⟨ys, rfl, hq⟩ := perm_of_map _ xs hp
    rw [perm_foldr (· &&& ·) _ (fun x y z => by rw [← BitVec.and_assoc, BitVec.and_comm x y, BitVec.and_assoc]) hq]
    exact .bvand w ys
  | bvor w xs =>
    obtain ⟨ys, rfl, hq⟩ := perm_of_map _ xs hp
    rw [perm_foldr (· ||| ·) 0 (fun x y z => by rw [← BitVec.or_assoc, BitVec.or_comm x y, BitVec.or_assoc]) hq]
    exact .bvor w ys
  | bvxor w xs =>
    obtain ⟨ys, rfl, hq⟩ := perm_of_map _ xs hp
    rw [perm_foldr (· ^^^ ·) 0 (fun x y z => by rw [← BitVec.xor_assoc, BitVec.xor_comm x y, BitVec.xor_assoc]) hq]
    exact .bvxor w ys
  | eqT _ h => exact .eqT _ (fun x hx y hy => h x (hp.symm.subset hx) y (hp.symm.subset hy))
  | eqF _ h => exact .eqF _ (fun g => h fun x hx y hy => g x (hp.subset hx) y (hp.subset hy))
  | distT _ h => exact .distT _ (hp.nodup_iff.mp h)
  | distF _ h => exact .distF _ (fun g => h (hp.nodup_iff.mpr g))
  | maxI xs m h h2 =>
    obtain ⟨ys, rfl, hq⟩ := perm_of_map _ xs hp
    exact .maxI ys m (hq.subset h) (fun x hx => h2 x (hq.symm.subset hx))
  | maxQ xs m h h2 =>
    obtain ⟨ys, rfl, hq⟩ := perm_of_map _ xs hp
    exact .maxQ ys m (hq.subset h) (fun x hx => h2 x (hq.symm.subset hx))
  | minI xs m h h2 =>
    obtain ⟨ys, rfl, hq⟩ := perm_of_map _ xs hp
    exact .minI ys m (hq.subset h) (fun x hx => h2 x (hq.symm.subset hx))
  | minQ xs m h h2 =>
    obtain ⟨ys, rfl, hq⟩ := perm_of_map _ xs hp
    exact .minQ ys m (hq.subset h) (fun x hx => h2 x (hq.symm.subset hx))

/-- **C48.**  For every operator kind and every valuation of the operands, the operator applied to the stored operands has the
value it has on the operands as given. -/
theorem stored_value {α : Type} (S : StdSort α) (hash : α → Nat) (k : K) (l : List α) (ev : α → V) (v : V)
    (h : Means k (l.map ev) v) : Means k ((stored S hash k l).map ev) v := by
  unfold stored
  split
  · rename_i hk
    exact means_perm hk ((sortParams_perm S hash l).map ev).symm h
  · exact h

/-- A sorting function with the required properties exists. -/
def mergeStd (α : Type) : StdSort α where
  run l := l.mergeSort (fun a b => decide (a.2 ≤ b.2))
  perm l := List.mergeSort_perm l _
  sorted l := by
    have := List.pairwise_mergeSort (le := fun a b : α × Nat => decide (a.2 ≤ b.2)) (by intro a b c; simp; omega)
      (by intro a b; simp; omega) l
    simpa using this

/-- Non-vacuous: four operands, distinct hashes, two orders. -/
example : sortParams (mergeStd Nat) (fun n => 10 - n) [1, 3, 2, 5] = sortParams (mergeStd Nat) (fun n => 10 - n) [5, 1, 2, 3] :=
  sortParams_canonical _ _ _ _ _ (by decide) (by simp)

end SMT.Order
