import Verif.Kind.Model
import Verif.Num.Model

/-!
# Meaning of the comparison operators (SMT-LIB), independent of the code's tables
-/

namespace SMT.Kinds

/-- Values that comparisons apply to.  A floating-point value is NaN, an infinity or a finite number
(the comparisons do not distinguish the two zeros). -/
inductive CV where
  | bool (b : Bool)
  | int (i : Int)
  | real (q : Rat)
  | bv (w : Nat) (b : BitVec w)
  | fp (x : Num.XR)
  | str (s : List Char)
  | other (n : Nat)

/-- Mathematical relation behind an order comparison. -/
inductive Ord where
  | lt | le | gt | ge

/-- order comparison of a linearly ordered type, given `<` and `=` as propositions -/
def Ord.rel (o : Ord) (lt eq gt : Prop) : Prop :=
  match o with
  | .lt => lt
  | .le => lt ∨ eq
  | .gt => gt
  | .ge => gt ∨ eq

/-- SMT-LIB reading of a kind as an order comparison: the theory and the relation. -/
inductive Th where
  | arith | ubv | sbv | fp | str

/-- SMT-LIB reading of the kinds. -/
def asOrd : K → Option (Th × Ord)
  | .LT => some (.arith, .lt) | .LE => some (.arith, .le)
  | .GT => some (.arith, .gt) | .GE => some (.arith, .ge)
  | .BV_ULT => some (.ubv, .lt) | .BV_ULE => some (.ubv, .le)
  | .BV_UGT => some (.ubv, .gt) | .BV_UGE => some (.ubv, .ge)
  | .BV_SLT => some (.sbv, .lt) | .BV_SLE => some (.sbv, .le)
  | .BV_SGT => some (.sbv, .gt) | .BV_SGE => some (.sbv, .ge)
  | .FP_LT => some (.fp, .lt) | .FP_LE => some (.fp, .le)
  | .FP_GT => some (.fp, .gt) | .FP_GE => some (.fp, .ge)
  | .STR_LT => some (.str, .lt) | .STR_LE => some (.str, .le)
  | .STR_GT => some (.str, .gt) | .STR_GE => some (.str, .ge)
  | _ => none

/-- strict order of a theory on two values (false when a value is not of the theory) -/
def Less : Th → CV → CV → Prop
  | .arith, .int i, .int j => i < j
  | .arith, .real p, .real q => p < q
  | .ubv, .bv w x, .bv w' y => w = w' ∧ x.toNat < y.toNat
  | .sbv, .bv w x, .bv w' y => w = w' ∧ x.toInt < y.toInt
  | .fp, .fp x, .fp y => x.lt y = true
  | .str, .str s, .str t => s < t
  | _, _, _ => False

/-- equality of values as the order comparisons see it: NaN is not equal to itself -/
def Same : CV → CV → Prop
  | .fp x, .fp y => x = y ∧ x ≠ .nan
  | x, y => x = y

/-- The kind is one of the equalities `=` (any of its internal variants). -/
def IsEq (k : K) : Prop := k = .EQ ∨ k = .EQ_BOOL ∨ k = .EQ_OTHER
/-- The kind is one of the disequalities `distinct`. -/
def IsDist (k : K) : Prop := k = .DISTINCT ∨ k = .DISTINCT_BOOL ∨ k = .DISTINCT_OTHER

/-- The comparison `k` holds of `x` and `y`. -/
def Holds (k : K) (x y : CV) : Prop :=
  (IsEq k ∧ x = y) ∨ (IsDist k ∧ x ≠ y) ∨ (k = .FP_EQ ∧ Same x y) ∨
  ∃ t o, asOrd k = some (t, o) ∧ o.rel (Less t x y) (Same x y) (Less t y x)

/-- `x` and `y` are operands of one sort, on which `k` is a comparison of SMT-LIB. -/
def Operands (k : K) (x y : CV) : Prop :=
  match asOrd k with
  | some (.arith, _) => (∃ i j, x = .int i ∧ y = .int j) ∨ (∃ p q, x = .real p ∧ y = .real q)
  | some (.ubv, _) => ∃ w a b, x = .bv w a ∧ y = .bv w b
  | some (.sbv, _) => ∃ w a b, x = .bv w a ∧ y = .bv w b
  | some (.fp, _) => ∃ a b, x = .fp a ∧ y = .fp b
  | some (.str, _) => ∃ a b, x = .str a ∧ y = .str b
  | none => IsEq k ∨ IsDist k ∨ (k = .FP_EQ ∧ ∃ a b, x = .fp a ∧ y = .fp b)

/-- Comparison kinds: the equalities, the disequalities, `fp.eq` and the order comparisons. -/
def IsComp (k : K) : Prop := IsEq k ∨ IsDist k ∨ k = .FP_EQ ∨ (asOrd k).isSome

/-- No operand is NaN. -/
def NoNaN (x y : CV) : Prop := x ≠ .fp .nan ∧ y ≠ .fp .nan

end SMT.Kinds
