import Verif.Term.Spec
import Verif.Text.Dec
import Verif.BV.Spec

/-!
# What the bit-vector operators mean (C80)

The theory `FixedSizeBitVectors` of SMT-LIB (and the operators of the logic `QF_BV`), in terms of Lean's `BitVec`.
-/

namespace SMT.Mean
open SMT SMT.Text

/-- a bit-vector as a value -/
def bvVal {w : Nat} (x : BitVec w) : Val := .u (.bv w) (String.ofList (BV.lit x))

/-- the widths: at least one bit, and few enough for a machine word -/
def Wd (w : Nat) : Prop := 0 < w ∧ w + 2 < 2 ^ 64

/-- the hexadecimal digits -/
def hexChars : List Char :=
  ['0', '1', '2', '3', '4', '5', '6', '7', '8', '9', 'a', 'b', 'c', 'd', 'e', 'f', 'A', 'B', 'C', 'D', 'E', 'F']

/-- the value of a digit -/
def hexDig (c : Char) : Nat := if c.isDigit then c.toNat - 48 else if c.isUpper then c.toNat - 55 else c.toNat - 87

/-- the value of a hexadecimal number -/
def hexVal (ds : List Char) : Nat := ds.foldl (fun a c => a * 16 + hexDig c) 0

/-- the operators with two or more operands, grouped from the left -/
def leftTable : List (List Char × (∀ w, BitVec w → BitVec w → BitVec w)) := [
  (cs!"bvand", fun _ x y => x &&& y), (cs!"bvor", fun _ x y => x ||| y), (cs!"bvxor", fun _ x y => x ^^^ y),
  (cs!"bvadd", fun _ x y => x + y), (cs!"bvmul", fun _ x y => x * y)]

/-- the operators with two operands -/
def binTable : List (List Char × (∀ w, BitVec w → BitVec w → BitVec w)) := [
  (cs!"bvnand", fun _ x y => ~~~(x &&& y)), (cs!"bvnor", fun _ x y => ~~~(x ||| y)), (cs!"bvxnor", fun _ x y => ~~~(x ^^^ y)),
  (cs!"bvsub", fun _ x y => x - y), (cs!"bvudiv", fun _ x y => x.smtUDiv y), (cs!"bvurem", fun _ x y => x.umod y),
  (cs!"bvsdiv", fun _ x y => x.smtSDiv y), (cs!"bvsrem", fun _ x y => x.srem y), (cs!"bvsmod", fun _ x y => x.smod y),
  (cs!"bvshl", fun _ x y => x <<< y.toNat), (cs!"bvlshr", fun _ x y => x >>> y.toNat), (cs!"bvashr", fun _ x y => x.sshiftRight y.toNat)]

/-- the comparisons -/
def cmpTable : List (List Char × (∀ w, BitVec w → BitVec w → Bool)) := [
  (cs!"bvult", fun _ x y => decide (x.toNat < y.toNat)), (cs!"bvule", fun _ x y => decide (x.toNat ≤ y.toNat)),
  (cs!"bvugt", fun _ x y => decide (y.toNat < x.toNat)), (cs!"bvuge", fun _ x y => decide (y.toNat ≤ x.toNat)),
  (cs!"bvslt", fun _ x y => decide (x.toInt < y.toInt)), (cs!"bvsle", fun _ x y => decide (x.toInt ≤ y.toInt)),
  (cs!"bvsgt", fun _ x y => decide (y.toInt < x.toInt)), (cs!"bvsge", fun _ x y => decide (y.toInt ≤ x.toInt))]

/-- `BvApp o n vs v`: the operator `o` with `n` indices, applied to the indices and operands `vs`, gives `v`. -/
inductive BvApp : List Char → Nat → List Val → Val → Prop where
  | not {w} (x : BitVec w) : Wd w → BvApp cs!"bvnot" 0 [bvVal x] (bvVal (~~~x))
  | neg {w} (x : BitVec w) : Wd w → BvApp cs!"bvneg" 0 [bvVal x] (bvVal (-x))
  | left {w o f} (x y : BitVec w) (xs : List (BitVec w)) : (o, f) ∈ leftTable → Wd w →
      BvApp o 0 ((x :: y :: xs).map bvVal) (bvVal ((y :: xs).foldl (f w) x))
  | bin {w o f} (x y : BitVec w) : (o, f) ∈ binTable → Wd w → BvApp o 0 [bvVal x, bvVal y] (bvVal (f w x y))
  | cmp {w o f} (x y : BitVec w) : (o, f) ∈ cmpTable → Wd w → BvApp o 0 [bvVal x, bvVal y] (.b (f w x y))
  | comp {w} (x y : BitVec w) : Wd w → BvApp cs!"bvcomp" 0 [bvVal x, bvVal y] (bvVal (if x = y then 1#1 else 0#1))
  | concat {v w} (x : BitVec v) (y : BitVec w) : Wd v → Wd w → Wd (v + w) → BvApp cs!"concat" 0 [bvVal x, bvVal y] (bvVal (x ++ y))
  /-- `((_ extract hi lo) x)` -/
  | extract {w} (x : BitVec w) (hi lo : Nat) : Wd w → lo ≤ hi → hi < w →
      BvApp cs!"extract" 2 [.n hi, .n lo, bvVal x] (bvVal (x.extractLsb' lo (hi - lo + 1)))
  /-- `((_ repeat n) x)` -/
  | rep {w} (x : BitVec w) (n : Nat) : Wd w → Wd (w * n) → n < 2 ^ 64 → BvApp cs!"repeat" 1 [.n n, bvVal x] (bvVal (x.replicate n))
  /-- `((_ rotate_left n) x)` -/
  | rol {w} (x : BitVec w) (n : Nat) : Wd w → BvApp cs!"rotate_left" 1 [.n n, bvVal x] (bvVal (x.rotateLeft n))
  /-- `((_ rotate_right n) x)` -/
  | ror {w} (x : BitVec w) (n : Nat) : Wd w → BvApp cs!"rotate_right" 1 [.n n, bvVal x] (bvVal (x.rotateRight n))
  /-- `((_ zero_extend n) x)` -/
  | zext {w} (x : BitVec w) (n : Nat) : Wd w → Wd (w + n) → BvApp cs!"zero_extend" 1 [.n n, bvVal x] (bvVal (x.zeroExtend (w + n)))
  /-- `((_ sign_extend n) x)` -/
  | sext {w} (x : BitVec w) (n : Nat) : Wd w → Wd (w + n) → BvApp cs!"sign_extend" 1 [.n n, bvVal x] (bvVal (x.signExtend (w + n)))

/-- the kind of the nodes of each operator, as it is named in `Env.fn` -/
def bvTable : List (List Char × Kind) := [
  (cs!"bvnot", .bvOp 0), (cs!"bvneg", .bvOp 1), (cs!"bvand", .bvOp 2), (cs!"bvor", .bvOp 3), (cs!"bvxor", .bvOp 4), (cs!"bvnand", .bvOp 5),
  (cs!"bvnor", .bvOp 6), (cs!"bvxnor", .bvOp 7), (cs!"bvadd", .bvOp 8), (cs!"bvsub", .bvOp 9), (cs!"bvmul", .bvOp 10), (cs!"bvudiv", .bvOp 11),
  (cs!"bvurem", .bvOp 12), (cs!"bvsdiv", .bvOp 13), (cs!"bvsrem", .bvOp 14), (cs!"bvsmod", .bvOp 15), (cs!"bvshl", .bvOp 16),
  (cs!"bvlshr", .bvOp 17), (cs!"bvashr", .bvOp 18), (cs!"concat", .bvOp 19), (cs!"extract", .bvOp 20), (cs!"repeat", .bvOp 21),
  (cs!"rotate_left", .bvOp 22), (cs!"rotate_right", .bvOp 23), (cs!"bvcomp", .bvOp 24),
  (cs!"zero_extend", .bvOp 25), (cs!"sign_extend", .bvOp 26),
  (cs!"bvult", .atom 0), (cs!"bvule", .atom 1), (cs!"bvugt", .atom 2), (cs!"bvuge", .atom 3),
  (cs!"bvslt", .atom 4), (cs!"bvsle", .atom 5), (cs!"bvsgt", .atom 6), (cs!"bvsge", .atom 7)]

/-- The assignment gives the nodes of bit-vector operators the meaning of the operators; a node has the indices behind the operands. -/
def Interprets (ρ : Env) : Prop := ∀ o k n vs v σ, (o, k) ∈ bvTable → BvApp o n vs v → v.hasSort σ = true →
  ρ.fn k σ (vs.drop n ++ vs.take n) = some v

/-- the operators that are computed wrongly on two constants (C03-C06, C09) -/
def wrongFold : List (List Char) :=
  [cs!"bvsub", cs!"bvudiv", cs!"bvurem", cs!"bvsdiv", cs!"bvsmod", cs!"bvshl", cs!"bvlshr", cs!"bvashr", cs!"bvcomp"]

/-- The operators of `wrongFold` are computed rightly on these constants: a quotient of at most 1, a divisor that is zero (for `bvsdiv`: that is
not zero, or is zero under a negative number), a dividend that is not negative for `bvsmod`, a shift by nothing or, to the right, by one digit. -/
def BvRight (o : List Char) {w : Nat} (x y : BitVec w) : Prop :=
  (o = cs!"bvudiv" ∧ (y = 0#w ∨ x.toNat < 2 * y.toNat)) ∨ (o = cs!"bvurem" ∧ y = 0#w) ∨ (o = cs!"bvsdiv" ∧ (y ≠ 0#w ∨ x.msb = true)) ∨
  (o = cs!"bvsmod" ∧ (y = 0#w ∨ 0 ≤ x.toInt)) ∨ (o = cs!"bvshl" ∧ y.toNat = 0) ∨ ((o = cs!"bvlshr" ∨ o = cs!"bvashr") ∧ y.toNat ≤ 1)

/-- the operators whose nodes have the wrong width -/
def wrongWidth : List (List Char) := [cs!"zero_extend", cs!"sign_extend"]

end SMT.Mean
