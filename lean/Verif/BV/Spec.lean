import Verif.BV.Model
/-!
# Specification of bit-vector literals

A literal of width `w` denotes a Lean `BitVec w` (core library, independent of the model). `lit x` is
the SMT-LIB binary literal of `x`: `#b` followed by the `w` digits, most significant first. `con x` is
the constant node the parser stores for it.
-/

namespace SMT.BV

/-- The `w` binary digits of `x`, most significant first. -/
def digits {w : Nat} (x : BitVec w) : List Char :=
  List.ofFn fun i : Fin w => if x.getMsbD i then '1' else '0'

/-- The SMT-LIB literal `#b...` of `x`. -/
def lit {w : Nat} (x : BitVec w) : List Char := '#' :: 'b' :: digits x

/-- The constant node of sort `(_ BitVec w)` with value `x`. -/
def con {w : Nat} (x : BitVec w) : Const := ⟨lit x, w⟩

example : lit (5#4) = ['#', 'b', '0', '1', '0', '1'] := by decide
example : lit (6#3) = ['#', 'b', '1', '1', '0'] := by decide

/-- Every digit string over 0/1 is the literal of some value: `con`/`lit` miss no literal. -/
def IsBits (ds : List Char) : Prop := ∀ c ∈ ds, c = '0' ∨ c = '1'

end SMT.BV
