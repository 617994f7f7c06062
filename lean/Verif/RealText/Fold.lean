import Verif.RealText.Props
import Verif.Num.FunAtan2
import Verif.Kind.Model
import Mathlib.NumberTheory.Real.Irrational

/-!
# Folding operators of numeric constants (C75): the model

`simp_oper` of one and two constants (`src/simp_parser.cpp:59-560`, `800-1043`), called by every constructor through `mkOper`
(`src/op_parser.cpp:172-190`).  The result is none when nothing is folded (`mkUnknown`); the constructor then makes an application.

A constant has a text and one of two sorts: `mkConstReal` gives `Real`, `mkConstInt` gives `IntOrReal`, and a constant of the latter
sort counts as an integer *and* as a real (`include/dag.h:303-304`).  Left out: `pi`, `e`, algebraic numbers.
-/

noncomputable section
namespace SMT.RealText
open SMT SMT.Text SMT.Tok SMT.Str SMT.Num
open SMT.Kinds (K)

/-- a numeric constant: `int` is the sort `IntOrReal` -/
structure Const where
  int : Bool
  text : List Char

/-- the options (`include/options.h:60-64`): both are on by default -/
structure Opt where
  floating : Bool := true
  keepDiv : Bool := true

/-- what is folded to -/
inductive Out where
  | const (c : Const)
  | bool (b : Bool)

/-- `mkConstReal(Real)` -/
def ofReal (X : Exp10) (x : XR) : Out := .const ⟨false, realText X x⟩
/-- `mkConstInt(Integer)` (`src/op_parser.cpp:617-620`) -/
def ofInt (z : ℤ) : Out := .const ⟨true, showInt z⟩

/-- `Parser::toReal` of a constant; its value is finite -/
def Const.real (F : Fmt) (c : Const) : Res ℚ := do
  match ← valueOf F c.text with
  | .fin q => return q
  | _ => .ub

variable {F : Fmt} (L : Lib F)

/-- rounding of an exact real -/
def rnd (f : ℝ) : Res XR := .ok (.fin (L.rr f))
/-- rounding, with an infinity at zero, where the function has a pole: what MPFR returns for `+0` -/
def pole (q : ℚ) (f : ℝ) : Res XR := if q = 0 then .ok .pinf else rnd L f

/-- the functions of one real (`src/number.cpp:273-542`); a domain error is thrown -/
def fn (q : ℚ) : K → Option (Res XR)
  | .SQRT => some (XR.sqrt L (.fin q))
  | .SAFESQRT => some (XR.safeSqrt L (.fin q))
  | .EXP => some (.ok (XR.exp L (.fin q)))
  | .LN => some (XR.ln L (.fin q))
  | .LG => some (XR.lg L (.fin q))
  | .LB => some (XR.lb L (.fin q))
  | .SIN => some (.ok (XR.sin L (.fin q)))
  | .COS => some (.ok (XR.cos L (.fin q)))
  | .TAN => some (.ok (XR.tan L (.fin q)))
  | .COT => some (pole L q (1 / Real.tan q))
  | .SEC => some (rnd L (1 / Real.cos q))
  | .CSC => some (pole L q (1 / Real.sin q))
  | .ASIN => some (XR.asin L (.fin q))
  | .ACOS => some (XR.acos L (.fin q))
  | .ATAN => some (.ok (XR.atan L (.fin q)))
  | .ACOT => some (.ok (XR.sub F (XR.div F (.fin (L.rr Real.pi)) (.fin 2)) (XR.atan L (.fin q))))
  | .ASEC => some (if q = 0 then .throw else XR.acos L (XR.div F (.fin 1) (.fin q)))
  | .ACSC => some (if q = 0 then .throw else XR.asin L (XR.div F (.fin 1) (.fin q)))
  | .SINH => some (.ok (XR.sinh L (.fin q)))
  | .COSH => some (.ok (XR.cosh L (.fin q)))
  | .TANH => some (.ok (XR.tanh L (.fin q)))
  | .COTH => some (pole L q (1 / Real.tanh q))
  | .SECH => some (rnd L (1 / Real.cosh q))
  | .CSCH => some (pole L q (1 / Real.sinh q))
  | .ASINH => some (.ok (XR.asinh L (.fin q)))
  | .ACOSH => some (XR.acosh L (.fin q))
  | .ATANH => some (XR.atanh L (.fin q))
  | .ACOTH => some (if -1 ≤ q ∧ q ≤ 1 then .throw else XR.atanh L (XR.div F (.fin 1) (.fin q)))
  | .ASECH => some (XR.asech L (.fin q))
  | .ACSCH => some (if q = 0 then .throw else .ok (XR.asinh L (XR.div F (.fin 1) (.fin q))))
  | _ => none

/-- rounding to the nearest integer, ties away from zero: `mpfr_round` (`src/number.cpp:308-312`) -/
def roundAway (q : ℚ) : ℤ := if q < 0 then -⌊-q + 1 / 2⌋ else ⌊q + 1 / 2⌋

/-- the operators of one constant that do not depend on the options (`src/simp_parser.cpp:59-98`, `126-161`, `528-556`) -/
def plain1 (X : Exp10) (c : Const) : K → Option (Res Out)
  | .NEG => some (if c.int then do return ofInt (-(← toInteger c.text)) else do return ofReal X (.fin (-(← c.real F))))
  | .ABS => some (if c.int then do
        let z ← toInteger c.text
        return if z < 0 then ofInt (-z) else .const c
      else do
        let q ← c.real F
        return if q < 0 then ofReal X (.fin (-q)) else .const c)
  | .CEIL => some (if c.int then .ok (.const c) else do return ofReal X (XR.ceil (.fin (← c.real F))))
  | .FLOOR => some (if c.int then .ok (.const c) else do return ofReal X (XR.floor (.fin (← c.real F))))
  | .ROUND => some (if c.int then .ok (.const c) else do return ofReal X (.fin (roundAway (← c.real F))))
  | .TO_INT => some (if c.int then .ok (.const c) else do return ofReal X (XR.floor (.fin (← c.real F))))
  | .TO_REAL => some (if c.int then do return .const ⟨false, showInt (← toInteger c.text)⟩ else .ok (.const c))
  | .IS_INT => some (.ok (.bool c.int))
  | _ => none

/-- `simp_oper(kind, p)` of a numeric constant (`src/simp_parser.cpp:59-560`).  Left out: the predicates and the factorial of integers (C14). -/
def simp1 (o : Opt) (X : Exp10) (k : K) (c : Const) : Res (Option Out) :=
  match plain1 (F := F) X c k with
  | some r => do return some (← r)
  | none => do
    let q ← c.real F
    match fn L q k with
    | some r => if o.floating then do return some (ofReal X (← r)) else return none
    | none => return none

/-- `HighPrecisionReal::toInt` (`src/number.cpp:597-599`) of an integer: `mpfr_get_si` stops at the ends of `long`; the conversion to `int`
keeps the last 32 bits -/
def toInt32 (z : ℤ) : ℤ := (max (-2 ^ 63) (min (2 ^ 63 - 1) z) + 2 ^ 31) % 2 ^ 32 - 2 ^ 31

/-- `mpfr_pow` of finite numbers (`src/number.cpp:289-293`); at zero and a negative exponent an infinity (of `+0`) -/
def powQ (a e : ℚ) : XR :=
  if e.den = 1 then (if a = 0 ∧ e < 0 then .pinf else .fin (F.r (a ^ e.num)))
  else if a < 0 then .nan
  else if a = 0 then (if e < 0 then .pinf else .fin 0)
  else XR.rpow L a e

/-- `HighPrecisionReal::log` (`src/number.cpp:348-356`) -/
def logQ (a b : ℚ) : Res XR := if a ≤ 0 ∨ b ≤ 0 ∨ b = 1 then .throw else .ok (XR.div F (.fin (L.rr (Real.log a))) (.fin (L.rr (Real.log b))))

/-- `mkConstInt(quotient.floor().toInt())` -/
def quotInt (x : XR) : Out :=
  match x with
  | .fin q => ofInt (toInt32 ⌊q⌋)
  | .nan => ofInt 0
  | .pinf => ofInt (toInt32 (2 ^ 63 - 1))
  | .ninf => ofInt (toInt32 (-2 ^ 63))

/-- `mpfr_integer_p` -/
def isInteger : XR → Bool
  | .fin q => q.den == 1
  | _ => false

/-- comparisons (`src/simp_parser.cpp:802-818`, `942-1043`): of two integers exactly, otherwise as reals; all but `=` and `<=` of reals
only if floating point is used -/
def compare (o : Opt) (l r : Const) (always : Bool) (iz : ℤ → ℤ → Bool) (ir : ℚ → ℚ → Bool) : Res (Option Out) :=
  if l.int && r.int then do return some (.bool (iz (← toInteger l.text) (← toInteger r.text)))
  else if always || o.floating then do return some (.bool (ir (← l.real F) (← r.real F)))
  else .ok none

/-- sums, differences and products (`src/simp_parser.cpp:1370-1388` and the like): of two integers exactly, otherwise as reals.
The constants being of these two sorts, one of the two cases always applies. -/
def arith (X : Exp10) (l r : Const) (iz : ℤ → ℤ → ℤ) (ir : XR → XR → XR) : Res (Option Out) :=
  if l.int && r.int then do return some (ofInt (iz (← toInteger l.text) (← toInteger r.text)))
  else do return some (ofReal X (ir (.fin (← l.real F)) (.fin (← r.real F))))

/-- `simp_oper(kind, l, r)` of two numeric constants (`src/simp_parser.cpp:800-1043`, `1370-1388`).  Left out: integer `div` and `mod` of two
integers (C25), the functions of two integers (C14). -/
def simp2 (o : Opt) (X : Exp10) (l r : Const) : K → Res (Option Out)
  | .EQ => compare (F := F) o l r true (fun a b => a == b) (fun a b => a == b)
  | .LE => compare (F := F) o l r true (fun a b => a ≤ b) (fun a b => a ≤ b)
  | .LT => compare (F := F) o l r false (fun a b => a < b) (fun a b => a < b)
  | .GE => compare (F := F) o l r false (fun a b => a ≥ b) (fun a b => a ≥ b)
  | .GT => compare (F := F) o l r false (fun a b => a > b) (fun a b => a > b)
  | .ADD => arith (F := F) X l r (· + ·) (XR.add F)
  | .SUB => arith (F := F) X l r (· - ·) (XR.sub F)
  | .MUL => arith (F := F) X l r (· * ·) (XR.mul F)
  | .POW => if o.floating then do return some (ofReal X (powQ L (← l.real F) (← r.real F))) else .ok none
  | .LOG => if o.floating then do return some (ofReal X (← logQ L (← l.real F) (← r.real F))) else .ok none
  | .ATAN2 => if o.floating then do return some (ofReal X (.fin (L.rr (angle (← l.real F) (← r.real F))))) else .ok none
  | .DIV_REAL => do
    let q := XR.div F (.fin (← l.real F)) (.fin (← r.real F))
    return if o.keepDiv then (if isInteger q then some (quotInt q) else none)
      else if o.floating then some (ofReal X q) else none
  | .DIV_INT =>
    if l.int && r.int then .ok none
    else if o.floating then do return some (quotInt (XR.div F (.fin (← l.real F)) (.fin (← r.real F)))) else .ok none
  | _ => .ok none

end SMT.RealText
