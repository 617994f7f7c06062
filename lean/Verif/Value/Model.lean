import Verif.Num.FunModel
import Verif.Text.Str

/-!
# The class `Value` (`include/value.h`, `src/value.cpp`)

A value is a tag and four members, of which the tag says which one counts; the other three keep whatever they held before.
-/

noncomputable section
namespace SMT.Value
open SMT SMT.Num SMT.Str

/-- `ValueType` (`include/value.h:36-45`) -/
inductive Ty where
  | unknown | string | number | interval | boolean | bv | fp | array
  deriving DecidableEq

/-- the members of `Value` (`include/value.h:211-216`) -/
structure Value where
  str : List Char
  num : Number
  itv : Interval
  bool : Bool
  ty : Ty

/-- `Value(ValueType)` and the default constructor (`src/value.cpp:35, 73`): empty string, zero, the interval `[0, 0]` (of reals,
`Number::zero`), and a Boolean that is not initialised (`b`) -/
def ofTy (b : Bool) (t : Ty) : Value := ⟨[], .int 0, ⟨.real (.fin 0), .real (.fin 0), true, true⟩, b, t⟩
/-- `Value(string)` (`src/value.cpp:61-62`) -/
def ofStr (b : Bool) (s : List Char) : Value := { ofTy b .string with str := s }
/-- `Value(Number)` (`src/value.cpp:64-65`) -/
def ofNum (b : Bool) (n : Number) : Value := { ofTy b .number with num := n }
/-- `Value(Interval)` (`src/value.cpp:67-68`) -/
def ofItv (b : Bool) (A : Interval) : Value := { ofTy b .interval with itv := A }
/-- `Value(bool)` (`src/value.cpp:70-71`) -/
def ofBool (x : Bool) : Value := ofTy x .boolean

/-- `setValue(string)`, `operator=(string)` (`src/value.cpp:76-79, 130-134`) -/
def setStr (v : Value) (s : List Char) : Value := { v with str := s, ty := .string }
/-- `setValue(Number)`, `operator=(Number)` (`src/value.cpp:81-84, 136-140`) -/
def setNum (v : Value) (n : Number) : Value := { v with num := n, ty := .number }
/-- `setValue(Interval)`, `operator=(Interval)` (`src/value.cpp:86-89, 142-146`) -/
def setItv (v : Value) (A : Interval) : Value := { v with itv := A, ty := .interval }
/-- `setValue(bool)`, `operator=(bool)` (`src/value.cpp:91-94, 148-152`) -/
def setBool (v : Value) (b : Bool) : Value := { v with bool := b, ty := .boolean }

/-- `getStringValue` (`src/value.cpp:101-106`) -/
def getStr (v : Value) : Res (List Char) := if v.ty ≠ .string then .throw else .ok v.str
/-- `getNumberValue` (`src/value.cpp:108-113`) -/
def getNum (v : Value) : Res Number := if v.ty ≠ .number then .throw else .ok v.num
/-- `getIntervalValue` (`src/value.cpp:115-120`) -/
def getItv (v : Value) : Res Interval := if v.ty ≠ .interval then .throw else .ok v.itv
/-- `getBooleanValue` (`src/value.cpp:122-127`) -/
def getBool (v : Value) : Res Bool := if v.ty ≠ .boolean then .throw else .ok v.bool

/-! ### comparisons -/

variable (F : Fmt)

/-- `Interval::operator==` (`src/interval.cpp:53-55`) -/
def eqItv (A B : Interval) : Bool := Number.eq F A.lo B.lo && Number.eq F A.hi B.hi && A.lc == B.lc && A.rc == B.rc

/-- `operator==` (`src/value.cpp:216-233`) -/
def eqV (a b : Value) : Bool :=
  if a.ty ≠ b.ty then false
  else match a.ty with
    | .string => decide (a.str = b.str)
    | .number => Number.eq F a.num b.num
    | .interval => eqItv F a.itv b.itv
    | .boolean => a.bool == b.bool
    | _ => false
/-- `operator!=` (`src/value.cpp:235-237`) -/
def neV (a b : Value) : Bool := !eqV F a b
/-- `operator<` (`src/value.cpp:239-256`) -/
def ltV (a b : Value) : Res Bool :=
  if a.ty ≠ b.ty then .throw
  else match a.ty with
    | .string => .ok (ltStr a.str b.str)
    | .number => .ok (Number.lt F a.num b.num)
    | .interval => Interval.ltI F a.itv b.itv
    | .boolean => .ok (!a.bool && b.bool)
    | _ => .throw
/-- `operator<=` (`src/value.cpp:258-260`) -/
def leV (a b : Value) : Res Bool := (ltV F a b).bind fun l => .ok (l || eqV F a b)
/-- `operator>` (`src/value.cpp:262-264`) -/
def gtV (a b : Value) : Res Bool := (leV F a b).bind fun l => .ok !l
/-- `operator>=` (`src/value.cpp:266-268`) -/
def geV (a b : Value) : Res Bool := (ltV F a b).bind fun l => .ok !l

/-! ### arithmetic -/

/-- the binary operators of two numbers or two intervals (`src/value.cpp:271-326`) -/
inductive Ar where
  | add | sub | mul | div | mod
  deriving DecidableEq

/-- the operator on numbers (`+ - * / %`) -/
def arN : Ar → Number → Number → Res Number
  | .add, a, b => .ok (Number.add F a b)
  | .sub, a, b => .ok (Number.sub F a b)
  | .mul, a, b => .ok (Number.mul F a b)
  | .div, a, b => Number.div F a b
  | .mod, a, b => Number.mod a b
/-- the operator on intervals (`+ - * /`, `mod`) -/
def arI : Ar → Interval → Interval → Res Interval
  | .add, A, B => .ok (Interval.addI F A B)
  | .sub, A, B => .ok (Interval.subI F A B)
  | .mul, A, B => .ok (Interval.mulI F A B)
  | .div, A, B => Interval.divI F A B
  | .mod, A, B => Interval.modI (F := F) A B

/-- `operator+`, `-`, `*`, `/`, `%` (`src/value.cpp:271-326`); `u` is the uninitialised Boolean of the result -/
def ar (u : Bool) (o : Ar) (a b : Value) : Res Value :=
  if a.ty = .number ∧ b.ty = .number then (arN F o a.num b.num).bind fun n => .ok (ofNum u n)
  else if a.ty = .interval ∧ b.ty = .interval then (arI F o a.itv b.itv).bind fun A => .ok (ofItv u A)
  else if o = .add ∧ a.ty = .string ∧ b.ty = .string then .ok (ofStr u (a.str ++ b.str))
  else .throw
/-- the functions of a number or an interval, `sin` to `acsch`, `abs`, `neg` (`src/value.cpp:329-404, 551-880`):
`f` on the number, `g` on the interval -/
def un (u : Bool) (f : Number → Res Number) (g : Interval → Res Interval) (a : Value) : Res Value :=
  match a.ty with
  | .number => (f a.num).bind fun n => .ok (ofNum u n)
  | .interval => (g a.itv).bind fun A => .ok (ofItv u A)
  | _ => .throw

/-- `operator++()` (`src/value.cpp:504-514`): only the member of the type changes -/
def incV (a : Value) : Res Value :=
  match a.ty with
  | .number => .ok { a with num := Number.add F a.num (.int 1) }
  | .interval => .ok { a with itv := Interval.inc F a.itv }
  | _ => .throw
/-- `Interval::operator--` (`src/interval.cpp:365-370`) -/
def decI (A : Interval) : Interval :=
  if Interval.isEmpty F A then emptyI else ⟨Number.sub F A.lo (.int 1), Number.sub F A.hi (.int 1), A.lc, A.rc⟩
/-- `operator--()` (`src/value.cpp:516-526`) -/
def decV (a : Value) : Res Value :=
  match a.ty with
  | .number => .ok { a with num := Number.sub F a.num (.int 1) }
  | .interval => .ok { a with itv := decI F a.itv }
  | _ => .throw

/-- `operator&&` (`src/value.cpp:420-425`) -/
def andV (a b : Value) : Res Bool := if a.ty ≠ .boolean ∨ b.ty ≠ .boolean then .throw else .ok (a.bool && b.bool)
/-- `operator||` (`src/value.cpp:427-432`) -/
def orV (a b : Value) : Res Bool := if a.ty ≠ .boolean ∨ b.ty ≠ .boolean then .throw else .ok (a.bool || b.bool)
/-- `operator!` (`src/value.cpp:434-439`) -/
def notV (a : Value) : Res Bool := if a.ty ≠ .boolean then .throw else .ok !a.bool

/-! ### a variable of type `Value` over time -/

/-- a statement on a variable -/
inductive Stm where
  | setStr (s : List Char)
  | setNum (n : Number)
  | setItv (A : Interval)
  | setBool (b : Bool)
  /-- `v = w` -/
  | assign (w : Value)
  /-- `v += w`, `-=`, … -/
  | ar (u : Bool) (o : Ar) (w : Value)
  | inc
  | dec

/-- one statement (`src/value.cpp:46-55, 76-94, 442-465, 504-526`) -/
def stm (v : Value) : Stm → Res Value
  | .setStr s => .ok (setStr v s)
  | .setNum n => .ok (setNum v n)
  | .setItv A => .ok (setItv v A)
  | .setBool b => .ok (setBool v b)
  | .assign w => .ok w
  | .ar u o w => ar F u o v w
  | .inc => incV F v
  | .dec => decV F v

/-- a sequence of statements; one that throws leaves the variable as it was, and the program goes on (as in a `try` block each) -/
def run (v : Value) : List Stm → Value
  | [] => v
  | s :: l => match stm F v s with
    | .ok w => run w l
    | _ => run v l

/-! ### strings -/

/-- `Number::toInteger` (`src/number.cpp:1119-1126`, `601-608`): the nearest integer, ties to even; an infinity or NaN gives 0 -/
def toInteger : Number → Int
  | .int i => i
  | .real (.fin q) =>
    let f := q.floor
    if q - f < 1 / 2 then f else if 1 / 2 < q - f then f + 1 else if f % 2 = 0 then f else f + 1
  | .real _ => 0
/-- `HighPrecisionInteger::toInt` (`src/number.cpp:985-990`) -/
def toInt (i : Int) : Res Int := if 2147483647 < i ∨ i < -2147483648 then .throw else .ok i

/-- `concatStr` (`src/value.cpp:883-889`) -/
def concatStr (u : Bool) (a b : Value) : Res Value :=
  if a.ty = .string ∧ b.ty = .string then .ok (ofStr u (a.str ++ b.str)) else .throw
/-- the loop of `repeatStr` (`src/value.cpp:895-897`) -/
def copies (s : List Char) : Nat → List Char
  | 0 => []
  | n + 1 => copies s n ++ s
/-- `repeatStr` (`src/value.cpp:891-902`) -/
def repeatStr (u : Bool) (a b : Value) : Res Value :=
  if a.ty = .string ∧ b.ty = .number then (toInt (toInteger b.num)).bind fun k => .ok (ofStr u (copies a.str k.toNat))
  else .throw
/-- a `char` as a number, signed as on x86 -/
def sgn (c : Char) : Int := if c.toNat < 128 then c.toNat else (c.toNat : Int) - 256
/-- insertion into a sorted text -/
def insC (c : Char) : List Char → List Char
  | [] => [c]
  | d :: l => if sgn c ≤ sgn d then c :: d :: l else d :: insC c l
/-- `sortStr` (`src/value.cpp:904-912`); `std::sort` by any method: all characters with equal keys are equal -/
def sortStr (u : Bool) (a : Value) : Res Value := if a.ty = .string then .ok (ofStr u (a.str.foldr insC [])) else .throw
/-- `substr(start, length)` (`src/value.cpp:915-928`): a negative length is converted to `size_t` and takes everything -/
def substrV (u : Bool) (a s e : Value) : Res Value :=
  if a.ty = .string ∧ s.ty = .number ∧ e.ty = .number then
    (toInt (toInteger s.num)).bind fun i => (toInt (toInteger e.num)).bind fun n =>
      if i < 0 ∨ (a.str.length : Int) ≤ i then .throw
      else .ok (ofStr u ((a.str.drop i.toNat).take (if n < 0 then a.str.length else n.toNat)))
  else .throw
/-- `replace(old, new)` (`src/value.cpp:930-942`) with a bound on the rounds: `none` if it is reached -/
def replaceV (u : Bool) (fuel : Nat) (a o n : Value) : Option (Res Value) :=
  if a.ty = .string ∧ o.ty = .string ∧ n.ty = .string then
    (replLoop o.str n.str fuel a.str (findFrom a.str o.str 0)).map fun r => .ok (ofStr u r)
  else some .throw
/-- `reverse` (`src/value.cpp:954-962`) -/
def reverseV (u : Bool) (a : Value) : Res Value := if a.ty = .string then .ok (ofStr u a.str.reverse) else .throw
/-- the loop of `unique` (`src/value.cpp:967-971`) -/
def uniq (s : List Char) : List Char := s.foldl (fun r c => if c ∈ r then r else r ++ [c]) []
/-- `unique` (`src/value.cpp:964-976`) -/
def uniqueV (u : Bool) (a : Value) : Res Value := if a.ty = .string then .ok (ofStr u (uniq a.str)) else .throw
/-- `ltrim` (`src/value.cpp:995-1005`): `isspace` of a negative `char` is undefined behaviour, met only if it is reached -/
def ltrimS : List Char → Res (List Char)
  | [] => .ok []
  | c :: s => if 128 ≤ c.toNat then .ub else if isSpace c then ltrimS s else .ok (c :: s)
/-- `rtrim` (`src/value.cpp:1007-1017`) -/
def rtrimS (s : List Char) : Res (List Char) := (ltrimS s.reverse).bind fun r => .ok r.reverse
/-- `ltrim` (`src/value.cpp:995-1005`) -/
def ltrimV (u : Bool) (a : Value) : Res Value := if a.ty = .string then (ltrimS a.str).bind fun r => .ok (ofStr u r) else .throw
/-- `rtrim` (`src/value.cpp:1007-1017`) -/
def rtrimV (u : Bool) (a : Value) : Res Value := if a.ty = .string then (rtrimS a.str).bind fun r => .ok (ofStr u r) else .throw
/-- `trim` (`src/value.cpp:978-993`) -/
def trimV (u : Bool) (a : Value) : Res Value :=
  if a.ty = .string then (ltrimS a.str).bind fun r => (rtrimS r).bind fun r => .ok (ofStr u r) else .throw
/-- `toLower` (`src/value.cpp:1019-1028`) -/
def toLowerV (u : Bool) (a : Value) : Res Value := if a.ty = .string then .ok (ofStr u (a.str.map lower)) else .throw
/-- `toUpper` (`src/value.cpp:1030-1039`) -/
def toUpperV (u : Bool) (a : Value) : Res Value := if a.ty = .string then .ok (ofStr u (a.str.map upper)) else .throw

/-! ### conversions -/

/-- `toNumber` (`src/value.cpp:1042-1056`); `p` reads a text as an MPFR number, `none` if it throws -/
def toNumberV (u : Bool) (p : List Char → Option Number) (a : Value) : Res Value :=
  match a.ty with
  | .string => match p a.str with
    | none => .throw
    | some n => .ok (ofNum u n)
  | .boolean => .ok (ofNum u (.int (if a.bool then 1 else 0)))
  | .number => .ok a
  | _ => .throw
/-- `toBoolean` (`src/value.cpp:1058-1068`) -/
def toBooleanV (a : Value) : Res Value :=
  match a.ty with
  | .string => .ok (ofBool (a.str = "true".toList || a.str = "1".toList))
  | .number => .ok (ofBool (Number.ne F a.num (.int 0)))
  | .boolean => .ok a
  | _ => .throw

/-- conversion of a 64-bit `long` to `int` (`static_cast`, modulo `2^32`) -/
def castInt (i : Int) : Int := (i + 2147483648) % 4294967296 - 2147483648
/-- `newValue(int)` (`src/value.cpp:191-193`) -/
def newInt (u : Bool) (i : Int) : Value := ofNum u (.int i)
/-- `newValue(long)` (`src/value.cpp:203-205`) -/
def newLong (u : Bool) (i : Int) : Value := ofNum u (.int (castInt i))
/-- `newValue("…")` with a string literal: of the overloads (`include/value.h:219-229`) the one for `bool` is chosen, as the
conversion of a pointer to `bool` comes before any conversion to a class (`src/value.cpp:183-185`) -/
def newLiteral (_ : List Char) : Value := ofBool true

end SMT.Value
