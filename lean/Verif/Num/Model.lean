import Verif.Basic

/-!
# Numbers and intervals (`src/number.cpp`, `src/interval.cpp`)

`Number` is a tagged union of an exact GMP integer and an MPFR real.  An MPFR real is one of
NaN, -oo, +oo, or a finite number; finite results are rounded to the working precision.  The
rounding function is a parameter (`Fmt`): nothing is assumed about it except that it is monotone
and idempotent, which holds of MPFR round-to-nearest at any precision.
Simplifications: signed zeros are one value (division of a real by zero takes the sign of the
numerator, as for `+0`), and the exponent range of MPFR is unbounded (no overflow to infinity).
-/

namespace SMT.Num

/-- A rounding format: `MPFR_RNDN` at the working precision (`src/number.cpp:119-240`). -/
structure Fmt where
  /-- rounding of a finite result -/
  r : Rat → Rat
  /-- rounding is monotone -/
  mono : ∀ a b : Rat, a ≤ b → r a ≤ r b
  /-- rounding a representable number does nothing -/
  idem : ∀ a, r (r a) = r a

/-- Value of an `mpfr_t` (`include/number.h:94-250`). -/
inductive XR where
  | nan
  | ninf
  | fin (q : Rat)
  | pinf
  deriving DecidableEq

namespace XR
/-- `mpfr_less_p` (`src/number.cpp:250-252`): false when an operand is NaN. -/
def lt : XR → XR → Bool
  | nan, _ => false
  | _, nan => false
  | ninf, ninf => false
  | ninf, _ => true
  | _, ninf => false
  | pinf, _ => false
  | _, pinf => true
  | fin a, fin b => decide (a < b)
/-- `mpfr_equal_p` (`src/number.cpp:242-244`). -/
def eq : XR → XR → Bool
  | fin a, fin b => decide (a = b)
  | ninf, ninf => true
  | pinf, pinf => true
  | _, _ => false
/-- `mpfr_lessequal_p` (`src/number.cpp:254-256`). -/
def le (a b : XR) : Bool := lt a b || eq a b
/-- `mpfr_neg` (`src/number.cpp:203-207`), exact. -/
def neg : XR → XR
  | nan => nan | ninf => pinf | pinf => ninf | fin a => fin (-a)
/-- `mpfr_add` (`src/number.cpp:191-195`). -/
def add (F : Fmt) : XR → XR → XR
  | fin a, fin b => fin (F.r (a + b))
  | nan, _ => nan
  | _, nan => nan
  | pinf, ninf => nan
  | ninf, pinf => nan
  | pinf, _ => pinf
  | ninf, _ => ninf
  | _, pinf => pinf
  | _, ninf => ninf
/-- `mpfr_sub` (`src/number.cpp:197-201`). -/
def sub (F : Fmt) (a b : XR) : XR := add F a (neg b)
/-- infinity with the sign of `q`, NaN for zero -/
def infOf (q : Rat) : XR := if q < 0 then ninf else if q = 0 then nan else pinf
/-- `mpfr_mul` (`src/number.cpp:209-213`): zero times infinity is NaN. -/
def mul (F : Fmt) : XR → XR → XR
  | fin a, fin b => fin (F.r (a * b))
  | nan, _ => nan
  | _, nan => nan
  | fin a, pinf => infOf a
  | fin a, ninf => infOf (-a)
  | pinf, fin a => infOf a
  | ninf, fin a => infOf (-a)
  | pinf, pinf => pinf
  | ninf, ninf => pinf
  | pinf, ninf => ninf
  | ninf, pinf => ninf
/-- `mpfr_div` (`src/number.cpp:215-219`). -/
def div (F : Fmt) : XR → XR → XR
  | nan, _ => nan
  | _, nan => nan
  | fin a, fin b => if b = 0 then infOf a else fin (F.r (a / b))
  | fin _, _ => fin 0
  | pinf, fin b => if b < 0 then ninf else pinf
  | ninf, fin b => if b < 0 then pinf else ninf
  | _, _ => nan
/-- `mpfr_abs` (`src/number.cpp:267-271`), exact. -/
def abs : XR → XR
  | nan => nan | ninf => pinf | pinf => pinf | fin a => fin (if a < 0 then -a else a)
/-- `mpfr_ceil` (`src/number.cpp:296-300`). -/
def ceil : XR → XR
  | fin a => fin a.ceil
  | x => x
/-- `mpfr_floor` (`src/number.cpp:302-306`). -/
def floor : XR → XR
  | fin a => fin a.floor
  | x => x
end XR

/-- `Number` (`include/number.h:262-425`): `INT_TYPE` or `REAL_TYPE`. -/
inductive Number where
  | int (i : Int)
  | real (x : XR)
  deriving DecidableEq

namespace Number
/-- `toReal` (`src/number.cpp:1128-1134`): an integer is rounded to the working precision. -/
def toReal (F : Fmt) : Number → XR
  | int i => .fin (F.r i)
  | real x => x

/-- `operator+` (`src/number.cpp:1216-1223`). -/
def add (F : Fmt) : Number → Number → Number
  | int i, int j => int (i + j)
  | a, b => real (XR.add F (toReal F a) (toReal F b))
/-- `operator-` (`src/number.cpp:1225-1230`). -/
def sub (F : Fmt) : Number → Number → Number
  | int i, int j => int (i - j)
  | a, b => real (XR.sub F (toReal F a) (toReal F b))
/-- unary `operator-` (`src/number.cpp:1232-1237`). -/
def neg : Number → Number
  | int i => int (-i)
  | real x => real x.neg
/-- `operator*` (`src/number.cpp:1239-1244`). -/
def mul (F : Fmt) : Number → Number → Number
  | int i, int j => int (i * j)
  | a, b => real (XR.mul F (toReal F a) (toReal F b))
/-- `operator/` (`src/number.cpp:1246-1256`): the integer case first computes `%`, which throws
for a zero divisor (`src/number.cpp:796-803`). -/
def div (F : Fmt) : Number → Number → Res Number
  | int i, int j =>
    if j = 0 then .throw
    else if i.tmod j = 0 then .ok (int (i.tdiv j))
    else .ok (real (XR.div F (toReal F (int i)) (toReal F (int j))))
  | a, b => .ok (real (XR.div F (toReal F a) (toReal F b)))
/-- `operator%` (`src/number.cpp:1258-1261`, `796-803`): both operands must be integers. -/
def mod : Number → Number → Res Number
  | int i, int j => if j = 0 then .throw else .ok (int (i.tmod j))
  | _, _ => .abort

/-- `operator+=` (`src/number.cpp:1263-1270`): with an integer on the left and a real on the right
the code adds to the unused `realValue` and keeps `type == INT_TYPE`. -/
def addAsg (F : Fmt) : Number → Number → Number
  | int i, int j => int (i + j)
  | int i, real _ => int i
  | real x, b => real (XR.add F x (toReal F b))
/-- `operator-=` (`src/number.cpp:1272-1279`). -/
def subAsg (F : Fmt) : Number → Number → Number
  | int i, int j => int (i - j)
  | int i, real _ => int i
  | real x, b => real (XR.sub F x (toReal F b))
/-- `operator*=` (`src/number.cpp:1281-1288`). -/
def mulAsg (F : Fmt) : Number → Number → Number
  | int i, int j => int (i * j)
  | int i, real _ => int i
  | real x, b => real (XR.mul F x (toReal F b))
/-- `operator/=` (`src/number.cpp:1290-1297`); integer `/=` truncates and throws on zero. -/
def divAsg (F : Fmt) : Number → Number → Res Number
  | int i, int j => if j = 0 then .throw else .ok (int (i.tdiv j))
  | int i, real _ => .ok (int i)
  | real x, b => .ok (real (XR.div F x (toReal F b)))
/-- `operator++` (`src/number.cpp:1306-1318`). -/
def inc (F : Fmt) : Number → Number
  | int i => int (i + 1)
  | real x => real (XR.add F x (.fin (F.r 1)))
/-- `operator--` (`src/number.cpp:1319-1331`). -/
def dec (F : Fmt) : Number → Number
  | int i => int (i - 1)
  | real x => real (XR.sub F x (.fin (F.r 1)))

/-- `operator==` (`src/number.cpp:1334-1344`). -/
def eq (F : Fmt) : Number → Number → Bool
  | int i, int j => decide (i = j)
  | a, b => XR.eq (toReal F a) (toReal F b)
/-- `operator!=` (`src/number.cpp:1346-1348`). -/
def ne (F : Fmt) (a b : Number) : Bool := !eq F a b
/-- `operator<` (`src/number.cpp:1350-1359`). -/
def lt (F : Fmt) : Number → Number → Bool
  | int i, int j => decide (i < j)
  | a, b => XR.lt (toReal F a) (toReal F b)
/-- `operator<=` (`src/number.cpp:1361-1370`). -/
def le (F : Fmt) : Number → Number → Bool
  | int i, int j => decide (i ≤ j)
  | a, b => XR.le (toReal F a) (toReal F b)
/-- `operator>` (`src/number.cpp:1372-1374`). -/
def gt (F : Fmt) (a b : Number) : Bool := !le F a b
/-- `operator>=` (`src/number.cpp:1376-1378`). -/
def ge (F : Fmt) (a b : Number) : Bool := !lt F a b

/-- `abs` (`src/number.cpp:1390-1396`). -/
def abs : Number → Number
  | int i => int i.natAbs
  | real x => real x.abs
/-- `ceil` (`src/number.cpp:1434-1440`). -/
def ceil : Number → Number
  | int i => int i
  | real x => real x.ceil
/-- `floor` (`src/number.cpp:1442-1448`). -/
def floor : Number → Number
  | int i => int i
  | real x => real x.floor
/-- `isInfinity` (`src/number.cpp:1171-1176`). -/
def isInf : Number → Bool
  | real .ninf => true
  | real .pinf => true
  | _ => false
/-- `isInteger` (`include/number.h:299`). -/
def isInteger : Number → Bool
  | int _ => true
  | real (.fin q) => decide (q.den = 1)
  | real _ => false

/-- `pow` with an exponent `n >= 0` (`src/number.cpp:1416-1431`, `288-293`): integers exactly, reals by
`mpfr_pow`. -/
def pow (F : Fmt) (a : Number) (n : Nat) : Number :=
  match a with
  | int i => int (i ^ n)
  | real .nan => real (if n = 0 then .fin 1 else .nan)
  | real .ninf => real (if n = 0 then .fin 1 else if n % 2 = 0 then .pinf else .ninf)
  | real .pinf => real (if n = 0 then .fin 1 else .pinf)
  | real (.fin q) => real (.fin (F.r (q ^ n)))
/-- `std::max(a, b)`: `(a < b) ? b : a`. -/
def smax (F : Fmt) (a b : Number) : Number := if lt F a b then b else a
/-- `std::min(a, b)`: `(b < a) ? b : a`. -/
def smin (F : Fmt) (a b : Number) : Number := if lt F b a then b else a
/-- `std::min` of an initialiser list: the first least element by `<`. -/
def minL (F : Fmt) (a : Number) (l : List Number) : Number := l.foldl (smin F) a
/-- `std::max` of an initialiser list. -/
def maxL (F : Fmt) (a : Number) (l : List Number) : Number := l.foldl (smax F) a
end Number

/-- `Interval` (`include/interval.h:38-176`). -/
structure Interval where
  /-- lower end -/
  lo : Number
  /-- upper end -/
  hi : Number
  /-- `leftClosed` -/
  lc : Bool
  /-- `rightClosed` -/
  rc : Bool
  deriving DecidableEq

/-- `EmptyInterval` (`include/interval.h:179`). -/
def emptyI : Interval := ⟨.int 1, .int (-1), false, false⟩
/-- `FullInterval` (`include/interval.h:180`). -/
def fullI : Interval := ⟨.real .ninf, .real .pinf, false, false⟩

namespace Interval
variable (F : Fmt)
open Number

/-- `isPoint` (`src/interval.cpp:120-122`). -/
def isPoint (A : Interval) : Bool := eq F A.lo A.hi
/-- `isEmpty` (`src/interval.cpp:124-126`). -/
def isEmpty (A : Interval) : Bool := gt F A.lo A.hi || (eq F A.lo A.hi && (!A.lc || !A.rc))
/-- `contains` (`src/interval.cpp:136-141`). -/
def contains (A : Interval) (v : Number) : Bool :=
  if isEmpty F A then false
  else (if A.lc then le F A.lo v else lt F A.lo v) && (if A.rc then le F v A.hi else lt F v A.hi)
/-- `isSubsetOf` (`src/interval.cpp:143-156`). -/
def isSubsetOf (A B : Interval) : Bool :=
  if isEmpty F A then true
  else if isEmpty F B then false
  else (gt F A.lo B.lo || (eq F A.lo B.lo && (!A.lc || B.lc))) &&
       (lt F A.hi B.hi || (eq F A.hi B.hi && (!A.rc || B.rc)))
/-- `isSupersetOf` (`src/interval.cpp:158-170`). -/
def isSupersetOf (A B : Interval) : Bool :=
  if isEmpty F A then false
  else (lt F A.lo B.lo || (eq F A.lo B.lo && (A.lc || !B.lc))) &&
       (gt F A.hi B.hi || (eq F A.hi B.hi && (A.rc || !B.rc)))
/-- `isDisjointFrom` (`src/interval.cpp:172-185`). -/
def isDisjointFrom (A B : Interval) : Bool :=
  if isEmpty F A || isEmpty F B then false
  else lt F A.hi B.lo || (eq F A.hi B.lo && (!A.rc || !B.lc)) ||
       gt F A.lo B.hi || (eq F A.lo B.hi && (!A.lc || !B.rc))
/-- `isIntersectingWith` (`src/interval.cpp:187-193`). -/
def isIntersectingWith (A B : Interval) : Bool :=
  if isEmpty F A || isEmpty F B then false else !isDisjointFrom F A B
/-- `intersection` (`src/interval.cpp:195-208`). -/
def intersection (A B : Interval) : Interval :=
  if isEmpty F A || isEmpty F B then emptyI
  else ⟨smax F A.lo B.lo, smin F A.hi B.hi,
    if lt F A.lo B.lo then B.lc else if gt F A.lo B.lo then A.lc else A.lc && B.lc,
    if gt F A.hi B.hi then B.rc else if lt F A.hi B.hi then A.rc else A.rc && B.rc⟩
/-- the merge used by `unionWith` (`src/interval.cpp:218-230`) and `unionMulti`
(`src/interval.cpp:335-344`) -/
def hull (A B : Interval) : Interval :=
  ⟨smin F A.lo B.lo, smax F A.hi B.hi,
    if lt F A.lo B.lo then A.lc else if lt F B.lo A.lo then B.lc else A.lc || B.lc,
    if gt F A.hi B.hi then A.rc else if gt F B.hi A.hi then B.rc else A.rc || B.rc⟩
/-- `unionWith` (`src/interval.cpp:210-231`). -/
def unionWith (A B : Interval) : Res Interval :=
  if isEmpty F A || isEmpty F B then .ok emptyI
  else if isDisjointFrom F A B then .throw
  else .ok (hull F A B)
/-- `isSubsetEqOf` (`src/interval.cpp:233-241`). -/
def isSubsetEqOf (A B : Interval) : Bool :=
  if isEmpty F A then true
  else ge F A.lo B.lo && le F A.hi B.hi && (B.lc || gt F A.lo B.lo || !A.lc) &&
       (B.rc || lt F A.hi B.hi || !A.rc)
/-- `difference` (`src/interval.cpp:262-313`); note that the inner declarations of `rightClosed`
and `leftClosed` shadow the members for the statements that follow them. -/
def difference (A B : Interval) : List Interval :=
  if isDisjointFrom F A B then [A]
  else if isSupersetOf F A B then []
  else if isSubsetOf F A B then
    [⟨A.lo, B.lo, A.lc, !B.lc⟩, ⟨B.hi, A.hi, !B.rc, !B.lc⟩]
  else if (le F B.lo A.lo || (eq F B.lo A.lo && (B.lc || !A.lc))) &&
          (lt F B.hi A.hi || (eq F B.hi A.hi && !B.rc && A.rc)) then
    [⟨B.hi, A.hi, !B.rc, A.rc⟩]
  else if (gt F B.lo A.lo || (eq F B.lo A.lo && !B.lc && A.lc)) &&
          (ge F B.hi A.hi || (eq F B.hi A.hi && (B.rc || !A.rc))) then
    [⟨A.lo, B.lo, A.lc, !B.lc⟩]
  else []
/-- the comparator of `unionMulti` (`src/interval.cpp:321-324`) -/
def before (A B : Interval) : Bool := lt F A.lo B.lo || (eq F A.lo B.lo && (A.lc && !B.lc))
/-- the sweep of `unionMulti` over the sorted vector (`src/interval.cpp:326-355`) -/
def sweep (cur : Interval) : List Interval → List Interval
  | [] => [cur]
  | B :: l => if !isDisjointFrom F cur B then sweep (hull F cur B) l else cur :: sweep B l
/-- `unionMulti` (`src/interval.cpp:315-356`) given the vector `s` that `std::sort` leaves
(any permutation sorted by `before`). -/
def unionMulti (s : List Interval) : List Interval :=
  match s with
  | [] => []
  | A :: l => sweep F A l

/-- unary minus / `negate` (`src/interval.cpp:371-376`, `407-412`). -/
def neg (A : Interval) : Interval :=
  if isEmpty F A then emptyI else ⟨A.hi.neg, A.lo.neg, A.rc, A.lc⟩
/-- `operator++` (`src/interval.cpp:359-364`). -/
def inc (A : Interval) : Interval :=
  if isEmpty F A then emptyI else ⟨add F A.lo (.int 1), add F A.hi (.int 1), A.lc, A.rc⟩
/-- `abs` (`src/interval.cpp:413-428`). -/
def abs (A : Interval) : Interval :=
  if isEmpty F A then emptyI
  else if ge F A.lo (.int 0) then A
  else if le F A.hi (.int 0) then ⟨A.hi.neg, A.lo.neg, A.rc, A.lc⟩
  else
    let m := smax F A.lo.abs A.hi.abs
    ⟨.int 0, m, true, if eq F m A.lo.abs then A.lc else A.rc⟩
/-- `operator+(Number)` (`src/interval.cpp:1395-1397`). -/
def addN (A : Interval) (v : Number) : Interval := ⟨add F A.lo v, add F A.hi v, A.lc, A.rc⟩
/-- `operator-(Number)` (`src/interval.cpp:1399-1401`). -/
def subN (A : Interval) (v : Number) : Interval := ⟨sub F A.lo v, sub F A.hi v, A.lc, A.rc⟩
/-- `operator*(Number)` (`src/interval.cpp:1403-1421`). -/
def mulN (A : Interval) (v : Number) : Interval :=
  if isEmpty F A then emptyI
  else if gt F v (.int 0) then ⟨mul F A.lo v, mul F A.hi v, A.lc, A.rc⟩
  else if lt F v (.int 0) then ⟨mul F A.hi v, mul F A.lo v, A.rc, A.lc⟩
  else if A.lc && A.rc then ⟨.int 0, .int 0, true, true⟩ else emptyI
/-- `operator/(Number)`, `divReal(Number)` (`src/interval.cpp:1422-1434`, `1566-1578`). -/
def divN (A : Interval) (v : Number) : Res Interval :=
  if isEmpty F A then .ok emptyI
  else if eq F v (.int 0) then .throw
  else if gt F v (.int 0) then do
    let l ← div F A.lo v
    let h ← div F A.hi v
    .ok ⟨l, h, A.lc, A.rc⟩
  else do
    let l ← div F A.hi v
    let h ← div F A.lo v
    .ok ⟨l, h, A.rc, A.lc⟩
/-- `operator+(Interval)` (`src/interval.cpp:1436-1441`). -/
def addI (A B : Interval) : Interval :=
  if isEmpty F A || isEmpty F B then emptyI
  else ⟨add F A.lo B.lo, add F A.hi B.hi, A.lc && B.lc, A.rc && B.rc⟩
/-- `operator-(Interval)` (`src/interval.cpp:1443-1448`). -/
def subI (A B : Interval) : Interval :=
  if isEmpty F A || isEmpty F B then emptyI
  else ⟨sub F A.lo B.hi, sub F A.hi B.lo, A.lc && B.rc, A.rc && B.lc⟩
/-- choice of the closedness of an end from the four corners (`src/interval.cpp:1491-1517`) -/
def pick (A B : Interval) (p1 p2 p3 p4 m : Number) : Bool :=
  if eq F p1 m then A.lc && B.lc
  else if eq F p2 m then A.lc && B.rc
  else if eq F p3 m then A.rc && B.lc
  else if eq F p4 m then A.rc && B.rc
  else false
/-- interval spanned by four corner values (`src/interval.cpp:1486-1519`) -/
def corners (A B : Interval) (p1 p2 p3 p4 : Number) : Interval :=
  let l := minL F p1 [p2, p3, p4]
  let h := maxL F p1 [p2, p3, p4]
  ⟨l, h, pick F A B p1 p2 p3 p4 l, pick F A B p1 p2 p3 p4 h⟩
/-- equality of all four members, the test for "squaring" (`src/interval.cpp:1458-1459`) -/
def sameAs (A B : Interval) : Bool :=
  eq F A.lo B.lo && eq F A.hi B.hi && (A.lc == B.lc) && (A.rc == B.rc)
/-- `operator*(Interval)` (`src/interval.cpp:1450-1520`). -/
def mulI (A B : Interval) : Interval :=
  if isEmpty F A || isEmpty F B then emptyI
  else if sameAs F A B && (le F A.lo (.int 0) && ge F A.hi (.int 0)) then
    let al := A.lo.abs
    let ah := A.hi.abs
    let m := if gt F al ah then al else ah
    ⟨.int 0, mul F m m, true, if gt F al ah then A.lc else A.rc⟩
  else corners F A B (mul F A.lo B.lo) (mul F A.lo B.hi) (mul F A.hi B.lo) (mul F A.hi B.hi)
/-- the divisor test of `divReal` (`src/interval.cpp:1585-1588`) -/
def hasZero (B : Interval) : Bool :=
  (lt F B.lo (.int 0) && gt F B.hi (.int 0)) || (eq F B.lo (.int 0) && B.lc) ||
  (eq F B.hi (.int 0) && B.rc)
/-- `divReal(Interval)`, `operator/(Interval)` (`src/interval.cpp:1522-1524`, `1580-1633`). -/
def divI (A B : Interval) : Res Interval :=
  if isEmpty F A || isEmpty F B then .ok emptyI
  else if hasZero F B then .ok fullI
  else if eq F A.lo (.int 0) && eq F A.hi (.int 0) && A.lc && A.rc then
    .ok ⟨.int 0, .int 0, true, true⟩
  else do
    let p1 ← div F A.lo B.lo
    let p2 ← div F A.lo B.hi
    let p3 ← div F A.hi B.lo
    let p4 ← div F A.hi B.hi
    .ok (corners F A B p1 p2 p3 p4)
/-- `pow(Number)` for a finite integer exponent `n >= 0` (`src/interval.cpp:1841-1844`, `1878-1902`); the
exponent is held in a C++ `int`, so `n` is at most 2147483647 in the code. -/
def powI (A : Interval) (n : Nat) : Interval :=
  if isEmpty F A then emptyI
  else if n = 0 then ⟨.int 1, .int 1, true, true⟩
  else if n % 2 = 0 then
    if ge F A.lo (.int 0) then ⟨pow F A.lo n, pow F A.hi n, A.lc, A.rc⟩
    else if le F A.hi (.int 0) then ⟨pow F A.hi n, pow F A.lo n, A.rc, A.lc⟩
    else ⟨.int 0, smax F (pow F A.lo.abs n) (pow F A.hi.abs n), true,
      if gt F A.lo.abs A.hi.abs then A.lc else A.rc⟩
  else ⟨pow F A.lo n, pow F A.hi n, A.lc, A.rc⟩
/-- `getIntegers` (`src/interval.cpp:111-118`): the loop, with a step budget standing for time;
`none` means it has not finished. -/
def intLoop (hi : Number) : Nat → Number → Option (List Number)
  | 0, _ => none
  | k + 1, i => if le F i hi then (intLoop hi k (Number.inc F i)).map (i :: ·) else some []
/-- `getIntegers` (`src/interval.cpp:111-118`): unbounded intervals throw. -/
def getIntegers (A : Interval) (budget : Nat) : Res (Option (List Number)) :=
  if A.lo.isInf || A.hi.isInf then .throw
  else .ok (intLoop F A.hi.floor budget A.lo.ceil)
/-- `Number::toInteger().toULong()` (`src/number.cpp:1120-1126`, `601-608`, `999-1004`) for a number
with an integral value: negative values throw; the size limit of `unsigned long` is left out. -/
def toULong : Number → Res Nat
  | .int i => if i < 0 then .throw else .ok i.toNat
  | .real (.fin q) => if q < 0 then .throw else .ok q.floor.toNat
  | .real _ => .ub
/-- `getIntervalIntCount` (`src/interval.cpp:243-260`). -/
def intCount (A : Interval) : Res Nat :=
  if isEmpty F A then .ok 0
  else if isPoint F A && A.lo.isInteger then .ok 1
  else if A.lc && A.rc then toULong (add F (sub F A.hi.floor A.lo.ceil) (.int 1))
  else if A.lc && !A.rc then toULong (sub F A.hi.floor A.lo.ceil)
  else if !A.lc && A.rc then toULong (sub F A.hi.floor A.lo.ceil)
  else toULong (sub F (sub F A.hi.floor A.lo.ceil) (.int 1))
/-- `operator<` (`src/interval.cpp:2239-2249`). -/
def ltI (A B : Interval) : Res Bool :=
  if isEmpty F A || isEmpty F B then .throw
  else .ok (lt F A.hi B.lo || (eq F A.hi B.lo && (!A.rc || !B.lc)))
/-- `operator>` (`src/interval.cpp:2260-2270`). -/
def gtI (A B : Interval) : Res Bool :=
  if isEmpty F A || isEmpty F B then .throw
  else .ok (gt F A.lo B.hi || (eq F A.lo B.hi && (!A.lc || !B.rc)))
/-- `operator<=` (`src/interval.cpp:2251-2258`). -/
def leI (A B : Interval) : Res Bool :=
  if isEmpty F A || isEmpty F B then .throw else do
    let g ← gtI F A B
    .ok (!g)
/-- `operator>=` (`src/interval.cpp:2272-2279`). -/
def geI (A B : Interval) : Res Bool :=
  if isEmpty F A || isEmpty F B then .throw else do
    let g ← ltI F A B
    .ok (!g)
/-- `operator+=(Number)` (`src/interval.cpp:2281-2285`). -/
def addAsgN (A : Interval) (v : Number) : Interval :=
  ⟨addAsg F A.lo v, addAsg F A.hi v, A.lc, A.rc⟩

end Interval
end SMT.Num
