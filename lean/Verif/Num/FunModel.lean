import Verif.Num.Spec
import Mathlib.Analysis.SpecialFunctions.Log.Base
import Mathlib.Analysis.SpecialFunctions.Pow.Real
import Mathlib.Analysis.SpecialFunctions.Trigonometric.Inverse
import Mathlib.Analysis.SpecialFunctions.Trigonometric.Arctan
import Mathlib.Analysis.SpecialFunctions.Trigonometric.DerivHyp
import Mathlib.Analysis.SpecialFunctions.Arsinh
import Mathlib.Analysis.SpecialFunctions.Arcosh
import Mathlib.Analysis.SpecialFunctions.Artanh

/-!
# Elementary functions on numbers and intervals (`src/number.cpp`, `src/interval.cpp`)

MPFR computes each function with correct rounding: the result is the exact real result rounded
(`MPFR_RNDN`).  The rounding of reals and the neighbour functions `mpfr_nextbelow`/`mpfr_nextabove`
are a parameter (`Lib`), of which only the laws used are listed: rounding is monotone, agrees with the
rounding of rationals, its results are representable, and the neighbour of a representable number
is representable and strictly below/above it.
Simplifications (besides those of `Verif.Num.Model`): one working precision for all numbers.
-/

noncomputable section
namespace SMT.Num

/-- the part of MPFR used by the elementary functions (`src/number.cpp:273-510`, `656-668`) -/
structure Lib (F : Fmt) where
  /-- rounding of an exact real result -/
  rr : ℝ → ℚ
  /-- rounding is monotone -/
  rr_mono : ∀ a b : ℝ, a ≤ b → rr a ≤ rr b
  /-- rounding a rational is the rounding of the format -/
  rr_rat : ∀ q : ℚ, rr (q : ℝ) = F.r q
  /-- the result of rounding is representable -/
  rr_rep : ∀ a : ℝ, F.r (rr a) = rr a
  /-- `mpfr_nextbelow` of a finite number -/
  below : ℚ → ℚ
  /-- `mpfr_nextabove` of a finite number -/
  above : ℚ → ℚ
  /-- the largest finite number: `mpfr_nextbelow` of infinity -/
  big : ℚ
  /-- neighbours are representable -/
  below_rep : ∀ q, F.r q = q → F.r (below q) = below q
  /-- neighbours are representable -/
  above_rep : ∀ q, F.r q = q → F.r (above q) = above q
  /-- the neighbour below is below -/
  below_lt : ∀ q, F.r q = q → below q < q
  /-- the neighbour above is above -/
  lt_above : ∀ q, F.r q = q → q < above q
  /-- there is nothing representable between a number and its neighbour -/
  below_next : ∀ q p, F.r q = q → F.r p = p → p < q → p ≤ below q
  /-- there is nothing representable between a number and its neighbour -/
  above_next : ∀ q p, F.r q = q → F.r p = p → q < p → above q ≤ p
  /-- multiples of 1/4 up to 10 are representable (a precision of at least six bits) -/
  quarter : ∀ i : Int, |i| ≤ 40 → F.r ((i : ℚ) / 4) = (i : ℚ) / 4

namespace XR
variable {F : Fmt} (L : Lib F)

/-- an MPFR function given by its exact value on finite arguments and its values at the infinities;
NaN gives NaN -/
def app (f : ℝ → ℝ) (atN atP : XR) : XR → XR
  | nan => nan
  | ninf => atN
  | pinf => atP
  | fin q => fin (L.rr (f q))
/-- `mpfr_nextbelow` (`src/number.cpp:656-661`). -/
def nextBelow : XR → XR
  | nan => nan
  | ninf => ninf
  | pinf => fin L.big
  | fin q => fin (L.below q)
/-- `mpfr_nextabove` (`src/number.cpp:663-668`). -/
def nextAbove : XR → XR
  | nan => nan
  | pinf => pinf
  | ninf => fin (-L.big)
  | fin q => fin (L.above q)
/-- `HighPrecisionReal::sqrt` (`src/number.cpp:273-280`). -/
def sqrt (x : XR) : Res XR := if lt x (fin 0) then .throw else .ok (app L Real.sqrt nan pinf x)
/-- `HighPrecisionReal::safeSqrt` (`src/number.cpp:282-287`). -/
def safeSqrt (x : XR) : Res XR := if lt x (fin 0) then .ok (fin 0) else sqrt L x
/-- `HighPrecisionReal::exp` (`src/number.cpp:315-319`). -/
def exp (x : XR) : XR := app L Real.exp (fin 0) pinf x
/-- `HighPrecisionReal::ln` (`src/number.cpp:321-328`). -/
def ln (x : XR) : Res XR := if le x (fin 0) then .throw else .ok (app L Real.log nan pinf x)
/-- `HighPrecisionReal::lg` (`src/number.cpp:330-337`). -/
def lg (x : XR) : Res XR := if le x (fin 0) then .throw else .ok (app L (Real.logb 10) nan pinf x)
/-- `HighPrecisionReal::lb` (`src/number.cpp:339-346`). -/
def lb (x : XR) : Res XR := if le x (fin 0) then .throw else .ok (app L (Real.logb 2) nan pinf x)
/-- `HighPrecisionReal::sin` (`src/number.cpp:359-363`): NaN at the infinities. -/
def sin (x : XR) : XR := app L Real.sin nan nan x
/-- `HighPrecisionReal::cos` (`src/number.cpp:365-369`). -/
def cos (x : XR) : XR := app L Real.cos nan nan x
/-- `HighPrecisionReal::tan` (`src/number.cpp:371-375`). -/
def tan (x : XR) : XR := app L Real.tan nan nan x
/-- `HighPrecisionReal::asin` (`src/number.cpp:395-402`). -/
def asin (x : XR) : Res XR :=
  if lt x (fin (-1)) || lt (fin 1) x then .throw else .ok (app L Real.arcsin nan nan x)
/-- `HighPrecisionReal::acos` (`src/number.cpp:404-411`). -/
def acos (x : XR) : Res XR :=
  if lt x (fin (-1)) || lt (fin 1) x then .throw else .ok (app L Real.arccos nan nan x)
/-- `HighPrecisionReal::atan` (`src/number.cpp:413-417`). -/
def atan (x : XR) : XR := app L Real.arctan (fin (L.rr (-(Real.pi / 2)))) (fin (L.rr (Real.pi / 2))) x
/-- `HighPrecisionReal::sinh` (`src/number.cpp:456-460`). -/
def sinh (x : XR) : XR := app L Real.sinh ninf pinf x
/-- `HighPrecisionReal::cosh` (`src/number.cpp:462-466`). -/
def cosh (x : XR) : XR := app L Real.cosh pinf pinf x
/-- `HighPrecisionReal::tanh` (`src/number.cpp:468-472`). -/
def tanh (x : XR) : XR := app L Real.tanh (fin (L.rr (-1))) (fin (L.rr 1)) x
/-- `HighPrecisionReal::asinh` (`src/number.cpp:492-496`). -/
def asinh (x : XR) : XR := app L Real.arsinh ninf pinf x
/-- `HighPrecisionReal::acosh` (`src/number.cpp:498-505`). -/
def acosh (x : XR) : Res XR := if lt x (fin 1) then .throw else .ok (app L Real.arcosh nan pinf x)
/-- `HighPrecisionReal::atanh` (`src/number.cpp:507-514`). -/
def atanh (x : XR) : Res XR :=
  if le x (fin (-1)) || le (fin 1) x then .throw else .ok (app L Real.artanh nan nan x)
/-- `HighPrecisionReal::asech` (`src/number.cpp:526-534`): `acosh` of the rounded reciprocal. -/
def asech (x : XR) : Res XR :=
  if le x (fin 0) || lt (fin 1) x then .throw else acosh L (XR.div F (fin 1) x)
/-- `mpfr_pow` for a positive finite base and a finite exponent (`src/number.cpp:288-292`). -/
def rpow (a e : ℚ) : XR := fin (L.rr ((a : ℝ) ^ (e : ℝ)))
end XR

namespace Number
variable {F : Fmt} (L : Lib F)

/-- `nextBelow` (`src/number.cpp:1669-1675`, `1033-1037`): an integer moves by one. -/
def nextBelow : Number → Number
  | int i => int (i - 1)
  | real x => real (x.nextBelow L)
/-- `nextAbove` (`src/number.cpp:1677-1683`, `1039-1043`). -/
def nextAbove : Number → Number
  | int i => int (i + 1)
  | real x => real (x.nextAbove L)
/-- `sqrt` (`src/number.cpp:1398-1406`, `934-941`): the integer part of the root for an integer. -/
def sqrt : Number → Res Number
  | int i => if i < 0 then .throw else .ok (int (Int.sqrt i))
  | real x => do .ok (real (← x.sqrt L))
/-- `safeSqrt` (`src/number.cpp:1408-1414`, `943-950`). -/
def safeSqrt : Number → Res Number
  | int i => if i < 0 then .ok (int 0) else .ok (int (Int.sqrt i))
  | real x => do .ok (real (← x.safeSqrt L))
/-- `exp` (`src/number.cpp:1459-1465`). -/
def exp (a : Number) : Number := real ((toReal F a).exp L)
/-- `ln` (`src/number.cpp:1466-1472`). -/
def ln (a : Number) : Res Number := do .ok (real (← (toReal F a).ln L))
/-- `lg` (`src/number.cpp:1473-1479`). -/
def lg (a : Number) : Res Number := do .ok (real (← (toReal F a).lg L))
/-- `lb` (`src/number.cpp:1480-1486`). -/
def lb (a : Number) : Res Number := do .ok (real (← (toReal F a).lb L))
/-- `sin` (`src/number.cpp:1496-1502`). -/
def sin (a : Number) : Number := real ((toReal F a).sin L)
/-- `cos` (`src/number.cpp:1503-1509`). -/
def cos (a : Number) : Number := real ((toReal F a).cos L)
/-- `tan` (`src/number.cpp:1510-1516`). -/
def tan (a : Number) : Number := real ((toReal F a).tan L)
/-- `asin` (`src/number.cpp:1538-1544`). -/
def asin (a : Number) : Res Number := do .ok (real (← (toReal F a).asin L))
/-- `acos` (`src/number.cpp:1545-1551`). -/
def acos (a : Number) : Res Number := do .ok (real (← (toReal F a).acos L))
/-- `atan` (`src/number.cpp:1552-1558`). -/
def atan (a : Number) : Number := real ((toReal F a).atan L)
/-- `sinh` (`src/number.cpp:1585-1591`). -/
def sinh (a : Number) : Number := real ((toReal F a).sinh L)
/-- `cosh` (`src/number.cpp:1592-1598`). -/
def cosh (a : Number) : Number := real ((toReal F a).cosh L)
/-- `tanh` (`src/number.cpp:1599-1605`). -/
def tanh (a : Number) : Number := real ((toReal F a).tanh L)
/-- `asinh` (`src/number.cpp:1627-1633`). -/
def asinh (a : Number) : Number := real ((toReal F a).asinh L)
/-- `acosh` (`src/number.cpp:1634-1640`). -/
def acosh (a : Number) : Res Number := do .ok (real (← (toReal F a).acosh L))
/-- `atanh` (`src/number.cpp:1641-1647`). -/
def atanh (a : Number) : Res Number := do .ok (real (← (toReal F a).atanh L))
/-- `asech` (`src/number.cpp:1648-1654`): calls `tanh`, not `asech`. -/
def asech (a : Number) : Number := real ((toReal F a).tanh L)
/-- `pi` (`src/number.cpp:1190-1192`). -/
def pi : Number := real (.fin (L.rr Real.pi))
/-- `isNegativeInfinity` (`src/number.cpp:1178-1183`). -/
def isNInf : Number → Bool
  | real .ninf => true
  | _ => false
/-- `isPositiveInfinity` (`src/number.cpp:1184-1189`). -/
def isPInf : Number → Bool
  | real .pinf => true
  | _ => false
end Number

namespace Interval
open Number
variable {F : Fmt} (L : Lib F)

/-- open interval between the neighbours of two numbers, the last lines of most functions -/
def widen (l h : Number) : Interval := ⟨l.nextBelow L, h.nextAbove L, false, false⟩

/-- lower end of a logarithm (`src/interval.cpp:446-459`, `493-506`, `535-548`) for the logarithm `f` of
numbers -/
def logLo (f : Number → Res Number) (a : Number) : Res Number :=
  if Number.le F a (.int 0) then .ok (.real .ninf)
  else if a.isPInf then .ok (.real .pinf)
  else do .ok ((← f a).nextBelow L)
/-- upper end of a logarithm (`src/interval.cpp:461-470`, `508-517`, `550-559`) -/
def logHi (f : Number → Res Number) (b : Number) : Res Number :=
  if b.isPInf then .ok (.real .pinf) else do .ok ((← f b).nextAbove L)
/-- the common text of `lb`, `ln` and `lg` (`src/interval.cpp:429-475`, `476-517`, `518-559`) -/
def logLike (f : Number → Res Number) (A : Interval) : Res Interval :=
  if isEmpty F A then .ok emptyI
  else if Number.le F A.hi (.int 0) then .ok emptyI
  else do
    let l ← logLo L f A.lo
    let h ← logHi L f A.hi
    .ok ⟨l, h, false, false⟩
/-- `lb` (`src/interval.cpp:429-475`). -/
def lb (A : Interval) : Res Interval := logLike L (Number.lb L) A
/-- `ln` (`src/interval.cpp:476-517`). -/
def ln (A : Interval) : Res Interval := logLike L (Number.ln L) A
/-- `lg` (`src/interval.cpp:518-559`). -/
def lg (A : Interval) : Res Interval := logLike L (Number.lg L) A
/-- `log(Number)` (`src/interval.cpp:560-596`). -/
def logN (A : Interval) (base : Number) : Res Interval :=
  if isEmpty F A then .ok emptyI
  else if Number.le F base (.int 0) then .throw
  else if Number.eq F base (.int 1) then .throw
  else if Number.le F A.hi (.int 0) then .ok emptyI
  else do
    let I ← ln L A
    let b ← Number.ln L base
    if Number.gt F b (.int 0) then do
      let l ← Number.div F I.lo b
      let h ← Number.div F I.hi b
      .ok ⟨l, h, I.lc, I.rc⟩
    else do
      let l ← Number.div F I.hi b
      let h ← Number.div F I.lo b
      .ok ⟨l, h, I.rc, I.lc⟩
/-- `exp` (`src/interval.cpp:627-662`). -/
def exp (A : Interval) : Interval :=
  if isEmpty F A then emptyI
  else
    let l := if A.lo.isNInf then .int 0 else if A.lo.isPInf then .real .pinf
      else (Number.exp L A.lo).nextBelow L
    let h := if A.hi.isNInf then .int 0 else if A.hi.isPInf then .real .pinf
      else (Number.exp L A.hi).nextAbove L
    ⟨l, h, false, false⟩
/-- lower end of `sqrt` and `safeSqrt` with its closedness (`src/interval.cpp:675-688`, `717-730`) -/
def sqrtLo (f : Number → Res Number) (a : Number) : Res (Number × Bool) :=
  if Number.le F a (.int 0) then .ok (.int 0, true)
  else if a.isPInf then .ok (.real .pinf, false)
  else do .ok ((← f a).nextBelow L, false)
/-- the common text of `sqrt` and `safeSqrt` (`src/interval.cpp:664-703`, `705-745`); the second test
of `upper <= 0` is never reached; the upper end is as for logarithms. -/
def sqrtLike (f : Number → Res Number) (A : Interval) : Res Interval :=
  if isEmpty F A then .ok emptyI
  else if Number.le F A.hi (.int 0) then .ok emptyI
  else do
    let l ← sqrtLo L f A.lo
    let h ← logHi L f A.hi
    .ok ⟨l.1, h, l.2, false⟩
/-- `sqrt` (`src/interval.cpp:664-703`). -/
def sqrt (A : Interval) : Res Interval := sqrtLike L (Number.sqrt L) A
/-- `safeSqrt` (`src/interval.cpp:705-745`). -/
def safeSqrt (A : Interval) : Res Interval := sqrtLike L (Number.safeSqrt L) A

/-- the full range of sine and cosine -/
def unitI : Interval := ⟨.int (-1), .int 1, true, true⟩
/-- reduction of an end modulo `2 * pi` (`src/interval.cpp:766-773`): the quotient of two reals, or of
an integer and a real, cannot throw -/
def reduce (p2 : Number) (x : Number) : Res Number := do
  let q ← Number.div F x p2
  let y := Number.sub F x (Number.mul F q.floor p2)
  .ok (if Number.lt F y (.int 0) then Number.addAsg F y p2 else y)
/-- the common text of `sin` and `cos` (`src/interval.cpp:747-820`, `822-895`): `f` is the function,
`top` and `bot` the places of its maximum and minimum. -/
def sinLike (f : Number → Number) (top bot : Number) (A : Interval) : Res Interval :=
  if isEmpty F A then .ok emptyI
  else
    let p2 := Number.mul F (.int 2) (Number.pi L)
    if A.lo.isInf || A.hi.isInf then .ok unitI
    else if Number.ge F (Number.sub F A.hi A.lo) p2 then .ok unitI
    else do
      let lo ← reduce (F := F) p2 A.lo
      let hi0 ← reduce (F := F) p2 A.hi
      let hi := if Number.lt F hi0 lo then Number.addAsg F hi0 p2 else hi0
      let sl := f lo
      let sh := f hi
      let mn := smin F sl sh
      let mx := smax F sl sh
      let lc := if Number.lt F sl sh then A.lc else A.rc
      let rc := if Number.lt F sl sh then A.rc else A.lc
      let hasTop := (Number.le F lo top && Number.ge F hi top) ||
        (Number.le F lo (Number.add F top p2) && Number.ge F hi (Number.add F top p2))
      let (mx, lc) := if hasTop then (.int 1, true) else (mx, lc)
      let hasBot := (Number.le F lo bot && Number.ge F hi bot) ||
        (Number.le F lo (Number.add F bot p2) && Number.ge F hi (Number.add F bot p2))
      let (mn, rc) := if hasBot then (.int (-1), true) else (mn, rc)
      let (mn, lc) := if Number.gt F mn (.int (-1)) then (mn.nextBelow L, false) else (mn, lc)
      let (mx, rc) := if Number.lt F mx (.int 1) then (mx.nextAbove L, false) else (mx, rc)
      .ok ⟨mn, mx, lc, rc⟩
/-- `sin` (`src/interval.cpp:747-820`). -/
def sin (A : Interval) : Res Interval := do
  let h ← Number.div F (Number.pi L) (.int 2)
  let t ← Number.div F (Number.mul F (.int 3) (Number.pi L)) (.int 2)
  sinLike L (Number.sin L) h t A
/-- `cos` (`src/interval.cpp:822-895`). -/
def cos (A : Interval) : Res Interval := sinLike L (Number.cos L) (.int 0) (Number.pi L) A

/-- reduction of an end for `tan` (`src/interval.cpp:911-919`). -/
def tanReduce (p ph : Number) (x : Number) : Res Number := do
  let q ← Number.div F x p
  let y := Number.sub F x (Number.mul F q.floor p)
  let y := if Number.lt F y ph.neg then Number.addAsg F y p else y
  .ok (if Number.ge F y ph then Number.subAsg F y p else y)
/-- `tan` (`src/interval.cpp:897-947`). -/
def tan (A : Interval) : Res Interval :=
  if isEmpty F A then .ok emptyI
  else do
    let ph ← Number.div F (Number.pi L) (.int 2)
    let p := Number.pi L
    if A.lo.isInf || A.hi.isInf then .ok fullI
    else do
      let lm ← tanReduce (F := F) p ph A.lo
      let hm ← tanReduce (F := F) p ph A.hi
      if (Number.le F lm ph.neg && Number.ge F hm ph.neg) || (Number.le F lm ph && Number.ge F hm ph) then
        .ok fullI
      else
        let tl := Number.tan L A.lo
        let th := Number.tan L A.hi
        if Number.gt F tl th then .ok (widen L th tl) else .ok (widen L tl th)
/-- `asin` (`src/interval.cpp:1000-1023`). -/
def asin (A : Interval) : Res Interval :=
  if isEmpty F A then .ok emptyI
  else if Number.lt F A.lo (.int (-1)) || Number.gt F A.hi (.int 1) then .throw
  else do
    let l ← Number.asin L A.lo
    let h ← Number.asin L A.hi
    .ok (widen L l h)
/-- `acos` (`src/interval.cpp:1025-1040`): no widening. -/
def acos (A : Interval) : Res Interval :=
  if isEmpty F A then .ok emptyI
  else if Number.lt F A.lo (.int (-1)) || Number.gt F A.hi (.int 1) then .throw
  else do
    let l ← Number.acos L A.hi
    let h ← Number.acos L A.lo
    .ok ⟨l, h, A.rc, A.lc⟩
/-- `atan` (`src/interval.cpp:1042-1058`). -/
def atan (A : Interval) : Interval :=
  if isEmpty F A then emptyI else widen L (Number.atan L A.lo) (Number.atan L A.hi)
/-- `acot` (`src/interval.cpp:1060-1072`): open, no widening. -/
def acot (A : Interval) : Res Interval :=
  if isEmpty F A then .ok emptyI
  else do
    let ph ← Number.div F (Number.pi L) (.int 2)
    .ok ⟨Number.sub F ph (Number.atan L A.hi), Number.sub F ph (Number.atan L A.lo), false, false⟩
/-- `sinh` (`src/interval.cpp:1124-1140`). -/
def sinh (A : Interval) : Interval :=
  if isEmpty F A then emptyI else widen L (Number.sinh L A.lo) (Number.sinh L A.hi)
/-- the result of `cosh` for an interval on one side of zero (`src/interval.cpp:1149-1165`,
`1168-1184`): the lower end is raised to 1. -/
def coshSide (l h : Number) : Interval :=
  let l := l.nextBelow L
  if Number.lt F l (.int 1) then ⟨.int 1, h.nextAbove L, true, false⟩ else ⟨l, h.nextAbove L, false, false⟩
/-- `cosh` (`src/interval.cpp:1142-1197`). -/
def cosh (A : Interval) : Interval :=
  if isEmpty F A then emptyI
  else if Number.ge F A.lo (.int 0) then coshSide L (Number.cosh L A.lo) (Number.cosh L A.hi)
  else if Number.le F A.hi (.int 0) then coshSide L (Number.cosh L A.hi) (Number.cosh L A.lo)
  else ⟨.int 1, (smax F (Number.cosh L A.lo) (Number.cosh L A.hi)).nextAbove L, true, false⟩
/-- `tanh` (`src/interval.cpp:1199-1215`). -/
def tanh (A : Interval) : Interval :=
  if isEmpty F A then emptyI else widen L (Number.tanh L A.lo) (Number.tanh L A.hi)
/-- `coth` (`src/interval.cpp:1217-1233`): open, no widening. -/
def coth (A : Interval) : Res Interval :=
  if isEmpty F A then .ok emptyI
  else if Number.le F A.lo (.int 0) && Number.ge F A.hi (.int 0) then .ok fullI
  else do
    let l ← Number.div F (.int 1) (Number.tanh L A.hi)
    let h ← Number.div F (.int 1) (Number.tanh L A.lo)
    .ok ⟨l, h, false, false⟩
/-- `asinh` (`src/interval.cpp:1283-1299`). -/
def asinh (A : Interval) : Interval :=
  if isEmpty F A then emptyI else widen L (Number.asinh L A.lo) (Number.asinh L A.hi)
/-- `acosh` (`src/interval.cpp:1301-1322`). -/
def acosh (A : Interval) : Res Interval :=
  if isEmpty F A then .ok emptyI
  else if Number.lt F A.lo (.int 1) then .throw
  else do
    let l ← Number.acosh L A.lo
    let h ← Number.acosh L A.hi
    .ok (widen L l h)
/-- `atanh` (`src/interval.cpp:1324-1345`). -/
def atanh (A : Interval) : Res Interval :=
  if isEmpty F A then .ok emptyI
  else if Number.le F A.lo (.int (-1)) || Number.ge F A.hi (.int 1) then .throw
  else do
    let l ← Number.atanh L A.lo
    let h ← Number.atanh L A.hi
    .ok (widen L l h)
/-- the point interval 1 -/
def oneI : Interval := ⟨.int 1, .int 1, true, true⟩
/-- `cot` (`src/interval.cpp:949-964`). -/
def cot (A : Interval) : Res Interval :=
  if isEmpty F A then .ok emptyI
  else do
    let T ← tan L A
    if contains F T (.int 0) then .ok fullI else divI F oneI T
/-- `sec` (`src/interval.cpp:966-981`). -/
def sec (A : Interval) : Res Interval :=
  if isEmpty F A then .ok emptyI
  else do
    let T ← cos L A
    if contains F T (.int 0) then .ok fullI else divI F oneI T
/-- `csc` (`src/interval.cpp:983-998`). -/
def csc (A : Interval) : Res Interval :=
  if isEmpty F A then .ok emptyI
  else do
    let T ← sin L A
    if contains F T (.int 0) then .ok fullI else divI F oneI T
/-- `asec` (`src/interval.cpp:1074-1096`). -/
def asec (A : Interval) : Res Interval :=
  if isEmpty F A then .ok emptyI
  else if Number.gt F A.lo (.int (-1)) && Number.lt F A.hi (.int 1) then .throw
  else if Number.le F A.lo (.int (-1)) && Number.ge F A.hi (.int 1) then .ok ⟨.int 0, Number.pi L, true, true⟩
  else do
    let I ← divI F oneI A
    acos L I
/-- `acsc` (`src/interval.cpp:1098-1120`). -/
def acsc (A : Interval) : Res Interval :=
  if isEmpty F A then .ok emptyI
  else if Number.gt F A.lo (.int (-1)) && Number.lt F A.hi (.int 1) then .throw
  else if Number.le F A.lo (.int (-1)) && Number.ge F A.hi (.int 1) then do
    let l ← Number.div F (Number.pi L).neg (.int 2)
    let h ← Number.div F (Number.pi L) (.int 2)
    .ok ⟨l, h, true, true⟩
  else do
    let I ← divI F oneI A
    asin L I
/-- `sech` (`src/interval.cpp:1235-1260`). -/
def sech (A : Interval) : Res Interval :=
  if isEmpty F A then .ok emptyI
  else do
    let C ← divI F oneI (cosh L A)
    let (h, rc) := if Number.ge F C.hi (.int 1) then (.int 1, true) else (C.hi, false)
    let l := if Number.le F C.lo (.int 0) then .int 0 else C.lo
    .ok ⟨l, h, false, rc⟩
/-- `csch` (`src/interval.cpp:1262-1281`). -/
def csch (A : Interval) : Res Interval :=
  if isEmpty F A then .ok emptyI
  else if Number.le F A.lo (.int 0) && Number.ge F A.hi (.int 0) then .ok fullI
  else do
    let S ← divI F oneI (sinh L A)
    .ok ⟨S.lo, S.hi, false, false⟩
/-- `acoth` (`src/interval.cpp:1347-1360`). -/
def acoth (A : Interval) : Res Interval :=
  if isEmpty F A then .ok emptyI
  else if Number.ge F A.lo (.int (-1)) && Number.le F A.hi (.int 1) then .throw
  else do
    let I ← divI F oneI A
    atanh L I
/-- `asech` (`src/interval.cpp:1362-1377`). -/
def asech (A : Interval) : Res Interval :=
  if isEmpty F A then .ok emptyI
  else if Number.le F A.lo (.int 0) || Number.gt F A.hi (.int 1) then .throw
  else do
    let I ← divI F oneI A
    acosh L I
/-- `acsch` (`src/interval.cpp:1379-1393`). -/
def acsch (A : Interval) : Res Interval :=
  if isEmpty F A then .ok emptyI
  else if Number.le F A.lo (.int 0) && Number.ge F A.hi (.int 0) then .throw
  else do
    let I ← divI F oneI A
    .ok (asinh L I)
/-- 2 to the power of a finite end (`src/interval.cpp:1806-1815`, `1827-1836`): a nonnegative integer
exactly, otherwise by `mpfr_pow`; the flag says whether the result is taken as exact. -/
def pow2End (x : Number) : Number × Bool :=
  match x with
  | .int i => if 0 ≤ i then (.int (2 ^ i.toNat), true) else (.real (XR.rpow L (F.r 2) (F.r i)), true)
  | .real (.fin q) => if q.den = 1 then
      (if 0 ≤ q then (.int (2 ^ q.num.toNat), true) else (.real (XR.rpow L (F.r 2) q), true))
      else (.real (XR.rpow L (F.r 2) q), false)
  | .real x => (.real x, false)
/-- `pow2` (`src/interval.cpp:1788-1839`). -/
def pow2 (A : Interval) : Interval :=
  if isEmpty F A then emptyI
  else
    let (l, lc) := if A.lo.isPInf then (.real .pinf, false) else if A.lo.isNInf then (.int 0, false)
      else match pow2End L A.lo with
        | (v, true) => (v, A.lc)
        | (v, false) => (v.nextBelow L, false)
    let (h, rc) := if A.hi.isPInf then (.real .pinf, false) else if A.hi.isNInf then (.int 0, false)
      else match pow2End L A.hi with
        | (v, true) => (v, A.rc)
        | (v, false) => (v.nextAbove L, false)
    ⟨l, h, lc, rc⟩
/-- `Number::pow` with a finite non-integer exponent (`src/number.cpp:1430`, `288-292`). -/
def powFrac (a : Number) (e : ℚ) : Number :=
  match toReal F a with
  | .nan => .real .nan
  | .pinf => .real (if 0 < e then .pinf else .fin 0)
  | .ninf => .real (if 0 < e then .pinf else .fin 0)
  | .fin q => if q < 0 then .real .nan
    else if q = 0 then .real (if 0 < e then .fin 0 else .pinf)
    else .real (XR.rpow L q e)
/-- `pow(Number)` with a finite non-integer exponent `e` (`src/interval.cpp:1841-1844`, `1935-1960`). -/
def powFracI (A : Interval) (e : ℚ) : Res Interval :=
  if isEmpty F A then .ok emptyI
  else if Number.gt F A.lo (.int 0) then
    if A.lo.isInf || A.hi.isInf then
      if 0 < e then .ok ⟨.real .pinf, .real .pinf, false, false⟩
      else .ok ⟨.int 0, .int 1, false, false⟩
    else .ok ⟨(powFrac L A.lo e).nextBelow L, (powFrac L A.hi e).nextAbove L, A.lc, A.rc⟩
  else if Number.le F A.lo (.int 0) && decide (0 ≤ e) then
    if Number.le F A.hi (.int 0) then .throw
    else .ok ⟨.int 0, (powFrac L A.hi e).nextAbove L, true, false⟩
  else .throw
/-- `Number::pow` with the exponent `-n`, `n > 0` (`src/number.cpp:1416-1431`, `288-292`): by `mpfr_pow`. -/
def powNeg (F : Fmt) (a : Number) (n : Nat) : Number :=
  match toReal F a with
  | .nan => .real .nan
  | .pinf => .real (.fin 0)
  | .ninf => .real (.fin 0)
  | .fin q => if q = 0 then .real .pinf else .real (.fin (F.r ((q ^ n)⁻¹)))
/-- `pow(Number)` with the exponent `-n`, `n > 0` (`src/interval.cpp:1841-1844`, `1903-1932`). -/
def powNegI (F : Fmt) (A : Interval) (n : Nat) : Res Interval :=
  if isEmpty F A then .ok emptyI
  else if Number.le F A.lo (.int 0) && Number.ge F A.hi (.int 0) then .throw
  else if n % 2 = 0 then
    if Number.gt F A.lo (.int 0) then .ok ⟨powNeg F A.hi n, powNeg F A.lo n, A.rc, A.lc⟩
    else .ok ⟨powNeg F A.lo.abs n, powNeg F A.hi.abs n, A.lc, A.rc⟩
  else .ok ⟨powNeg F A.hi n, powNeg F A.lo n, A.rc, A.lc⟩
/-- `divInt(Number)` (`src/interval.cpp:1635-1648`). -/
def divIntN (A : Interval) (v : Number) : Res Interval :=
  if isEmpty F A then .ok emptyI
  else if Number.eq F v (.int 0) then .throw
  else if Number.gt F v (.int 0) then do
    let l ← Number.div F A.lo v
    let h ← Number.div F A.hi v
    .ok ⟨l.floor, h.floor, A.lc, A.rc⟩
  else do
    let l ← Number.div F A.hi v
    let h ← Number.div F A.lo v
    .ok ⟨l.floor, h.floor, A.rc, A.lc⟩
/-- `divInt(Interval)` (`src/interval.cpp:1650-1703`). -/
def divIntI (A B : Interval) : Res Interval :=
  if isEmpty F A || isEmpty F B then .ok emptyI
  else if hasZero F B then .ok fullI
  else if Number.eq F A.lo (.int 0) && Number.eq F A.hi (.int 0) && A.lc && A.rc then
    .ok ⟨.int 0, .int 0, true, true⟩
  else do
    let p1 ← Number.div F A.lo B.lo
    let p2 ← Number.div F A.lo B.hi
    let p3 ← Number.div F A.hi B.lo
    let p4 ← Number.div F A.hi B.hi
    .ok (corners F A B p1.floor p2.floor p3.floor p4.floor)
/-- `mod(Number)` (`src/interval.cpp:1705-1737`). -/
def modN (A : Interval) (v : Number) : Res Interval :=
  if isEmpty F A then .ok emptyI
  else if Number.eq F v (.int 0) then .throw
  else if Number.lt F v (.int 0) then .throw
  else
    let u := Number.sub F v.abs (.int 1)
    if Number.gt F u A.hi then .ok ⟨.int 0, A.hi, true, A.rc⟩
    else if Number.lt F u A.lo then .ok ⟨.int 0, u, true, A.lc⟩
    else .ok ⟨.int 0, u, true, true⟩
/-- `mod(Interval)` (`src/interval.cpp:1739-1772`). -/
def modI (A B : Interval) : Res Interval :=
  if isEmpty F A || isEmpty F B then .ok emptyI
  else if hasZero F B then .throw
  else
    let u := Number.sub F (smax F B.lo.abs B.hi.abs) (.int 1)
    if Number.lt F A.hi u then .ok ⟨.int 0, A.hi, true, A.rc⟩
    else .ok ⟨.int 0, u, true, true⟩
end Interval
end SMT.Num
