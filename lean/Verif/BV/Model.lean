import Verif.Basic
/-!
# Model of `BitVectorUtils` (/repo/src/util.cpp:346-1060) and of the bit-vector constant folding in
`Parser::simp_oper` (/repo/src/simp_parser.cpp)

A `std::string` is a list of characters. GMP integers are `Int`. Vector indices run as in the code;
where the code walks a string from its last character to the first, the model reverses the list,
walks it forwards and reverses the result.
-/

namespace SMT.BV
open Res

/-- `condAssert(bv[0]=='#' && bv[1]=='b', ...)` followed by the digits after the prefix.
util.cpp:347 and the first lines of each `BitVectorUtils` function. -/
def body : List Char → Res (List Char)
  | '#' :: 'b' :: ds => ok ds
  | _ => abort

/-- `"#b" + digits`. -/
def pre (ds : List Char) : List Char := '#' :: 'b' :: ds

/-- Character written for a Boolean digit. -/
def dig (b : Bool) : Char := if b then '1' else '0'

/-- `bvNot`, util.cpp:346-353. -/
def bvNot (bv : List Char) : Res (List Char) := do
  let ds ← body bv
  ok (pre (ds.map fun c => if c = '0' then '1' else '0'))

/-- The loop `for i in 2..bv1.size(): res += f(bv1[i], bv2[i])` shared by the bitwise functions
(util.cpp:358-360). Reading `bv2` at its end yields the terminator, further reads are undefined. -/
def zipBits (f : Char → Char → Char) : List Char → List Char → Res (List Char)
  | [], _ => ok []
  | a :: as, b :: bs => do
    let r ← zipBits f as bs
    ok (f a b :: r)
  | [a], [] => ok [f a '\x00']
  | _ :: _ :: _, [] => ub

/-- Common shape of util.cpp:354-407. -/
def bitwise (f : Char → Char → Char) (bv1 bv2 : List Char) : Res (List Char) := do
  let a ← body bv1
  let b ← body bv2
  let r ← zipBits f a b
  ok (pre r)

/-- `bvAnd`, util.cpp:354-362. -/
def bvAnd := bitwise fun a b => if a = '1' ∧ b = '1' then '1' else '0'
/-- `bvOr`, util.cpp:363-371. -/
def bvOr := bitwise fun a b => if a = '1' ∨ b = '1' then '1' else '0'
/-- `bvXor`, util.cpp:372-380. -/
def bvXor := bitwise fun a b => if a ≠ b then '1' else '0'
/-- `bvNand`, util.cpp:381-389. -/
def bvNand := bitwise fun a b => if a = '1' ∧ b = '1' then '0' else '1'
/-- `bvNor`, util.cpp:390-398. -/
def bvNor := bitwise fun a b => if a = '0' ∧ b = '0' then '1' else '0'
/-- `bvXnor`, util.cpp:399-407. -/
def bvXnor := bitwise fun a b => if a = b then '1' else '0'

/-- The "add 1" loop of `bvNeg`, util.cpp:419-428, least significant digit first. -/
def incLoop : List Char → Bool → List Char
  | [], _ => []
  | ds, false => ds
  | c :: cs, true => if c = '0' then '1' :: incLoop cs false else '0' :: incLoop cs true

/-- `bvNeg`, util.cpp:409-431. -/
def bvNeg (bv : List Char) : Res (List Char) := do
  let ds ← body bv
  let flipped := ds.map fun c => if c = '0' then '1' else '0'
  ok (pre (incLoop flipped.reverse true).reverse)

/-- The zero padding of the shorter operand, util.cpp:438-452 (also 478-492, 519-521, 576-590). -/
def padTo (n : Nat) (ds : List Char) : List Char := List.replicate (n - ds.length) '0' ++ ds

/-- The carry loop of `bvAdd`, util.cpp:455-467, least significant digit first. -/
def addLoop : List Char → List Char → Bool → List Char
  | a :: as, b :: bs, c =>
    if a = '0' ∧ b = '0' then dig c :: addLoop as bs false
    else if a = '1' ∧ b = '1' then dig c :: addLoop as bs true
    else dig (!c) :: addLoop as bs c
  | _, _, _ => []

/-- `bvAdd`, util.cpp:433-472. -/
def bvAdd (bv1 bv2 : List Char) : Res (List Char) := do
  let a ← body bv1
  let b ← body bv2
  let n := max a.length b.length
  ok (pre (addLoop (padTo n a).reverse (padTo n b).reverse false).reverse)

/-- The borrow loop of `bvSub`, util.cpp:495-507, least significant digit first. -/
def subLoop : List Char → List Char → Bool → List Char
  | a :: as, b :: bs, c =>
    if a = '0' ∧ b = '0' then dig c :: subLoop as bs false
    else if a = '1' ∧ b = '1' then dig (!c) :: subLoop as bs true
    else dig c :: subLoop as bs c
  | _, _, _ => []

/-- `bvSub`, util.cpp:473-511. -/
def bvSub (bv1 bv2 : List Char) : Res (List Char) := do
  let a ← body bv1
  let b ← body bv2
  let n := max a.length b.length
  ok (pre (subLoop (padTo n a).reverse (padTo n b).reverse false).reverse)

/-- `result[p] += 1` of the product table, util.cpp:530-532. The table is held least significant
position first: position `p` here is index `2N-1-p` of the C++ vector. -/
def bump (t : List Nat) (p : Nat) : List Nat := t.modify p (· + 1)

/-- Inner loop over the digits of `bin1`, util.cpp:529-533 (least significant first, `off` is the
position of the digit of `bin2`). -/
def mulRow : List Char → Nat → List Nat → List Nat
  | [], _, t => t
  | d :: ds, off, t => mulRow ds (off + 1) (if d = '1' then bump t off else t)

/-- Outer loop over the digits of `bin2`, util.cpp:527-535. -/
def mulTable (as : List Char) : List Char → Nat → List Nat → List Nat
  | [], _, t => t
  | d :: ds, off, t => mulTable as ds (off + 1) (if d = '1' then mulRow as off t else t)

/-- Carry handling, util.cpp:538-543. -/
def carryPass : List Nat → List Nat
  | [] => []
  | [x] => [x]
  | x :: y :: r =>
    if 2 ≤ x then (x % 2) :: carryPass ((y + x / 2) :: r) else x :: carryPass (y :: r)
  termination_by l => l.length

/-- `bvMul`, util.cpp:512-553. For `N = 0` the index `result.size() - 1` wraps around and the loop at
line 538 reads outside the vector. -/
def bvMul (bv1 bv2 : List Char) : Res (List Char) := do
  let a ← body bv1
  let b ← body bv2
  let n := max a.length b.length
  if n = 0 then ub
  else
    let t := mulTable (padTo n a).reverse (padTo n b).reverse 0 (List.replicate (2 * n) 0)
    let t := carryPass t
    ok (pre ((t.take n).map fun c => if c = 0 then '0' else '1').reverse)

/-- Digit-wise comparison loop of the long division, util.cpp:629-637. -/
def geqLoop : List Char → List Char → Bool
  | a :: as, b :: bs => if a < b then false else if b < a then true else geqLoop as bs
  | _, _ => true

/-- Long division loop, util.cpp:611-655: `(remainder, quotient reversed)`. -/
def divLoop (dvs : List Char) : List Char → List Char → List Char → Res (List Char)
  | [], _, q => ok q.reverse
  | bit :: rest, rem, q =>
    let rem := rem ++ [bit]
    if rem.length < dvs.length then divLoop dvs rest rem ('0' :: q)
    else
      let geq := if rem.length ≠ dvs.length then decide (dvs.length < rem.length) else geqLoop rem dvs
      if geq then do
        let diff ← bvSub (pre rem) (pre dvs)
        divLoop dvs rest (diff.drop 2) ('1' :: q)
      else divLoop dvs rest rem ('0' :: q)

/-- `bvUdiv`, util.cpp:557-659. -/
def bvUdiv (bv1 bv2 : List Char) : Res (List Char) := do
  let a ← body bv1
  let b ← body bv2
  if b.all (· ≠ '1') then ok (pre (List.replicate a.length '1'))
  else
    let n := max a.length b.length
    let q ← divLoop (padTo n b) (padTo n a) [] []
    ok (pre q)

/-- `bvUrem`, util.cpp:660-679. -/
def bvUrem (bv1 bv2 : List Char) : Res (List Char) := do
  let _ ← body bv1
  let b ← body bv2
  if b.all (· ≠ '1') then ok bv1
  else
    let q ← bvUdiv bv1 bv2
    let m ← bvMul q bv2
    bvSub bv1 m

/-- `bvUmod`, util.cpp:680-685. -/
def bvUmod (bv1 bv2 : List Char) : Res (List Char) := bvUrem bv1 bv2

/-- Accumulation loop of `bvToNat`, util.cpp:889-891. -/
def natLoop : List Char → Int → Int
  | [], acc => acc
  | c :: cs, acc => natLoop cs (acc * 2 + (if c = '1' then 1 else 0))

/-- `bvToNat`, util.cpp:886-893. -/
def bvToNat (bv : List Char) : Res Int := do
  let ds ← body bv
  ok (natLoop ds 0)

/-- `bvToInt`, util.cpp:1013-1032. (`u << 1` is `u * 2`.) For the empty digit string `bv[2]` is the
terminator, hence the last branch. -/
def bvToInt (bv : List Char) : Res Int := do
  let ds ← body bv
  let u := natLoop ds 0
  match ds with
  | '1' :: _ => ok (u - 2 ^ ds.length)
  | _ => ok u

/-- `mpz_class::get_str(2)` for a natural number: binary digits without leading zeros, "0" for 0. -/
def binDigits (n : Nat) : List Char :=
  if n < 2 then [dig (n == 1)] else binDigits (n / 2) ++ [dig (n % 2 == 1)]

/-- `Integer::toString(2)`: a minus sign for negative numbers. -/
def toString2 (i : Int) : List Char :=
  match i with
  | .ofNat n => binDigits n
  | .negSucc n => '-' :: binDigits (n + 1)

/-- `ULONG_MAX + 1` on the 64-bit platforms the code targets (kept irreducible so that the kernel
never unfolds the literal). -/
@[irreducible] def ulim : Nat := 2 ^ 64

theorem ulim_eq : ulim = 2 ^ 64 := by unfold ulim; rfl

/-- `Integer::toULong`, number.cpp:999-1004. -/
def toULong (i : Int) : Res Nat := if 0 ≤ i ∧ i.toNat < ulim then ok i.toNat else throw

/-- Pad with zeros to `n` digits or keep the last `n` digits; util.cpp:897-902, 992-999. -/
def fit (n : Nat) (bin : List Char) : List Char :=
  if bin.length < n then List.replicate (n - bin.length) '0' ++ bin
  else bin.drop (bin.length - n)

/-- `natToBv(Integer, Integer)`, util.cpp:894-904. -/
def natToBv (i n : Int) : Res (List Char) := do
  let n ← toULong n
  ok (pre (fit n (toString2 i)))

/-- One hexadecimal digit, `hexToBv`, util.cpp:908-978. -/
def hexDigit : Char → Res (List Char)
  | '0' => ok ['0','0','0','0'] | '1' => ok ['0','0','0','1'] | '2' => ok ['0','0','1','0']
  | '3' => ok ['0','0','1','1'] | '4' => ok ['0','1','0','0'] | '5' => ok ['0','1','0','1']
  | '6' => ok ['0','1','1','0'] | '7' => ok ['0','1','1','1'] | '8' => ok ['1','0','0','0']
  | '9' => ok ['1','0','0','1']
  | 'a' => ok ['1','0','1','0'] | 'A' => ok ['1','0','1','0']
  | 'b' => ok ['1','0','1','1'] | 'B' => ok ['1','0','1','1']
  | 'c' => ok ['1','1','0','0'] | 'C' => ok ['1','1','0','0']
  | 'd' => ok ['1','1','0','1'] | 'D' => ok ['1','1','0','1']
  | 'e' => ok ['1','1','1','0'] | 'E' => ok ['1','1','1','0']
  | 'f' => ok ['1','1','1','1'] | 'F' => ok ['1','1','1','1']
  | _ => abort

/-- `hexToBv`, util.cpp:905-980 (digits only). -/
def hexDigits : List Char → Res (List Char)
  | [] => ok []
  | c :: cs => do
    let d ← hexDigit c
    let r ← hexDigits cs
    ok (d ++ r)

/-- Value of a decimal digit string as read by `mpz_class(s, 10)`: an optional minus sign and at
least one digit. Simplification: GMP also skips white space, which no caller passes. -/
def decValue (s : List Char) : Res Int :=
  let go (ds : List Char) : Res Nat :=
    if ds ≠ [] ∧ ds.all Char.isDigit then ok (ds.foldl (fun a c => a * 10 + (c.toNat - 48)) 0) else throw
  match s with
  | '-' :: ds => do let v ← go ds; ok (-(v : Int))
  | ds => do let v ← go ds; ok (v : Int)

/-- `natToBv(std::string, Integer)`, util.cpp:988-1012. The width argument is ignored for the
hexadecimal and decimal forms. -/
def natToBvStr (s : List Char) (n : Int) : Res (List Char) :=
  match s with
  | '#' :: 'b' :: d :: ds => do
    let n ← toULong n
    ok (pre (fit n (d :: ds)))
  | '#' :: 'x' :: d :: ds => do
    let r ← hexDigits (d :: ds)
    ok (pre r)
  | '#' :: 'd' :: d :: ds => do
    let v ← decValue (d :: ds)
    ok (pre (toString2 v))
  | s => do
    let v ← decValue s
    natToBv v n

/-- `intToBv`, util.cpp:1034-1060. `%` on GMP integers truncates (`Int.tmod`). -/
def intToBv (i n : Int) : Res (List Char) := do
  let bits ← toULong n
  Res.assert (decide (0 < bits))
  let m := i.tmod (2 ^ bits)
  let m := if m < 0 then m + 2 ^ bits else m
  ok (pre (fit bits (toString2 m)))

/-- `truncDiv`, util.cpp:687-694. -/
def truncDiv (a b : Int) : Int :=
  let neg := decide (a < 0) ^^ decide (b < 0)
  let aa := if a < 0 then -a else a
  let bb := if b < 0 then -b else b
  let q := aa.tdiv bb
  if neg then -q else q

/-- `mathMod`, util.cpp:697-702. -/
def mathMod (a b : Int) : Int :=
  let m := a.tmod b
  if m < 0 then m + (if b > 0 then b else -b) else m

/-- `bvSdiv`, util.cpp:703-732. -/
def bvSdiv (bv1 bv2 : List Char) : Res (List Char) := do
  let n := bv1.length - 2
  let a ← bvToInt bv1
  let b ← bvToInt bv2
  if b = 0 then
    if n = 1 then ok ['#', 'b', '1']
    else if a < 0 then intToBv 1 n
    else intToBv a n
  else
    let minVal : Int := -(2 ^ (n - 1))
    if a = minVal ∧ b = -1 then intToBv minVal n
    else intToBv (truncDiv a b) n

/-- `bvSrem`, util.cpp:735-746. -/
def bvSrem (bv1 bv2 : List Char) : Res (List Char) := do
  let n := bv1.length - 2
  let a ← bvToInt bv1
  let b ← bvToInt bv2
  if b = 0 then ok bv1
  else intToBv (a - truncDiv a b * b) n

/-- `bvSmod`, util.cpp:748-773. -/
def bvSmod (bv1 bv2 : List Char) : Res (List Char) := do
  let n := bv1.length - 2
  let a ← bvToInt bv1
  let b ← bvToInt bv2
  if b = 0 then ok bv1
  else
    let absb := if b > 0 then b else -b
    let m := mathMod a absb
    if m = 0 then intToBv 0 n
    else if (a > 0 ∧ b > 0) ∨ (a < 0 ∧ b < 0) then intToBv m n
    else
      let r := absb - m
      let r := if b < 0 then -r else r
      intToBv r n

/-- The shift amount `Integer(n.substr(2)).toULong()`: the *binary* digit string is read in base ten,
util.cpp:780, 792, 804. -/
def shiftAmount (n : List Char) : Res Nat := do
  let ds ← body n
  let v ← decValue ds
  toULong v

/-- `bvShl`, util.cpp:776-787. -/
def bvShl (bv n : List Char) : Res (List Char) := do
  let ds ← body bv
  let shift ← shiftAmount n
  if ds.length ≤ shift then ok (pre ('0' :: List.replicate (shift - ds.length) '0'))
  else ok (pre (ds.take (ds.length - shift) ++ List.replicate shift '0'))

/-- `bvLshr`, util.cpp:788-799. -/
def bvLshr (bv n : List Char) : Res (List Char) := do
  let ds ← body bv
  let shift ← shiftAmount n
  if ds.length ≤ shift then ok (pre ('0' :: List.replicate (shift - ds.length) '0'))
  else ok (pre (List.replicate shift '0' ++ ds.take (ds.length - shift)))

/-- `bvAshr`, util.cpp:800-811. (`bv[2]` of an empty digit string is the terminator.) -/
def bvAshr (bv n : List Char) : Res (List Char) := do
  let ds ← body bv
  let shift ← shiftAmount n
  let s := ds.headD '\x00'
  if ds.length ≤ shift then ok (pre (List.replicate ds.length s))
  else ok (pre (List.replicate shift s ++ ds.take (ds.length - shift)))

/-- `bvConcat`, util.cpp:813-817. -/
def bvConcat (bv1 bv2 : List Char) : Res (List Char) := do
  let a ← body bv1
  let b ← body bv2
  ok (pre (a ++ b))

/-- `std::string::substr(pos, len)`: throws when `pos > size()`, clamps `len`. -/
def substr (s : List Char) (pos len : Nat) : Res (List Char) :=
  if s.length < pos then throw else ok ((s.drop pos).take len)

/-- `size_t` subtraction, wrapping modulo 2^64. -/
def usub (a b : Nat) : Nat := if b ≤ a then a - b else ulim - (b - a)

/-- `bvExtract`, util.cpp:818-828. -/
def bvExtract (bv : List Char) (i j : Int) : Res (List Char) := do
  let _ ← body bv
  Res.assert (decide (j ≤ i))
  let iu ← toULong i
  let ju ← toULong j
  -- `2 + (bit_width - 1 - i)` in wrapping arithmetic
  let start := (2 + usub (usub (bv.length - 2) 1) iu) % ulim
  let r ← substr bv start (iu - ju + 1)
  ok (pre r)

/-- `bvRepeat`, util.cpp:829-836. -/
def bvRepeat (bv : List Char) (n : Int) : Res (List Char) := do
  let ds ← body bv
  let n ← toULong n
  ok (pre (List.replicate n ds).flatten)

/-- `bvZeroExtend`, util.cpp:837-840. -/
def bvZeroExtend (bv : List Char) (n : Int) : Res (List Char) := do
  let ds ← body bv
  let n ← toULong n
  ok (pre (List.replicate n '0' ++ ds))

/-- `bvSignExtend`, util.cpp:841-844. -/
def bvSignExtend (bv : List Char) (n : Int) : Res (List Char) := do
  let ds ← body bv
  let n ← toULong n
  ok (pre (List.replicate n (ds.headD '\x00') ++ ds))

/-- `bvRotateLeft`, util.cpp:846-850. `real_n = n % width` is computed (and divides by zero for an
empty literal, which throws) but then unused; lengths wrap modulo 2^64. -/
def bvRotateLeft (bv : List Char) (n : Int) : Res (List Char) := do
  let ds ← body bv
  if ds.length = 0 then throw
  else
    let n ← toULong n
    let a ← substr bv (2 + n) (usub ds.length n)
    let b ← substr bv 2 n
    ok (pre (a ++ b))

/-- `bvRotateRight`, util.cpp:851-855. -/
def bvRotateRight (bv : List Char) (n : Int) : Res (List Char) := do
  let ds ← body bv
  if ds.length = 0 then throw
  else
    let n ← toULong n
    let a ← substr bv (usub (2 + ds.length) n) n
    let b ← substr bv 2 (usub ds.length n)
    ok (pre (a ++ b))

/-- The comparison kinds `bvComp` distinguishes, util.cpp:857-884; `other` is every other kind, in
particular `NT_BV_COMP`. -/
inductive Cmp where
  | eqOther | distinctOther | ult | ule | ugt | uge | slt | sle | sgt | sge | other
  deriving DecidableEq, Repr

/-- `bvComp`, util.cpp:857-884. -/
def bvComp (bv1 bv2 : List Char) (k : Cmp) : Res Bool := do
  let _ ← body bv1
  let _ ← body bv2
  match k with
  | .eqOther => ok (decide (bv1 = bv2))
  | .distinctOther => ok (decide (bv1 ≠ bv2))
  | .ult => do let a ← bvToNat bv1; let b ← bvToNat bv2; ok (decide (a < b))
  | .ule => do let a ← bvToNat bv1; let b ← bvToNat bv2; ok (decide (a ≤ b))
  | .ugt => do let a ← bvToNat bv1; let b ← bvToNat bv2; ok (decide (b < a))
  | .uge => do let a ← bvToNat bv1; let b ← bvToNat bv2; ok (decide (b ≤ a))
  | .slt => do let a ← bvToInt bv1; let b ← bvToInt bv2; ok (decide (a < b))
  | .sle => do let a ← bvToInt bv1; let b ← bvToInt bv2; ok (decide (a ≤ b))
  | .sgt => do let a ← bvToInt bv1; let b ← bvToInt bv2; ok (decide (b < a))
  | .sge => do let a ← bvToInt bv1; let b ← bvToInt bv2; ok (decide (b ≤ a))
  | .other => ok false

/-! ## Constant folding (`Parser::simp_oper`)

A bit-vector constant node is its stored text and the width of its sort. `isZero` never holds of a
bit-vector constant (base_parser.cpp:319-327 only looks at numeric sorts), so the "by zero" branches
of `simp_oper` are dead and omitted. -/

/-- A constant node of bit-vector sort. -/
structure Const where
  text : List Char
  width : Nat
  deriving DecidableEq, Repr

/-- `mkConstBv(v, width)`, op_parser.cpp:661-673. -/
def mkConstBv (v : List Char) (width : Nat) : Res Const := do
  let t ← natToBvStr v width
  ok ⟨t, width⟩

/-- Binary operators folded by `simp_oper(t, l, r)`. -/
inductive BinOp where
  | and | or | xor | nand | nor | xnor | add | sub | mul
  | udiv | urem | sdiv | srem | smod | shl | lshr | ashr
  deriving DecidableEq, Repr

/-- The `BitVectorUtils` function used for each kind, simp_parser.cpp:1073-1174 and 1389-1448. -/
def BinOp.util : BinOp → List Char → List Char → Res (List Char)
  | .and => bvAnd | .or => bvOr | .xor => bvXor | .nand => bvNand | .nor => bvNor | .xnor => bvXnor
  | .add => bvAdd | .sub => bvSub | .mul => bvMul | .udiv => bvUdiv | .urem => bvUrem
  | .sdiv => bvSdiv | .srem => bvSrem | .smod => bvSmod
  | .shl => bvShl | .lshr => bvLshr | .ashr => bvAshr

/-- `simp_oper(t, l, r)` on two bit-vector constants: `mkConstBv(util(l, r), width)`,
simp_parser.cpp:1073-1174 and 1389-1448. The width is that of `l` (of `r` for srem and smod). -/
def foldBin (o : BinOp) (l r : Const) : Res Const := do
  let v ← o.util l.text r.text
  let w := match o with
    | .srem | .smod => r.width
    | _ => l.width
  mkConstBv v w

/-- `simp_oper(NT_BV_NOT/NT_BV_NEG, p)`, simp_parser.cpp:619-630. -/
def foldNot (p : Const) : Res Const := do let v ← bvNot p.text; mkConstBv v p.width
@[inherit_doc foldNot]
def foldNeg (p : Const) : Res Const := do let v ← bvNeg p.text; mkConstBv v p.width

/-- Left fold of `simp_oper` over the operands of an n-ary kind, simp_parser.cpp:1789-1818. -/
def foldMany (o : BinOp) : Const → List Const → Res Const
  | acc, [] => ok acc
  | acc, c :: cs => do
    let r ← foldBin o acc c
    foldMany o r cs

/-- `simp_oper(NT_BV_CONCAT, l, r)`, simp_parser.cpp:1455-1460. -/
def foldConcat (l r : Const) : Res Const := do
  let v ← bvConcat l.text r.text
  mkConstBv v (l.width + r.width)

/-- `simp_oper(NT_BV_EXTRACT, l, i, j)`, simp_parser.cpp:1567-1573. -/
def foldExtract (l : Const) (i j : Int) : Res Const := do
  let v ← bvExtract l.text i j
  let size ← toULong (i - j + 1)
  mkConstBv v size

/-- `simp_oper(NT_NAT_TO_BV, i, n)`, simp_parser.cpp:1188-1193. -/
def foldNatToBv (i n : Int) : Res Const := do
  let v ← natToBv i n
  let w ← toULong n
  mkConstBv v w

/-- `simp_oper(NT_INT_TO_BV, i, n)`, simp_parser.cpp:1194-1199. -/
def foldIntToBv (i n : Int) : Res Const := do
  let v ← intToBv i n
  let w ← toULong n
  mkConstBv v w

/-- `simp_oper(NT_BV_ULT..NT_BV_SGE, l, r)`, simp_parser.cpp:1175-1187, and
`simp_oper(NT_BV_COMP, l, r)` (`.other`), simp_parser.cpp:1425-1430. -/
def foldCmp (k : Cmp) (l r : Const) : Res Bool := bvComp l.text r.text k

end SMT.BV
