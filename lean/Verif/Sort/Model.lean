import Verif.Text.Dec

/-! # Sorts (`include/sort.h`, `src/sort.cpp`) -/

namespace SMT.Sorts
open SMT.Text

/-- `enum class SORT_KIND` (`include/sort.h:43-56`). -/
inductive SK where
  | NULL | UNKNOWN | BOOL | INT | REAL | BV | FP | STR | ARRAY | DATATYPE | SET | RELATION | BAG | SEQ | UF
  | REG | EXT | RAT | NAT | ALGEBRAIC | TRANSCENDENTAL | RAND | INTOREAL | DEC | DEF | ROUNDING_MODE
  deriving DecidableEq

/-- `class Sort` (`include/sort.h:58-63`): kind, name, arity, children.  Strings are character lists. -/
inductive Srt where
  | mk (kind : SK) (name : List Char) (arity : Nat) (children : List Srt)

namespace Srt
/-- member `kind` (`include/sort.h:60`) -/
def kind : Srt → SK | mk k _ _ _ => k
/-- member `name` (`include/sort.h:61`) -/
def name : Srt → List Char | mk _ n _ _ => n
/-- member `arity` (`include/sort.h:62`) -/
def arity : Srt → Nat | mk _ _ a _ => a
/-- member `children` (`include/sort.h:63`) -/
def children : Srt → List Srt | mk _ _ _ c => c
end Srt

open Srt

/-- `children[i]->arity` (`include/sort.h:177-190`); an index past the end, undefined in the code, reads as 0. -/
def childArity (s : Srt) (i : Nat) : Nat :=
  match s.children[i]? with
  | some c => c.arity
  | none => 0

/-- `Sort::operator==` (`include/sort.h:103-129`). -/
def eqS (a b : Srt) : Bool :=
  if (a.kind == .DEF || a.kind == .DEC) && (b.kind == .DEF || b.kind == .DEC) && a.name == b.name && a.arity == b.arity then
    true
  else if (a.kind == .INT && b.kind == .INTOREAL) || (a.kind == .INTOREAL && b.kind == .INT) then true
  else if (a.kind == .REAL && b.kind == .INTOREAL) || (a.kind == .INTOREAL && b.kind == .REAL) then true
  else if a.kind == .FP && b.kind == .FP then
    childArity a 0 == childArity b 0 && childArity a 1 == childArity b 1
  else a.kind == b.kind && a.name == b.name && a.arity == b.arity

mutual
/-- `Sort::toString` (`include/sort.h:135-169`); a missing child, undefined in the code, prints nothing. -/
def print : Srt → List Char
  | .mk k name _ cs =>
    match k with
    | .BOOL => cs!"Bool"
    | .INT => cs!"Int"
    | .REAL => cs!"Real"
    | .BV => cs!"(_ BitVec " ++ dec ((cs[0]?.map arity).getD 0) ++ cs!")"
    | .FP => cs!"(_ FloatingPoint " ++ dec ((cs[0]?.map arity).getD 0) ++ cs!" " ++
        dec ((cs[1]?.map arity).getD 0) ++ cs!")"
    | .STR => cs!"String"
    | .ARRAY => cs!"(Array " ++ printAt cs 0 ++ cs!" " ++ printAt cs 1 ++ cs!")"
    | .DATATYPE => cs!"Datatype"
    | .SET => cs!"Set"
    | .RELATION => cs!"Relation"
    | .BAG => cs!"Bag"
    | .SEQ => cs!"Sequence"
    | .UF => cs!"UF"
    | .REG => cs!"(RegEx String)"
    | .EXT => cs!"ExtReal"
    | .NAT => cs!"Natural"
    | .RAND => cs!"Random"
    | .INTOREAL => cs!"IntOrReal"
    | .ALGEBRAIC => cs!"Algebraic"
    | .TRANSCENDENTAL => cs!"Transcendental"
    | .DEC => name
    | .DEF => name
    | .ROUNDING_MODE => cs!"RoundingMode"
    | .NULL | .UNKNOWN | .RAT => cs!"Unknown"
/-- `children[i]->toString()` (`include/sort.h:146`) -/
def printAt : List Srt → Nat → List Char
  | [], _ => []
  | s :: _, 0 => print s
  | _ :: l, i + 1 => printAt l i
end

/-- `BOOL_SORT` (`include/sort.h:292`) -/
def BOOL_SORT : Srt := .mk .BOOL cs!"Bool" 0 []
/-- `INT_SORT` (`include/sort.h:293`) -/
def INT_SORT : Srt := .mk .INT cs!"Int" 0 []
/-- `REAL_SORT` (`include/sort.h:294`) -/
def REAL_SORT : Srt := .mk .REAL cs!"Real" 0 []
/-- `INTOREAL_SORT` (`include/sort.h:302`) -/
def INTOREAL_SORT : Srt := .mk .INTOREAL cs!"IntOrReal" 0 []
/-- `STR_SORT` (`include/sort.h:297`) -/
def STR_SORT : Srt := .mk .STR cs!"String" 0 []
/-- `REG_SORT` (`include/sort.h:298`) -/
def REG_SORT : Srt := .mk .REG cs!"Reg" 0 []
/-- `ROUNDING_MODE_SORT` (`include/sort.h:306`) -/
def ROUNDING_MODE_SORT : Srt := .mk .ROUNDING_MODE cs!"RoundingMode" 0 []
/-- a sort of kind `SK_NULL` that only carries a number (`src/sort.cpp:147-155`) -/
def width (n : List Char) (w : Nat) : Srt := .mk .NULL n w []
/-- an `SK_FP` sort: `createFPSort` uses the name `FP`, the static ones `Float64`, `Float32`, `Float16`
(`src/sort.cpp:153-158`, `include/sort.h:303-305`) -/
def fpSort (n : List Char) (e s : Nat) : Srt := .mk .FP n 0 [width cs!"Exp" e, width cs!"Sig" s]
/-- `createBVSort` (`src/sort.cpp:147-151`), before deduplication -/
def bvSort (w : Nat) : Srt := .mk .BV cs!"BV" 0 [width cs!"Width" w]
/-- `createArraySort` (`src/sort.cpp:160-163`) -/
def arraySort (i e : Srt) : Srt := .mk .ARRAY cs!"Array" 0 [i, e]
/-- `createSortDec` (`src/sort.cpp:166-169`) -/
def decSort (n : List Char) (a : Nat) : Srt := .mk .DEC n a []

/-- other static sorts (`include/sort.h:290-301`) -/
def otherStatics : List Srt :=
  [.mk .NULL cs!"Null" 0 [], .mk .UNKNOWN cs!"Unknown" 0 [], .mk .ALGEBRAIC cs!"Algebraic" 0 [],
   .mk .TRANSCENDENTAL cs!"Transcendental" 0 [], .mk .EXT cs!"ExtReal" 0 [],
   .mk .NAT cs!"Natural" 0 [], .mk .RAND cs!"Random" 0 []]

/-- `initializeStaticSorts` (`src/sort.cpp:43-69`) (the order is immaterial here) -/
def initSorts : List Srt :=
  otherStatics ++ [BOOL_SORT, INT_SORT, REAL_SORT, INTOREAL_SORT, STR_SORT, REG_SORT, ROUNDING_MODE_SORT,
   fpSort cs!"Float64" 11 53, fpSort cs!"Float32" 8 24, fpSort cs!"Float16" 5 11]

/-- `insertSortToBucket` (`src/sort.cpp:96-115`): look for an equal sort in the bucket of the hash, else append.
`h` is the hash function; the manager's state is the vector `sorts`, and bucket `v` is the sublist with hash `v`. -/
def insertSort (h : Srt → Nat) (st : List Srt) (s : Srt) : Srt × List Srt :=
  match st.find? (fun p => h p == h s && eqS p s) with
  | some p => (p, st)
  | none => (s, st ++ [s])

end SMT.Sorts
