import Verif.Mean.BvModel

/-!
# The constructors of the other arithmetic nodes (C83)

`src/op_parser.cpp:1384-1477`, `1937-1970` and the part of `simp_oper` for them (`src/simp_parser.cpp:75-120`, `528-560`, `875-918`).
-/

namespace SMT.Mean
open SMT SMT.Term SMT.Kinds

/-- the kinds of nodes (`include/kind.h`), as the opaque kinds of `Verif.Term`; all but `NT_IS_INT` are arithmetic terms
(`include/dag.h:415-419`) -/
def arKind : K → Kind
  | .DIV_INT => .arith 0 | .MOD => .arith 1 | .DIV_REAL => .arith 2 | .ABS => .arith 3 | .TO_REAL => .arith 4 | .TO_INT => .arith 5
  | .IS_INT => .atom 8
  | _ => .misc 0

/-- `isRealParam` (`src/op_parser.cpp:37`) -/
def isRealParam (t : SMT.Term) : Bool := t.sort == .real || t.sort == .ior

/-- `HighPrecisionReal::toInt` (`src/number.cpp:597-599`) -/
def toInt32 (z : Int) : Int := (max (-2 ^ 63) (min (2 ^ 63 - 1) z) + 2 ^ 31) % 2 ^ 32 - 2 ^ 31

/-- `mkOper` with one operand (`src/op_parser.cpp:172-181`) for these kinds: the node, unless `simp_oper` knows better -/
def arOper1 (f : SMT.Term → SMT.Term) (s : SMT.Srt) (k : K) (t : SMT.Term) : SMT.Term :=
  if (f t).isUnknown then .app (arKind k) s [t] else f t

/-- `mkOper` with two operands (`src/op_parser.cpp:182-191`) for these kinds -/
def arOper2 (f : SMT.Term → SMT.Term → Res SMT.Term) (s : SMT.Srt) (k : K) (l r : SMT.Term) : Res SMT.Term :=
  (f l r).bind fun x => .ok (if x.isUnknown then .app (arKind k) s [l, r] else x)

/-- `simp_oper(NT_DIV_INT, l, r)` (`src/simp_parser.cpp:875-889`): `mpz_class` division truncates, and `Integer::operator/` throws on zero
(`src/number.cpp:787-795`); on a real constant the quotient is rounded and its floor taken as an `int`.  Simplification: on zero as a real
the result is the one of positive infinity. -/
def simpDivInt (c : SMT.Cfg) (l r : SMT.Term) : Res SMT.Term :=
  match l, r with
  | .cint a, .cint b => if b = 0 then .throw else .ok (.cint (a.tdiv b))
  | l, r => if l.isCReal && r.isCReal then
      (if c.floating then
        .ok (.cint (if toReal c r = 0 then toInt32 (2 ^ 63 - 1) else toInt32 (c.rnd (toReal c l / toReal c r)).floor)) else .ok .unknown)
    else .ok .unknown

/-- `simp_oper(NT_DIV_REAL, l, r)` (`src/simp_parser.cpp:890-909`), with the default of `keep_division_if_not_divisible`
(`include/options.h:64`) -/
def simpDivReal (c : SMT.Cfg) (l r : SMT.Term) : Res SMT.Term :=
  if l.isCReal && r.isCReal then
    (if toReal c r = 0 then .ok .unknown
    else if (c.rnd (toReal c l / toReal c r)).den = 1 then .ok (.cint (toInt32 (c.rnd (toReal c l / toReal c r)).floor)) else .ok .unknown)
  else .ok .unknown

/-- `simp_oper(NT_MOD, l, r)` (`src/simp_parser.cpp:910-918`, `src/number.cpp:796-803`) -/
def simpMod (l r : SMT.Term) : Res SMT.Term :=
  match l, r with
  | .cint a, .cint b => if b = 0 then .throw else .ok (.cint (a.tmod b))
  | _, _ => .ok .unknown

/-- `simp_oper(NT_ABS, p)` (`src/simp_parser.cpp:75-97`) -/
def simpAbs (c : SMT.Cfg) (t : SMT.Term) : SMT.Term :=
  if t.isCInt then (if t.intVal < 0 then .cint (-t.intVal) else t)
  else if t.isCReal then (if toReal c t < 0 then mkConstReal c (-toReal c t) else t)
  else .unknown

/-- `simp_oper(NT_TO_INT, p)` (`src/simp_parser.cpp:528-536`) -/
def simpToInt (c : SMT.Cfg) (t : SMT.Term) : SMT.Term :=
  if t.isCInt then t else if t.isCReal then mkConstReal c ((toReal c t).floor : Int) else .unknown

/-- `simp_oper(NT_TO_REAL, p)` (`src/simp_parser.cpp:537-545`) -/
def simpToReal (c : SMT.Cfg) (t : SMT.Term) : SMT.Term :=
  if t.isCInt then mkConstReal c (toReal c t) else if t.isCReal then t else .unknown

/-- `simp_oper(NT_IS_INT, p)` (`src/simp_parser.cpp:546-554`) -/
def simpIsInt (t : SMT.Term) : SMT.Term :=
  if t.isCInt then .tt else if t.isCReal then .ff else .unknown

/-- `mkDivInt` (`src/op_parser.cpp:1391-1404`) -/
def mkDivInt (c : SMT.Cfg) (l r : SMT.Term) : Res SMT.Term :=
  if (!isIntParam l || !isIntParam r) && !canExempt l.sort r.sort then .abort else arOper2 (simpDivInt c) .int .DIV_INT l r

/-- `mkDivReal` (`src/op_parser.cpp:1426-1439`) -/
def mkDivReal (c : SMT.Cfg) (l r : SMT.Term) : Res SMT.Term :=
  if (!isRealParam l || !isRealParam r) && !canExempt l.sort r.sort then .abort else arOper2 (simpDivReal c) .real .DIV_REAL l r

/-- `mkMod` (`src/op_parser.cpp:1456-1463`) -/
def mkMod (l r : SMT.Term) : Res SMT.Term :=
  if !isIntParam l || !isIntParam r then .abort else arOper2 simpMod .int .MOD l r

/-- `mkAbs` (`src/op_parser.cpp:1468-1474`) -/
def mkAbs (c : SMT.Cfg) (t : SMT.Term) : Res SMT.Term :=
  if !isIntParam t && !isRealParam t then .abort else .ok (arOper1 (simpAbs c) t.sort .ABS t)

/-- `mkToInt` (`src/op_parser.cpp:1940-1947`) -/
def mkToInt (c : SMT.Cfg) (t : SMT.Term) : Res SMT.Term :=
  if !isRealParam t then .abort else .ok (arOper1 (simpToInt c) .int .TO_INT t)

/-- `mkToReal` (`src/op_parser.cpp:1951-1958`) -/
def mkToReal (c : SMT.Cfg) (t : SMT.Term) : Res SMT.Term :=
  if !isIntParam t then .abort else .ok (arOper1 (simpToReal c) .real .TO_REAL t)

/-- `mkIsInt` (`src/op_parser.cpp:1963-1970`) -/
def mkIsInt (t : SMT.Term) : Res SMT.Term :=
  if !isRealParam t then .abort else .ok (arOper1 simpIsInt .bool .IS_INT t)

/-- the constructors by their kind -/
def arCtor (c : SMT.Cfg) : K → Option (List SMT.Term → Res SMT.Term)
  | .DIV_INT => some (on2 (mkDivInt c))
  | .DIV_REAL => some (on2 (mkDivReal c))
  | .MOD => some (on2 mkMod)
  | .ABS => some (on1 (mkAbs c))
  | .TO_INT => some (on1 (mkToInt c))
  | .TO_REAL => some (on1 (mkToReal c))
  | .IS_INT => some (on1 mkIsInt)
  | _ => none

end SMT.Mean
