import Verif.Basic
import Verif.Text.Dec

/-!
# String literals (C11, C12)

`src/util.cpp:1109-1215` (`StringUtils`), `1247-1369` (escaping), `src/op_parser.cpp:651-660` (`mkConstStr`),
`src/simp_parser.cpp:649-735, 1210-1265, 1459-1472, 1528-1557` (folding).

A string is a list of characters with codes below 256 (bytes).  A string node is represented by its name.
-/

namespace SMT.Str

/-- `ULONG_MAX + 1` -/
def ulongEnd : Int := 18446744073709551616

/-- `HighPrecisionInteger::toULong` (`src/number.cpp:999-1004`) -/
def toULong (i : Int) : Res Nat := if i < 0 ∨ ulongEnd ≤ i then .throw else .ok i.toNat

/-- `std::string::find(t, 0)` -/
def find (t : List Char) : List Char → Option Nat
  | [] => if t.isPrefixOf [] then some 0 else none
  | c :: s => if t.isPrefixOf (c :: s) then some 0 else (find t s).map (· + 1)

/-- `std::string::find(t, pos)` -/
def findFrom (s t : List Char) (pos : Nat) : Option Nat :=
  if s.length < pos then none else (find t (s.drop pos)).map (· + pos)

/-- `std::string::substr(pos, n)` -/
def substr (s : List Char) (pos n : Nat) : Res (List Char) :=
  if s.length < pos then .throw else .ok ((s.drop pos).take n)

/-- quotes around a text -/
def quote (s : List Char) : List Char := '"' :: (s ++ ['"'])

/-- removing the quotes, as at the start of every function of `StringUtils` (`src/util.cpp:1111`) -/
def strip (s : List Char) : List Char :=
  if s.head? = some '"' ∧ s.getLast? = some '"' then (s.drop 1).dropLast else s

/-- `strSubstr` (`src/util.cpp:1109-1127`).  The sum `start + length` wraps at `2^64`; the call of `substr` then shortens the
length itself, so the result is the same. -/
def strSubstr (s : List Char) (i j : Int) : Res (List Char) :=
  let s := strip s
  (toULong i).bind fun start =>
  (toULong j).bind fun length =>
    if s.length ≤ start then .ok (quote [])
    else (substr s start (if s.length < (start + length) % 18446744073709551616 then s.length - start else length)).bind
      fun r => .ok (quote r)

/-- `strPrefixof` (`src/util.cpp:1128-1135`) -/
def strPrefixof (s t : List Char) : Bool :=
  let s := strip s
  let t := strip t
  if t.length < s.length then false else t.take s.length == s

/-- `strSuffixof` (`src/util.cpp:1136-1143`) -/
def strSuffixof (s t : List Char) : Bool :=
  let s := strip s
  let t := strip t
  if t.length < s.length then false else (t.drop (t.length - s.length)).take s.length == s

/-- `strContains` (`src/util.cpp:1144-1148`) -/
def strContains (s t : List Char) : Bool := (find (strip t) (strip s)).isSome

/-- `strIndexof` (`src/util.cpp:1149-1161`) -/
def strIndexof (s t : List Char) (i : Int) : Res Int :=
  let s := strip s
  let t := strip t
  (toULong i).bind fun p =>
    if s.length < p then .ok (-1)
    else .ok (match findFrom s t p with | none => -1 | some q => q)

/-- `strCharAt` (`src/util.cpp:1162-1165`) -/
def strCharAt (s : List Char) (i : Int) : Res (List Char) :=
  (toULong i).bind fun p => (substr (strip s) p 1).bind fun r => .ok (quote r)

/-- `strReplace` (`src/util.cpp:1171-1182`) -/
def strReplace (s t u : List Char) : List Char :=
  match find (strip t) (strip s) with
  | none => s
  | some pos => quote ((strip s).take pos ++ strip u ++ (strip s).drop (pos + (strip t).length))

/-- The loop of `strReplaceAll` (`src/util.cpp:1189-1195`) with a bound on the number of rounds: `none` if the bound is
reached. -/
def replLoop (t u : List Char) : Nat → List Char → Option Nat → Option (List Char)
  | _, res, none => some res
  | 0, _, some _ => none
  | n + 1, res, some pos =>
    let res := res.take pos ++ u ++ res.drop (pos + t.length)
    replLoop t u n res (findFrom res t (pos + u.length))

/-- `strReplaceAll` (`src/util.cpp:1183-1197`): the result `r` if the loop ends -/
def StrReplaceAll (s t u r : List Char) : Prop :=
  ∃ n res, replLoop (strip t) (strip u) n (strip s) (find (strip t) (strip s)) = some res ∧ r = quote res

/-- `tolower` in the C locale -/
def lower (c : Char) : Char := if 65 ≤ c.toNat ∧ c.toNat ≤ 90 then Char.ofNat (c.toNat + 32) else c

/-- `toupper` in the C locale -/
def upper (c : Char) : Char := if 97 ≤ c.toNat ∧ c.toNat ≤ 122 then Char.ofNat (c.toNat - 32) else c

/-- `strToLower` (`src/util.cpp:1198-1204`) -/
def strToLower (s : List Char) : List Char := quote ((strip s).map lower)

/-- `strToUpper` (`src/util.cpp:1205-1211`) -/
def strToUpper (s : List Char) : List Char := quote ((strip s).map upper)

/-- `strRev` (`src/util.cpp:1212-1215`) -/
def strRev (s : List Char) : List Char := quote (strip s).reverse

/-! ## Escaping -/

/-- one character in `escapeString` (`src/util.cpp:1250-1295`).  The stream operator writes an `unsigned char` as a character,
so `std::hex` and `std::setw(2)` produce the fill character `0` and the raw byte. -/
def escChar (c : Char) : List Char :=
  if c = '\n' then cs!"\\n"
  else if c = '\t' then cs!"\\t"
  else if c = '\r' then cs!"\\r"
  else if c = '\\' then cs!"\\\\"
  else if c = '"' then cs!"\\\""
  else if c = '\'' then cs!"\\'"
  else if c.toNat = 0 then cs!"\\0"
  else if c.toNat = 7 then cs!"\\a"
  else if c.toNat = 8 then cs!"\\b"
  else if c.toNat = 12 then cs!"\\f"
  else if c.toNat = 11 then cs!"\\v"
  else if c.toNat < 32 ∨ 126 < c.toNat then ['\\', 'x', '0', c]
  else [c]

/-- `escapeString` (`src/util.cpp:1247-1297`) -/
def escape (s : List Char) : List Char := s.flatMap escChar

/-- value of a hexadecimal digit -/
def hexVal (c : Char) : Option Nat :=
  if 48 ≤ c.toNat ∧ c.toNat ≤ 57 then some (c.toNat - 48)
  else if 97 ≤ c.toNat ∧ c.toNat ≤ 102 then some (c.toNat - 87)
  else if 65 ≤ c.toNat ∧ c.toNat ≤ 70 then some (c.toNat - 55)
  else none

/-- `std::isspace` in the C locale -/
def isSpace (c : Char) : Bool := c.toNat == 32 || (9 ≤ c.toNat && c.toNat ≤ 13)

/-- `std::stoi(hexStr, nullptr, 16)` on two characters, then the conversion to `unsigned char`; `none`: an exception -/
def stoi16 (a b : Char) : Option Nat :=
  if isSpace a then hexVal b
  else if a = '+' then hexVal b
  else if a = '-' then (hexVal b).map fun v => (256 - v) % 256
  else
    match hexVal a with
    | none => none
    | some x => match hexVal b with
      | none => some x
      | some y => some (16 * x + y)

/-- the letter after a backslash (`src/util.cpp:1304-1336`) -/
def named (c : Char) : Option Char :=
  if c = 'n' then some '\n'
  else if c = 't' then some '\t'
  else if c = 'r' then some '\r'
  else if c = '\\' then some '\\'
  else if c = '"' then some '"'
  else if c = '\'' then some '\''
  else if c = '0' then some (Char.ofNat 0)
  else if c = 'a' then some (Char.ofNat 7)
  else if c = 'b' then some (Char.ofNat 8)
  else if c = 'f' then some (Char.ofNat 12)
  else if c = 'v' then some (Char.ofNat 11)
  else none

/-- the two characters after `\x` as a number (`src/util.cpp:1338-1343`) -/
def hexPair : List Char → Option Nat
  | h :: l :: _ => stoi16 h l
  | _ => none

/-- `unescapeString` (`src/util.cpp:1299-1369`): the loop at the given rest of the text, after skipping `n` more characters.  An
`\x` escape that is incomplete or not hexadecimal loses nothing: the backslash is kept and reading goes on at the `x`. -/
def unescGo : Nat → List Char → List Char
  | _, [] => []
  | n + 1, _ :: s => unescGo n s
  | 0, a :: s =>
    if a = '\\' then
      match s.head? with
      | none => [a]
      | some c =>
        match named c with
        | some d => d :: unescGo 1 s
        | none =>
          if c = 'x' then
            match hexPair (s.drop 1) with
            | some v => Char.ofNat v :: unescGo 3 s
            | none => a :: unescGo 0 s
          else a :: c :: unescGo 1 s
    else a :: unescGo 0 s

/-- `unescapeString` from the start of the text -/
def unescape (s : List Char) : List Char := unescGo 0 s

/-- `mkConstStr` (`src/op_parser.cpp:651-660`): the name of the node -/
def mkConstStr (v : List Char) : List Char :=
  if 2 ≤ v.length ∧ v.head? = some '"' ∧ v.getLast? = some '"' then quote (escape (unescape ((v.drop 1).dropLast))) else v

/-! ## Folding -/

/-- value of a folded operator -/
inductive Out where
  | str (name : List Char)
  | int (z : Int)
  | bool (b : Bool)
  deriving DecidableEq

/-- `TypeChecker::isInt` (`src/util.cpp:41-49`) -/
def isIntTok : List Char → Bool
  | [] => false
  | c :: s => (c == '-' || c == '+' || c.isDigit) && s.all Char.isDigit

/-- unary operators -/
inductive U where | len | toLower | toUpper | rev | isDigit | toCode
  deriving DecidableEq

/-- `simp_oper(t, p)` on a string literal (`src/simp_parser.cpp:649-706`) -/
def simp1 : U → List Char → Res Out
  | .len, s => .ok (.int s.length)
  | .toLower, s => .ok (.str (mkConstStr (strToLower s)))
  | .toUpper, s => .ok (.str (mkConstStr (strToUpper s)))
  | .rev, s => .ok (.str (mkConstStr (strRev s)))
  | .isDigit, s => .ok (.bool (isIntTok s))
  | .toCode, s => match s with
    | [c] => .ok (.int c.toNat)
    | _ => .abort

/-- `simp_oper(NT_STR_FROM_CODE, p)` and `simp_oper(NT_STR_FROM_INT, p)` (`src/simp_parser.cpp:678-683, 707-718`) on the literal
`n`: the node's name has no quotes -/
def fromCode (n : Int) : Res Out :=
  if 0 ≤ n ∧ n ≤ 127 then .ok (.str (mkConstStr [Char.ofNat n.toNat])) else .abort

/-- binary operators on two string literals -/
inductive B where | prefixof | suffixof | contains | lt | le | concat
  deriving DecidableEq

/-- `operator<` of `std::string` (characters compared as `unsigned char`) -/
def ltStr : List Char → List Char → Bool
  | _, [] => false
  | [], _ :: _ => true
  | a :: s, b :: t => if a.toNat < b.toNat then true else if b.toNat < a.toNat then false else ltStr s t

/-- `simp_oper(t, l, r)` on two string literals (`src/simp_parser.cpp:1210-1221, 1231-1243, 1256-1261, 1459-1472`) -/
def simp2 : B → List Char → List Char → Res Out
  | .prefixof, s, t => .ok (.bool (strPrefixof s t))
  | .suffixof, s, t => .ok (.bool (strSuffixof s t))
  | .contains, s, t => .ok (.bool (strContains s t))
  | .lt, s, t => .ok (.bool (ltStr s t))
  | .le, s, t => .ok (.bool (!ltStr t s))
  | .concat, s, t =>
    if s.getLast? = some '"' ∧ t.head? = some '"' then .ok (.str (mkConstStr (s.dropLast ++ t.drop 1)))
    else .ok (.str (mkConstStr (s ++ t)))

/-- `str.at` (`src/simp_parser.cpp:1222-1227`) -/
def simpAt (s : List Char) (i : Int) : Res Out := (strCharAt s i).bind fun r => .ok (.str (mkConstStr r))

/-- `str.substr` (`src/simp_parser.cpp:1528-1533`) -/
def simpSubstr (s : List Char) (i n : Int) : Res Out := (strSubstr s i n).bind fun r => .ok (.str (mkConstStr r))

/-- `str.indexof` (`src/simp_parser.cpp:1534-1539`) -/
def simpIndexof (s t : List Char) (i : Int) : Res Out := (strIndexof s t i).bind fun r => .ok (.int r)

/-- `str.replace` (`src/simp_parser.cpp:1546-1551`) -/
def simpReplace (s t u : List Char) : Res Out := .ok (.str (mkConstStr (strReplace s t u)))

/-- `str.replace_all` (`src/simp_parser.cpp:1552-1557`): the outcome, given that the loop ends -/
def SimpReplaceAll (s t u : List Char) (o : Out) : Prop := ∃ r, StrReplaceAll s t u r ∧ o = .str (mkConstStr r)

end SMT.Str
