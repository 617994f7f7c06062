import Verif.Basic
import Verif.Text.Tok

/-!
# The scanner (C40)

`src/base_parser.cpp:359-503` (`getSymbol`), `507-551` (`scanToNextSymbol`), `553-571` (`parseLpar`, `parseRpar`), `572-609`
(`skipToRpar`).

The buffer is the list of the characters from the cursor to the terminating NUL; stepping over the NUL is undefined behaviour
(`Res.ub`).  `err_*` prints and exits (`Res.abort`).  Simplifications: characters are Unicode, not bytes; `isblank` is the one of
the C locale.
-/

namespace SMT.Lex
open SMT

/-- `SCAN_MODE` (`include/parser.h`) -/
inductive Mode where
  | common | comment | symbol | compSym | string
  deriving DecidableEq, Repr

/-- cursor, `scan_mode`, `line_number` -/
structure St where
  rest : List Char
  mode : Mode
  line : Nat
  deriving DecidableEq, Repr

/-- `isblank` -/
def isBlank (c : Char) : Bool := c == ' ' || c == '\t'
/-- the characters that count as line ends -/
def isNl (c : Char) : Bool := c == '\n' || c == '\r' || c == '\x0b' || c == '\x0c'

/-- the loop of `scanToNextSymbol` (`src/base_parser.cpp:513-549`) -/
def scanGo (mode : Mode) (line : Nat) : List Char → St
  | [] => ⟨[], mode, line⟩
  | c :: s =>
    if isNl c then scanGo (if mode = .comment then .common else mode) (line + 1) s
    else if mode = .common && !isBlank c then
      if c = ';' then scanGo .comment line s
      else if c = '|' then ⟨c :: s, .compSym, line⟩
      else if c = '"' then ⟨c :: s, .string, line⟩
      else ⟨c :: s, .symbol, line⟩
    else scanGo mode line s

/-- `scanToNextSymbol` (`src/base_parser.cpp:507-551`) -/
def scan (line : Nat) (s : List Char) : St := scanGo .common line s

/-- the test for the start of scientific notation (`src/base_parser.cpp:376-388`): the text so far ends in its first `E` or `e`, and
what is before it is a decimal -/
def startsSci (t : List Char) : Bool :=
  match Tok.splitE t with
  | some (m, []) => !m.isEmpty && Tok.isReal m
  | _ => false

/-- the end of the buffer (`src/base_parser.cpp:494-503`) -/
def eof (file : Bool) (acc : List Char) (line : Nat) : Res (List Char × St) := if file then .abort else .ok (acc, scan line [])

/-- symbol mode once scientific notation was recognised (`src/base_parser.cpp:391-424`); `lv` is the bracket level, `opn`
`has_open_bracket`, `acc` the text from the start of the symbol -/
def sciGo (file : Bool) (acc : List Char) (opn : Bool) (lv : Int) (line : Nat) : List Char → Res (List Char × St)
  | [] => eof file acc line
  | c :: s =>
    if c = '(' then sciGo file (acc ++ [c]) true (lv + 1) line s
    else if c = ')' && opn then
      if lv - 1 = 0 then .ok (acc ++ [c], scan line s) else sciGo file (acc ++ [c]) opn (lv - 1) line s
    else if isBlank c then sciGo file (acc ++ [c]) opn lv line s
    else if isNl c || c = ';' || c = '|' || c = '"' then .ok (acc, ⟨c :: s, .symbol, line⟩)
    else sciGo file (acc ++ [c]) opn lv line s

/-- symbol mode (`src/base_parser.cpp:372-448`) -/
def symGo (file : Bool) (acc : List Char) (line : Nat) : List Char → Res (List Char × St)
  | [] => eof file acc line
  | c :: s =>
    if startsSci acc then sciGo file acc false 0 line (c :: s)
    else if isBlank c then .ok (acc, scan line s)
    else if isNl c then .ok (acc, scan (line + 1) s)
    else if c = ';' || c = '|' || c = '"' || c = '(' || c = ')' then .ok (acc, ⟨c :: s, .symbol, line⟩)
    else symGo file (acc ++ [c]) line s

/-- quoted symbols (`src/base_parser.cpp:450-462`) -/
def compGo (file : Bool) (acc : List Char) (line : Nat) : List Char → Res (List Char × St)
  | [] => eof file acc line
  | c :: s =>
    if isNl c then compGo file (acc ++ [c]) (line + 1) s
    else if c = '|' then .ok (acc ++ [c], scan line s)
    else compGo file (acc ++ [c]) line s

/-- strings (`src/base_parser.cpp:464-484`) -/
def strGo (file : Bool) (acc : List Char) (line : Nat) : List Char → Res (List Char × St)
  | [] => eof file acc line
  | '"' :: '"' :: s => strGo file (acc ++ ['"', '"']) line s
  | c :: s =>
    if isNl c then strGo file (acc ++ [c]) (line + 1) s
    else if c = '"' then .ok (acc ++ [c], scan line s)
    else strGo file (acc ++ [c]) line s

/-- the other modes only fail an assertion, which is not there in the default build (`src/base_parser.cpp:486-491`) -/
def badGo (file : Bool) (acc : List Char) (line : Nat) (s : List Char) : Res (List Char × St) := eof file (acc ++ s) line

/-- `getSymbol` (`src/base_parser.cpp:359-503`): the first character is stepped over without being looked at -/
def getSymbol (file : Bool) (st : St) : Res (List Char × St) :=
  match st.rest with
  | [] => .ub
  | c :: s =>
    match st.mode with
    | .symbol => symGo file [c] st.line s
    | .compSym => compGo file [c] st.line s
    | .string => strGo file [c] st.line s
    | _ => badGo file [c] st.line s

/-- `parseLpar` (`src/base_parser.cpp:553-561`) -/
def parseLpar (st : St) : Res St :=
  match st.rest with
  | '(' :: s => .ok (scan st.line s)
  | _ => .abort

/-- `parseRpar` (`src/base_parser.cpp:563-571`) -/
def parseRpar (st : St) : Res St :=
  match st.rest with
  | ')' :: s => .ok (scan st.line s)
  | _ => .abort

/-- the loop of `skipToRpar` (`src/base_parser.cpp:578-608`) -/
def skipGo (mode : Mode) (level : Nat) (line : Nat) : List Char → St
  | [] => ⟨[], mode, line⟩
  | c :: s =>
    if isNl c then skipGo (if mode = .comment then .common else mode) level (line + 1) s
    else if mode = .common then
      if c = '(' then skipGo mode (level + 1) line s
      else if c = ')' then (if level = 0 then ⟨c :: s, mode, line⟩ else skipGo mode (level - 1) line s)
      else if c = ';' then skipGo .comment level line s
      else if c = '|' then skipGo .compSym level line s
      else if c = '"' then skipGo .string level line s
      else skipGo mode level line s
    else if mode = .compSym && c = '|' then skipGo .common level line s
    else if mode = .string && c = '"' then skipGo .common level line s
    else skipGo mode level line s

/-- `skipToRpar` (`src/base_parser.cpp:572-609`) -/
def skipToRpar (st : St) : St := skipGo .common 0 st.line st.rest

end SMT.Lex
