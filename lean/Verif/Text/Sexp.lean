import Verif.Text.Dec

/-! # S-expressions and their text on one line -/

namespace SMT.Text

/-- an S-expression: a word or a list -/
inductive Sexp where
  | atom (s : List Char)
  | list (xs : List Sexp)

mutual
/-- an S-expression on one line -/
def flat : Sexp → List Char
  | .atom s => s
  | .list xs => cs!"(" ++ flats xs ++ cs!")"
/-- the parts separated by one space -/
def flats : List Sexp → List Char
  | [] => []
  | x :: xs => flat x ++ tails xs
/-- each part after a space -/
def tails : List Sexp → List Char
  | [] => []
  | x :: xs => cs!" " ++ flat x ++ tails xs
end

end SMT.Text
