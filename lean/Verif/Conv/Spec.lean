import Verif.Term.Model
/-!
# Normal forms (specification side)

What it means for a formula to be in negation, disjunctive or conjunctive normal form.  Nothing here
mentions the conversion procedures.
-/
namespace SMT

open Term

/-- a Boolean variable -/
def isBVar : Term → Bool
  | .var _ s _ => s == .bool
  | _ => false

/-- an `ite` between formulas -/
def isBIte : Term → Bool
  | .app .ite _ (_ :: b :: _ :: _) => b.sort == .bool
  | _ => false

/-- a formula whose top connective negation normal form has a rule for -/
def isConnective : Term → Bool
  | .tt => true
  | .ff => true
  | .app .not _ _ => true
  | .app .and _ _ => true
  | .app .or _ _ => true
  | .app .implies _ (_ :: _ :: _) => true
  | t => isBIte t

mutual
/-- Negation normal form: built with `and`/`or` from constants and from formulas with no connective at
the top, bare or under one `not`. -/
def isNNF : Term → Bool
  | .tt => true
  | .ff => true
  | .app .and _ ts => isNNFL ts
  | .app .or _ ts => isNNFL ts
  | .app .not _ [t] => !isConnective t
  | t => !isConnective t
/-- every formula of the list is in negation normal form -/
def isNNFL : List Term → Bool
  | [] => true
  | t :: ts => isNNF t && isNNFL ts
end

/-- neither `and` nor `or` at the top -/
def flat : Term → Bool
  | .app .and _ _ => false
  | .app .or _ _ => false
  | _ => true

/-- a conjunction of non-`and`/`or` formulas, or one such formula -/
def isCube : Term → Bool
  | .app .and _ ts => ts.all flat
  | t => flat t

/-- Disjunctive shape: a disjunction of cubes. -/
def isDNF : Term → Bool
  | .app .or _ ts => ts.all isCube
  | t => isCube t

mutual
/-- conjunctions of conjunctions ... of flat formulas: no `or` below an `and` -/
def isCubeTree : Term → Bool
  | .app .and _ ts => isCubeTreeL ts
  | t => flat t
/-- every formula of the list is a cube tree -/
def isCubeTreeL : List Term → Bool
  | [] => true
  | t :: ts => isCubeTree t && isCubeTreeL ts
end

/-- a disjunction of cube trees: disjunctive normal form except that conjunctions may be nested -/
def isDNFTree : Term → Bool
  | .app .or _ ts => ts.all isCubeTree
  | t => isCubeTree t

/-- The top node, if it is a relation that `not` is pushed into (an arithmetic comparison, or an
equation or `distinct` whose first operand is an arithmetic or, for equations, a string term), has two
operands. -/
def negBin : Term → Bool
  | .app .eq _ ts => ts.length == 2 || !ts.head?.any fun t => t.isArithTerm || t.isStrTerm
  | .app .distinct _ ts => ts.length == 2 || !ts.head?.any isArithTerm
  | .app .le _ ts => ts.length == 2
  | .app .lt _ ts => ts.length == 2
  | .app .ge _ ts => ts.length == 2
  | .app .gt _ ts => ts.length == 2
  | _ => true

mutual
/-- The formula can be handled: on its Boolean skeleton (`not`, `and`, `or`, `=>`, `ite` between
formulas) every `=>` has two operands, and so has every relation at the leaves that `not` is pushed
into. -/
def binary : Term → Bool
  | .app .not _ ts => binaryL ts
  | .app .and _ ts => binaryL ts
  | .app .or _ ts => binaryL ts
  | .app .implies _ ts => ts.length == 2 && binaryL ts
  | .app .ite _ ts => binaryL ts
  | t => negBin t
/-- every formula of the list is `binary` -/
def binaryL : List Term → Bool
  | [] => true
  | t :: ts => binary t && binaryL ts
end

/-- a propositional literal: a Boolean variable, its negation, or a constant -/
def isLit : Term → Bool
  | .tt => true
  | .ff => true
  | .var _ s _ => s == .bool
  | .app .not _ [t] => isBVar t
  | _ => false

/-- a clause: a literal or a disjunction of literals -/
def isClause : Term → Bool
  | .app .or _ ts => ts.all isLit
  | t => isLit t

/-- Conjunctive normal form. -/
def isCNFForm : Term → Bool
  | .app .and _ ts => ts.all isClause
  | t => isClause t

end SMT
