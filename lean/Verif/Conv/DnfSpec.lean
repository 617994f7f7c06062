import Verif.Conv.Model
/-!
# Input conditions of the disjunctive normal form theorems
-/
namespace SMT

open Term

/-- An atom the conversion recognises whatever the order of its operands, and whose negation it
recognises too: an arithmetic comparison of two operands, a theory predicate, a Boolean application of
an uninterpreted function, an equation or `distinct` of two arithmetic terms, or one of bit-vector
(floating point) terms. -/
def atomIn : Term → Bool
  | .app .le _ ts => ts.length == 2
  | .app .lt _ ts => ts.length == 2
  | .app .ge _ ts => ts.length == 2
  | .app .gt _ ts => ts.length == 2
  | .app (.atom _) _ _ => true
  | .app (.uf _) s _ => s == .bool
  | .app .eq _ ts =>
    (ts.length == 2 && ts.all isArithTerm) || (!ts.isEmpty && ts.all isBVTerm)
      || (!ts.isEmpty && ts.all isFPTerm)
  | .app .distinct _ ts =>
    (ts.length == 2 && ts.all isArithTerm) || (!ts.isEmpty && ts.all isBVTerm)
      || (!ts.isEmpty && ts.all isFPTerm)
  | _ => false

mutual
/-- A formula built with `not`, `and`, `or`, `xor`, two-operand `=>`, `ite`, `=` and `distinct`
between formulas, from constants, variables and atoms in the sense of `atomIn`. -/
def dnfIn : Term → Bool
  | .tt => true
  | .ff => true
  | .var _ _ _ => true
  | .app .not _ ts => dnfInL ts
  | .app .and _ ts => dnfInL ts
  | .app .or _ ts => dnfInL ts
  | .app .xor _ ts => dnfInL ts
  | .app .implies _ ts => ts.length == 2 && dnfInL ts
  | .app .ite _ ts => dnfInL ts
  | .app .eq s ts => atomIn (.app .eq s ts) || (ts.all (fun t => t.sort == .bool) && dnfInL ts)
  | .app .distinct s ts =>
    atomIn (.app .distinct s ts) || (ts.all (fun t => t.sort == .bool) && dnfInL ts)
  | t => atomIn t
/-- every formula of the list -/
def dnfInL : List Term → Bool
  | [] => true
  | t :: ts => dnfIn t && dnfInL ts
end

/-- every product that is used again is still a disjunction -/
def prodOK (c : Cfg) (ands : List Term) : Term → List Term → Bool
  | d, [] => ands.isEmpty || isOr d
  | d, o :: os => isOr d && prodOK c ands (distProd c d o) os

mutual
/-- The distribution never collapses: in every conjunction, each product of disjunctive operands that
is multiplied further is still an `or` node (see `toDNF_collapse_violated` for what happens
otherwise).  In particular this holds when no conjunction has two disjunctive operands. -/
def noCollapse (c : Cfg) : Term → Bool
  | .app .or _ ts => noCollapseL c ts
  | .app .and _ ts => noCollapseL c ts &&
    (match (distribL c ts).filter isOr with
    | [] => true
    | o :: os => prodOK c ((distribL c ts).filter fun t => !isOr t) o os)
  | _ => true
/-- every formula of the list -/
def noCollapseL (c : Cfg) : List Term → Bool
  | [] => true
  | t :: ts => noCollapse c t && noCollapseL c ts
end

end SMT
