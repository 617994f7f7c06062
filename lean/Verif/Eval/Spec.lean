import Verif.Eval.Model

/-! # C35: specification -/

namespace SMT.Eval
open SMT SMT.Term

mutual
/-- the variable nodes of a term -/
def vars : Term → List Term
  | .app _ _ ts => varsL ts
  | .var vk s x => [.var vk s x]
  | _ => []
/-- of a list -/
def varsL : List Term → List Term
  | [] => []
  | t :: ts => vars t ++ varsL ts
end

/-- The assignment extends the model: a variable of `e` that has an entry in the model has the value of that entry. -/
def Extends (ρ : Env) (m : Mdl.M) (e : Term) : Prop :=
  ∀ vk s x, .var vk s x ∈ vars e → Mdl.get m x ≠ .unknown → eval ρ (.var vk s x) = eval ρ (Mdl.get m x)

/-- relation nodes have two operands -/
def relBin : Kind → Nat → Bool
  | .eq, n | .distinct, n | .le, n | .lt, n | .ge, n | .gt, n => n == 2
  | _, _ => true

/-- literals: strings, bit-vectors, integers, Booleans, and reals if `r` -/
def leafOk (r : Bool) : Term → Bool
  | .creal .. => r
  | .clit s _ => match s with
    | .str => true
    | .bv _ => true
    | _ => false
  | _ => true

mutual
/-- Terms made of such relations and literals. -/
def Std (r : Bool) : Term → Bool
  | .app k _ ts => relBin k ts.length && StdL r ts
  | t => leafOk r t
/-- all terms of a list -/
def StdL (r : Bool) : List Term → Bool
  | [] => true
  | t :: ts => Std r t && StdL r ts
end

/-- what evaluation handles: two operands for `=>` and for relations, all operands of the opaque operators looked at, and
`distinct` only without real literals -/
def topOk (r : Bool) (o : Opt) (k : Kind) (n : Nat) : Bool :=
  relBin k n && match k with
  | .implies => n == 2
  | .distinct => !r
  | .arith _ | .uf _ | .strOp _ | .bvOp _ | .atom _ | .misc _ => match o.arity k with
    | some i => n == i && n != 0
    | none => true
  | _ => true

mutual
/-- The terms of the soundness theorem. -/
def In (r : Bool) (o : Opt) : Term → Bool
  | .app k _ ts => topOk r o k ts.length && InL r o ts
  | t => leafOk r t
/-- all terms of a list -/
def InL (r : Bool) (o : Opt) : List Term → Bool
  | [] => true
  | t :: ts => In r o t && InL r o ts
end

/-- the numbers fit: reals are exact, or no reals occur and rounding keeps integers apart from 0 and 1 -/
def NumOk (r : Bool) (c : Cfg) : Prop := if r then Exact c else IntOK c

end SMT.Eval
