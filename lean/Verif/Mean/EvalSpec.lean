import Verif.Mean.Spec
import Verif.Eval.Spec

/-! # C81: specification -/

namespace SMT.Mean
open SMT SMT.Text SMT.Sorts SMT.Parse SMT.Term SMT.Eval

/-- At one node of a written term: `=>` has two operands, `=` and `distinct` occur only without reals, there is no operator on bit-vectors, no
division or conversion, and declared functions occur only if `funs`. -/
def Tag.evals (G : Sig) (reals funs : Bool) (ts : List (T D)) : Tag D → Prop
  | .app o _ => (o = cs!"=>" → ts.length = 2) ∧ (o = cs!"=" ∨ o = cs!"distinct" → reals = false) ∧ (∀ k, (o, k) ∉ bvTable ++ (arTable ++ strTable)) ∧
      (funs = false → ∀ f ∈ G.funs, f.1 ≠ o)
  | _ => True

mutual
/-- the same at all nodes -/
def Evals (G : Sig) (reals funs : Bool) : T D → Prop
  | .mk g ts => Tag.evals G reals funs ts g ∧ EvalsL G reals funs ts
/-- in a list -/
def EvalsL (G : Sig) (reals funs : Bool) : List (T D) → Prop
  | [] => True
  | t :: ts => Evals G reals funs t ∧ EvalsL G reals funs ts
end

/-- The assignment gives the declared constants the values that the model has for them. -/
def Follows (G : Sig) (ρ : Env) (m : Mdl.M) : Prop :=
  ∀ s d σ, G.vars.lookup s = some d → SortIs d σ → Mdl.get m (String.ofList s) ≠ .unknown →
    eval ρ (Mdl.get m (String.ofList s)) = some (ρ.var .var σ (String.ofList s))

/-- The model has a literal for every declared constant. -/
def Complete (G : Sig) (m : Mdl.M) : Prop := ∀ s d, G.vars.lookup s = some d → (Mdl.get m (String.ofList s)).isConst = true

/-- the literal of a value -/
def IsLiteral : SMT.Term → Val → Prop
  | .tt, .b true => True
  | .ff, .b false => True
  | .cint i, .n q => q = i
  | .creal _ x, .n q => x = q
  | .clit s x, v => v = .u s x
  | _, _ => False

/-- What is claimed of the node `n` of the term `e`: evaluated in a model it has the value that `e` has; without declared functions, in a
model that is complete (and, with reals, with floating-point evaluation on), it is the literal of that value. -/
def NodeEvaluates (reals : Bool) (G : Sig) (c : SMT.Cfg) (o : Opt) (e : T D) (n : SMT.Term) : Prop :=
  ∀ (m : Mdl.M) ρ v, (∀ x, Std reals (Mdl.get m x) = true) → Means ρ G [] e v → Follows G ρ m →
    eval ρ (evaluate c o m n) = some v ∧
    (Evals G reals false e → (reals = true → c.floating = true) → Mdl.isEmpty m = false → Complete G m → IsLiteral (evaluate c o m n) v)

/-- for a Boolean the literal is `true` or `false` -/
theorem isLiteral_bool {t : SMT.Term} {b : Bool} : IsLiteral t (.b b) ↔ t = if b then .tt else .ff := by
  cases b <;> cases t <;> simp [IsLiteral]

end SMT.Mean
