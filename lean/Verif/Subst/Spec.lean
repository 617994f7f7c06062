import Verif.Subst.Model

/-! # C37: specification -/

namespace SMT.Subst
open SMT SMT.Term

mutual
/-- The value of a body where the parameters have the values `σ` and `call` is the meaning of the functions. -/
def evalB (ρ : Env) (call : Nat → List Val → Option Val) (σ : List (String × Val)) : Body → Option Val
  | .param s x => guardSort s (σ.lookup x)
  | .lit t => eval ρ t
  | .glob vk s x => guardSort s (some (ρ.var vk s x))
  | .app k s ts => match evalBL ρ call σ ts with
      | some vs => guardSort s (apply ρ k s vs)
      | none => none
  | .call i s ts => match evalBL ρ call σ ts with
      | some vs => guardSort s (call i vs)
      | none => none
/-- of a list -/
def evalBL (ρ : Env) (call : Nat → List Val → Option Val) (σ : List (String × Val)) : List Body → Option (List Val)
  | [] => some []
  | t :: ts => match evalB ρ call σ t, evalBL ρ call σ ts with
      | some v, some vs => some (v :: vs)
      | _, _ => none
end

/-- The value of function `i` applied to values: the value of its body with the parameters bound to them; calls nest at most `n`
deep. -/
def callV (F : Table) (ρ : Env) : Nat → Nat → List Val → Option Val
  | 0, _, _ => none
  | n + 1, i, vs =>
    match F[i]? with
    | none => none
    | some f =>
      if f.params.length ≠ vs.length then none
      else match f.body with
        | none => guardSort f.sort (ρ.fn (.uf f.uf) f.sort vs)
        | some b => evalB ρ (callV F ρ n) ((f.params.map Prod.snd).zip vs) b

mutual
/-- The bodies handled: no variable other than the parameters, literals that fit the precision, no three-operand `=>`, no
operator without operands. -/
def Ok (c : Cfg) : Body → Prop
  | .param _ _ => True
  | .lit t => t.isConst = true ∧ Fit c t
  | .glob _ _ _ => False
  | .app k _ ts => (k = .implies → ts.length ≠ 3) ∧ (ts = [] → ∃ i, k = .uf i) ∧ OkL c ts
  | .call _ _ ts => OkL c ts
/-- all of a list -/
def OkL (c : Cfg) : List Body → Prop
  | [] => True
  | t :: ts => Ok c t ∧ OkL c ts
end

/-- The assignment in which a variable with an entry in `σ` has the value of that entry. -/
def upd (ρ : Env) (σ : List (String × Term)) : Env :=
  { ρ with var := fun vk s x => match σ.lookup x with
      | some t => val ρ t
      | none => ρ.var vk s x }

mutual
/-- the terms handled by substitution: literals that fit, no three-operand `=>`, no operator without operands -/
def OkT (c : Cfg) : Term → Prop
  | .app k _ ts => (k = .implies → ts.length ≠ 3) ∧ (ts = [] → ∃ i, k = .uf i) ∧ OkTL c ts
  | t => Fit c t
/-- all of a list -/
def OkTL (c : Cfg) : List Term → Prop
  | [] => True
  | t :: ts => OkT c t ∧ OkTL c ts
end

end SMT.Subst
