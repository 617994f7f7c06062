import Verif.Scope.Model

/-!
# Meaning of expressions as written (SMT-LIB scoping), and of nodes

`evalE` is the meaning of the text: an environment gives every name its value, a `let` evaluates all its bindings in the
surrounding environment, a binder hides outer bindings of the same name.  `evalR` is the meaning of a node.  Operators and
quantifiers are interpreted by an arbitrary structure.
-/

namespace SMT.Scope

/-- a structure: operators, and quantifiers as functionals over the sorts of the bound variables -/
structure Interp (V : Type) where
  op : String → List V → V
  quant : Bool → List Nat → (List V → V) → V
  /-- value used where a list of values is too short -/
  dflt : V

variable {V : Type}

/-- one name gets a new value -/
def set1 (ρ : String → V) (x : String) (v : V) : String → V := fun y => if y = x then v else ρ y

/-- several names get new values, one after the other -/
def setN (d : V) (ρ : String → V) : List String → List V → (String → V)
  | [], _ => ρ
  | x :: xs, [] => setN d (set1 ρ x d) xs []
  | x :: xs, v :: vs => setN d (set1 ρ x v) xs vs

mutual
/-- meaning of an expression in an environment -/
def evalE (I : Interp V) (ρ : String → V) : E → V
  | .sym x => ρ x
  | .app op args => I.op op (evalEs I ρ args)
  | .quant all bs body => I.quant all (bs.map Prod.snd) fun vs => evalE I (setN I.dflt ρ (bs.map Prod.fst) vs) body
  | .letE bs body => evalE I (evalB I ρ ρ bs) body
/-- meanings of arguments -/
def evalEs (I : Interp V) (ρ : String → V) : Es → List V
  | .nil => []
  | .cons e es => evalE I ρ e :: evalEs I ρ es
/-- the environment of a let body: `ρ` is the surrounding environment, in which every bound expression is evaluated -/
def evalB (I : Interp V) (ρ : String → V) (acc : String → V) : Bs → (String → V)
  | .nil => acc
  | .cons x e bs => evalB I ρ (set1 acc x (evalE I ρ e)) bs
end

/-- values of the names known before parsing -/
structure Glob (V : Type) where
  fn : String → V
  par : String → V
  glob : String → V

/-- the environment in which an expression is read: function parameters hide functions, functions hide nothing else -/
def Glob.env (g : Glob V) (c : Ctx) : String → V := fun x =>
  if x ∈ c.params then g.par x else if x ∈ c.funs then g.fn x else g.glob x

/-- quantified variables are named by name and sort -/
def setQ (d : V) (σ : String → Nat → V) : List (String × Nat) → List V → (String → Nat → V)
  | [], _ => σ
  | (x, s) :: xs, [] => setQ d (fun y t => if y = x ∧ t = s then d else σ y t) xs []
  | (x, s) :: xs, v :: vs => setQ d (fun y t => if y = x ∧ t = s then v else σ y t) xs vs

mutual
/-- meaning of a node: a let variable stands for its child, a let chain for its body -/
def evalR (I : Interp V) (g : Glob V) (σ : String → Nat → V) : R → V
  | .fn x => g.fn x
  | .par x => g.par x
  | .glob x => g.glob x
  | .qv x s => σ x s
  | .letv _ r => evalR I g σ r
  | .app op args => I.op op (evalRs I g σ args)
  | .quant all vs body => I.quant all (vs.map Prod.snd) fun vals => evalR I g (setQ I.dflt σ vs vals) body
  | .chain _ body => evalR I g σ body
/-- meanings of nodes -/
def evalRs (I : Interp V) (g : Glob V) (σ : String → Nat → V) : Rs → List V
  | .nil => []
  | .cons r rs => evalR I g σ r :: evalRs I g σ rs
end

/-! ## Which names an expression binds, and where -/

mutual
/-- names bound by a `let` anywhere in the expression -/
def lnames : E → List String
  | .sym _ => []
  | .app _ args => lnamesL args
  | .quant _ _ body => lnames body
  | .letE bs body => lnamesB bs ++ lnames body
/-- the same for arguments -/
def lnamesL : Es → List String
  | .nil => []
  | .cons e es => lnames e ++ lnamesL es
/-- the same for bindings, the bound names included -/
def lnamesB : Bs → List String
  | .nil => []
  | .cons x e bs => x :: (lnames e ++ lnamesB bs)
end

mutual
/-- names bound by a quantifier anywhere in the expression -/
def qnames : E → List String
  | .sym _ => []
  | .app _ args => qnamesL args
  | .quant _ bs body => bs.map Prod.fst ++ qnames body
  | .letE bs body => qnamesB bs ++ qnames body
/-- the same for arguments -/
def qnamesL : Es → List String
  | .nil => []
  | .cons e es => qnames e ++ qnamesL es
/-- the same for bindings -/
def qnamesB : Bs → List String
  | .nil => []
  | .cons _ e bs => qnames e ++ qnamesB bs
end

/-- the names bound by one `let` -/
def bnames : Bs → List String
  | .nil => []
  | .cons x _ bs => x :: bnames bs

/-- all names known before parsing -/
def Ctx.names (c : Ctx) : List String := c.funs ++ c.params ++ c.vars

mutual
/-- Every symbol is known or in scope (`Γ` lists the bound names in scope); the variables of a quantifier are pairwise
different and not in scope already; a `let` binds at least one name. -/
def Scoped (c : Ctx) (Γ : List String) : E → Prop
  | .sym x => x ∈ Γ ∨ x ∈ c.names
  | .app _ args => ScopedL c Γ args
  | .quant _ bs body => (bs.map Prod.fst).Nodup ∧ (∀ x ∈ bs.map Prod.fst, x ∉ Γ) ∧ Scoped c (bs.map Prod.fst ++ Γ) body
  | .letE bs body => bnames bs ≠ [] ∧ ScopedB c Γ bs ∧ Scoped c (bnames bs ++ Γ) body
/-- arguments -/
def ScopedL (c : Ctx) (Γ : List String) : Es → Prop
  | .nil => True
  | .cons e es => Scoped c Γ e ∧ ScopedL c Γ es
/-- bindings: all bound expressions are in the surrounding scope -/
def ScopedB (c : Ctx) (Γ : List String) : Bs → Prop
  | .nil => True
  | .cons _ e bs => Scoped c Γ e ∧ ScopedB c Γ bs
end

end SMT.Scope
