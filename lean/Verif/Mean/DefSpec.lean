import Verif.Mean.EvalSpec

/-!
# C82: specification

A defined function counts as a function of the signature; what makes it a definition is that the assignment gives it the value of its body.
-/

namespace SMT.Mean
open SMT SMT.Text SMT.Sorts SMT.Parse SMT.Term

/-- the functions of a script, in the order of their commands: declared, or defined with parameters, sort and body -/
abbrev Functions := List (List Char × Script.Fn D)

/-- the name, the sorts of the parameters and the sort of a function -/
def sigFn (f : List Char × Script.Fn D) : List Char × List D × D :=
  match f.2 with
  | .dec ps o => (f.1, ps, o)
  | .defn ps o _ => (f.1, ps.map fun p => p.2, o)
  | .recu ps o _ => (f.1, ps.map fun p => p.2, o)

/-- the constants and functions of a script, defined functions among them -/
def sigAll (cs : List Script.Cmd) : Sig := ⟨Script.vars cs, (Script.functions cs).map sigFn⟩

/-- the assignment in which the parameters, as constants, have the values of the arguments -/
def withArgs (ρ : Env) (ps : List (List Char × D)) (vs : List Val) : Env :=
  { ρ with var := fun vk σ x => if vk = .var then (((ps.map fun p => String.ofList p.1).zip vs).lookup x).getD (ρ.var vk σ x) else ρ.var vk σ x }

/-- **The assignment follows the definitions**: a value that it gives a defined function is the value of the body, read as a term in which the
parameters and the functions before are known, where the parameters have the values of the arguments.  (Bodies in which declared constants
occur are not covered: calls of such functions end the process, `applyFun_global_violated`.) -/
def Defines (ρ : Env) (fs : Functions) : Prop :=
  ∀ i f ps o b, fs[i]? = some (f, .defn ps o b) → ∀ σ vs v, SortIs o σ → vs.length = ps.length → ρ.fn (.uf i) σ vs = some v →
    Means (withArgs ρ ps vs) ⟨ps, (fs.take i).map sigFn⟩ [] b v

/-- the assignment without what it says of defined functions -/
def forget (fs : Functions) (ρ : Env) : Env :=
  { ρ with fn := fun k σ vs => match k with
    | .uf i => match fs[i]? with
      | some (_, .dec _ _) => ρ.fn (.uf i) σ vs
      | _ => none
    | k => ρ.fn k σ vs }

/-- The definitions of the theorem: not recursive, parameters with different names which are not names of functions before, and bodies like the terms
of `mkExpr_evaluates_partial`. -/
structure DefsOk (arith reals : Bool) (fs : Functions) : Prop where
  noRec : ∀ f ps o b, (f, Script.Fn.recu ps o b) ∉ fs
  once : ∀ f ps o b, (f, Script.Fn.defn ps o b) ∈ fs → (ps.map fun p => p.1).Nodup
  apart : ∀ (i : Nat) f ps o b, fs[i]? = some (f, Script.Fn.defn ps o b) → ∀ g ∈ fs.take i, ∀ p ∈ ps, g.1 ≠ p.1
  lets : ∀ (i : Nat) f ps o b, fs[i]? = some (f, Script.Fn.defn ps o b) → LetsOk ⟨ps, (fs.take i).map sigFn⟩ b
  fits : ∀ (i : Nat) f ps o b, fs[i]? = some (f, Script.Fn.defn ps o b) → Fits ⟨ps, (fs.take i).map sigFn⟩ arith reals b
  evals : ∀ (i : Nat) f ps o b, fs[i]? = some (f, Script.Fn.defn ps o b) → Evals ⟨ps, (fs.take i).map sigFn⟩ reals true b

/-- The bodies have values: each for some assignment that follows the definitions before, and some arguments. -/
def Meaningful (fs : Functions) : Prop :=
  ∀ (i : Nat) f ps o b, fs[i]? = some (f, Script.Fn.defn ps o b) → ∃ ρ vs v, Defines ρ (fs.take i) ∧ vs.length = ps.length ∧
    Means (withArgs ρ ps vs) ⟨ps, (fs.take i).map sigFn⟩ [] b v

/-- What is claimed of the node `n` of the term `e`, in every assignment that follows the definitions: its value is the one that is written, also
if the defined functions are forgotten, so that none is left in the node; and evaluated in a model that the assignment follows it keeps this value. -/
def DefNode (reals : Bool) (G : Sig) (fs : Functions) (c : SMT.Cfg) (o : Eval.Opt) (e : T D) (n : SMT.Term) : Prop :=
  ∀ ρ v, Defines ρ fs → Means ρ G [] e v → eval (forget fs ρ) n = some v ∧
    ∀ m : Mdl.M, (∀ x, Eval.Std reals (Mdl.get m x) = true) → Follows G ρ m → eval ρ (Eval.evaluate c o m n) = some v

/-- no constant of the language is declared, neither as it is nor in bars -/
def VarsOk (vars : List (List Char × D)) : Prop :=
  ∀ s, IsConst s → vars.lookup s = none ∧ vars.lookup ('|' :: s ++ ['|']) = none

end SMT.Mean
