import Verif.Conv.Dnf
/-!
# Conjunctive normal form: extensions of an assignment, and the formulas handled
-/
namespace SMT

open Term

/-- the fresh variables `temp_n`, `temp_(n+1)`, ... -/
def isFresh (n : Nat) (vk : VK) (s : Srt) (x : String) : Prop :=
  vk = .temp ∧ s = .bool ∧ ∃ i, n ≤ i ∧ x = tempName i

/-- `ρ'` is an extension of `ρ`: the same everywhere except on the fresh variables, which it makes
Boolean. -/
structure Ext (n : Nat) (ρ ρ' : Env) : Prop where
  fn : ρ'.fn = ρ.fn
  lit : ρ'.lit = ρ.lit
  var : ∀ vk s x, ¬ isFresh n vk s x → ρ'.var vk s x = ρ.var vk s x
  bool : ∀ i, n ≤ i → ∃ b, ρ'.var .temp .bool (tempName i) = .b b

/-- no fresh variable occurs in the formula -/
def noFresh (n : Nat) (t : Term) : Prop := ∀ i, n ≤ i → tempVar i ∉ subs t

mutual
/-- A formula `toTseitinCNF` handles: `and`, `or`, `xor`, `ite`, `=` and `distinct` between formulas,
over constants, Boolean variables, their negations, and atoms for which `am` has an entry.  With
`nn = false` it may also contain `not` of any formula to which `not` applies (see `negBin`). -/
def tsIn (am : VMap) (nn : Bool) : Term → Bool
  | .tt => true
  | .ff => true
  | .var _ _ _ => true
  | .app .not _ ts => ts.all isVBool || (!nn && ts.all negBin)
  | .app .and _ ts => tsInL am nn ts
  | .app .or _ ts => tsInL am nn ts
  | .app .xor _ ts => !ts.isEmpty && tsInL am nn ts
  | .app .ite _ ts => tsInL am nn ts
  | .app .eq s ts =>
    if isAtom (.app .eq s ts) then (am.find (.app .eq s ts)).isSome
    else ts.all (fun t => t.sort == .bool) && tsInL am nn ts
  | .app .distinct s ts =>
    if isAtom (.app .distinct s ts) then (am.find (.app .distinct s ts)).isSome
    else ts.all (fun t => t.sort == .bool) && tsInL am nn ts
  | .app .le s ts => (am.find (.app .le s ts)).isSome
  | .app .lt s ts => (am.find (.app .lt s ts)).isSome
  | .app .ge s ts => (am.find (.app .ge s ts)).isSome
  | .app .gt s ts => (am.find (.app .gt s ts)).isSome
  | .app (.atom i) s ts => (am.find (.app (.atom i) s ts)).isSome
  | .app (.uf i) s ts => s == .bool && (am.find (.app (.uf i) s ts)).isSome
  | _ => false
/-- every formula of the list -/
def tsInL (am : VMap) (nn : Bool) : List Term → Bool
  | [] => true
  | t :: ts => tsIn am nn t && tsInL am nn ts
end

/-- the entries of the atom map are literals over old variables that mean the same as their atoms -/
def MapOK (n : Nat) (ρ : Env) (am : VMap) : Prop :=
  ∀ k v, am.find k = some v → isLit v = true ∧ noFresh n v ∧ IsB ρ v ∧ bval ρ v = bval ρ k

end SMT
