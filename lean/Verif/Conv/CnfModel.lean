import Verif.Conv.Replace
import Verif.Conv.CnfSpec
/-!
# `toCNF` (model)
-/
namespace SMT

open Term

mutual
/-- `collectAtoms` (`src/conv_parser.cpp:45-60`) as the list of atoms in order of discovery;
`visited` only avoids finding the same atom again. -/
def collectAtoms : Term → List Term
  | .app k s ts => if isAtom (.app k s ts) then [.app k s ts] else collectAtomsL ts
  | t => if isAtom t then [t] else []
/-- in a list -/
def collectAtomsL : List Term → List Term
  | [] => []
  | t :: ts => collectAtoms t ++ collectAtomsL ts
end

/-- what the loop over the atoms builds: the temporaries counter, `cnf_map` (newest entry first) and
`cnf_atom_map` -/
structure AMap where
  n : Nat
  map : VMap
  ties : List (Term × Term)

/-- The loop over the atoms (`src/conv_parser.cpp:917-935`); the order is that of a hash set, so any
list can be given. -/
def atomMap (c : Cfg) : List Term → AMap → AMap
  | [], m => m
  | a :: as, m =>
    let x := tempVar m.n
    atomMap c as ⟨m.n + 1, (mkNot c a, mkNot c x) :: (a, x) :: m.map,
      (mkNot c x, mkNot c a) :: (x, a) :: m.ties⟩

/-- the result of `toCNF`: the formula, the first temporary that stands for a subformula, and the
meaning of the temporaries that stand for atoms -/
structure CnfRes where
  cnf : Term
  n : Nat
  ties : List (Term × Term)

/-- `toCNF(expr)` (`src/conv_parser.cpp:890-974`) on a parser whose `cnf_map` is empty and whose next
temporary is `temp_n`; `ord` is the iteration order of the hash set of atoms.  `let` is expanded
before (line 896). -/
def toCNF (c : Cfg) (ord : List Term → List Term) (n : Nat) (t : Term) : CnfRes :=
  let e := toNNF c t
  let m := atomMap c (ord (collectAtoms e)) ⟨n, [], []⟩
  let e' := if m.map.isEmpty then e else replaceAtoms c m.map e
  if isCNF e then ⟨e', m.n, m.ties⟩
  else
    let p := tseitin c m.map e' ⟨m.n, [], []⟩
    let cls := p.2.cls.reverse ++ [p.1]
    ⟨if cls.length = 1 then cls.headD .unknown else mkAnd c cls, m.n, m.ties⟩

/-! ### the formulas handled -/

mutual
/-- A formula without `=>`: `not`, `and`, `or`, `xor`, `ite`, `=` and `distinct` between formulas, over
constants, variables and atoms satisfying `p`. -/
def xIn (p : Term → Bool) : Term → Bool
  | .tt => true
  | .ff => true
  | .var _ _ _ => true
  | .app .not _ ts => xInL p ts
  | .app .and _ ts => xInL p ts
  | .app .or _ ts => xInL p ts
  | .app .xor _ ts => !ts.isEmpty && xInL p ts
  | .app .ite _ ts => xInL p ts
  | .app .eq s ts => (atomIn (.app .eq s ts) && p (.app .eq s ts)) ||
      (ts.all (fun t => t.sort == .bool) && xInL p ts)
  | .app .distinct s ts => (atomIn (.app .distinct s ts) && p (.app .distinct s ts)) ||
      (ts.all (fun t => t.sort == .bool) && xInL p ts)
  | t => atomIn t && p t
/-- every formula of the list -/
def xInL (p : Term → Bool) : List Term → Bool
  | [] => true
  | t :: ts => xIn p t && xInL p ts
end

mutual
/-- A formula `toCNF` handles: like `xIn`, and on the Boolean skeleton above any `xor`, `=` or
`distinct` also two-operand `=>` (below them `=>` is converted wrongly, see
`toCNF_implies_violated`). -/
def cnfIn : Term → Bool
  | .app .not _ ts => cnfInL ts
  | .app .and _ ts => cnfInL ts
  | .app .or _ ts => cnfInL ts
  | .app .ite _ ts => cnfInL ts
  | .app .implies _ ts => ts.length == 2 && cnfInL ts
  | t => xIn (fun _ => true) t
/-- every formula of the list -/
def cnfInL : List Term → Bool
  | [] => true
  | t :: ts => cnfIn t && cnfInL ts
end

end SMT
