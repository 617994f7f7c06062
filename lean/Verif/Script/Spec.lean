import Verif.Script.Model
import Verif.Parse.Spec

/-!
# Specification of scripts (C56, C57)

A script is a text (`Script`): commands with gaps between them.  Each command is an S-expression that writes a `Cmd` (`Writes`), which
depends on the commands before it only through the names they declare.  `Represents cs s`: the parser `s` has recorded the commands `cs`.
-/

namespace SMT.Script
open SMT SMT.Text SMT.Lex SMT.Sorts SMT.Parse

/-- an objective: what is to be optimised, and how values are compared -/
inductive Goal where
  | single (k : OptKind) (grp : Option (List Char)) (e : T D) (comp : Comp) (eps M : Option (List Char))
  | multi (k : OptKind) (grp : Option (List Char)) (subs : List Goal)

/-- what a command means -/
inductive Cmd where
  | assert (e : T D) (grp name : Option (List Char))
  | soft (e : T D) (w : Weight) (grp : Option (List Char))
  | var (n : List Char) (d : D)
  | fns (fs : List (List Char × Fn D))
  | sort (n : List Char) (d : D)
  | goal (name : Option (List Char)) (g : Goal)
  | logic (l : List Char)
  | checkSat | getModel | getObjectives
  | nothing

/-! ## What a list of commands says -/

def Cmd.assertion : Cmd → Option (T D × Option (List Char) × Option (List Char))
  | .assert e g a => some (e, g, a)
  | _ => none
def Cmd.softs : Cmd → Option (T D × Weight × Option (List Char))
  | .soft e w g => some (e, w, g)
  | _ => none
def Cmd.vars : Cmd → Option (List Char × D)
  | .var n d => some (n, d)
  | _ => none
def Cmd.fn : Cmd → List (List Char × Fn D)
  | .fns fs => fs
  | _ => []
def Cmd.sorts : Cmd → Option (List Char × D)
  | .sort n d => some (n, d)
  | _ => none
def Cmd.goals : Cmd → Option Goal
  | .goal _ g => some g
  | _ => none
def Cmd.defined : Cmd → Option (List Char × Goal)
  | .goal (some n) g => some (n, g)
  | _ => none
def Cmd.logics : Cmd → Option (List Char)
  | .logic l => some l
  | _ => none
def Cmd.isCheckSat : Cmd → Bool
  | .checkSat => true
  | _ => false
def Cmd.isGetModel : Cmd → Bool
  | .getModel => true
  | _ => false
def Cmd.isGetObjectives : Cmd → Bool
  | .getObjectives => true
  | _ => false
/-- the body of a function -/
def Fn.body {σ : Type} : Fn σ → List (T σ)
  | .dec _ _ => []
  | .defn _ _ b => [b]
  | .recu _ _ b => [b]
/-- the names that a command gives to expressions, inside of them (`namings`) and to an assertion as a whole -/
def Cmd.marks : Cmd → List (List Char × T D)
  | .assert e _ a => namings e ++ (a.map fun a => (a, e)).toList
  | .soft e _ _ => namings e
  | .fns fs => namingsL (fs.flatMap fun f => f.2.body)
  | .goal _ (.single _ _ e _ _ _) => namings e
  | _ => []

/-- the assertions, with their groups and names -/
def assertions (cs : List Cmd) := cs.filterMap Cmd.assertion
/-- the soft assertions, with their weights and groups -/
def softs (cs : List Cmd) := cs.filterMap Cmd.softs
/-- the variables and their sorts -/
def vars (cs : List Cmd) := cs.filterMap Cmd.vars
/-- the functions -/
def functions (cs : List Cmd) := cs.flatMap Cmd.fn
/-- the sorts -/
def sorts (cs : List Cmd) : Decl := cs.filterMap Cmd.sorts
/-- the objectives, also those that are given a name -/
def goals (cs : List Cmd) := cs.filterMap Cmd.goals
/-- the objectives with names -/
def defined (cs : List Cmd) := cs.filterMap Cmd.defined
/-- the names given to expressions, in their order -/
def marks (cs : List Cmd) := cs.flatMap Cmd.marks
/-- the logic: the last one that was set -/
def logicOf (cs : List Cmd) : List Char := ((cs.filterMap Cmd.logics).getLast?).getD cs!"UNKNOWN_LOGIC"

/-! ## How commands are written -/

/-- an attribute that may be missing -/
def opt (key : List Char) : Option (List Char) → List Sexp
  | none => []
  | some v => [.atom key, .atom v]

/-- attributes with their values -/
def attrs : List (List Char × List Char) → List Sexp
  | [] => []
  | (k, v) :: as => .atom k :: .atom v :: attrs as

/-- the value of an attribute: the last one counts -/
def last (key : List Char) (as : List (List Char × List Char)) : Option (List Char) := as.reverse.lookup key

/-- not a keyword -/
def NotKw (x : Sexp) : Prop := ∀ a, x = .atom a → a.head? ≠ some ':'

/-- the S-expression is the term; no name is bound by two lets -/
structure Term (decl : Decl) (x : Sexp) (e : T D) : Prop where
  reads : Reads decl false x e
  names : e.names.Nodup
  notKw : NotKw x

/-- a list of S-expressions is a list of sorts -/
inductive SortsOf (decl : Decl) : List Sexp → List D → Prop where
  | nil : SortsOf decl [] []
  | cons {x d xs ds} : SortOf decl x d → SortsOf decl xs ds → SortsOf decl (x :: xs) (d :: ds)

/-- digits -/
def Digs (ds : List Char) : Prop := ds ≠ [] ∧ ∀ c ∈ ds, c.isDigit = true

/-- the weight: a numeral or a decimal, perhaps with a minus sign; 1 if there is none -/
inductive WeightIs : Option (List Char) → Weight → Prop where
  | none : WeightIs none (.int ['1'])
  | int {m ds} : m = [] ∨ m = ['-'] → Digs ds → WeightIs (some (m ++ ds)) (.int (m ++ ds))
  | real {m ds es} : m = [] ∨ m = ['-'] → Digs ds → Digs es → WeightIs (some (m ++ (ds ++ '.' :: es))) (.real (m ++ (ds ++ '.' :: es)))

/-- the symbol of a comparison -/
def compName : Comp → List Char
  | .lt => cs!"<" | .le => cs!"<=" | .gt => cs!">" | .ge => cs!">="
  | .bvult => cs!"bvult" | .bvule => cs!"bvule" | .bvugt => cs!"bvugt" | .bvuge => cs!"bvuge"
  | .bvslt => cs!"bvslt" | .bvsle => cs!"bvsle" | .bvsgt => cs!"bvsgt" | .bvsge => cs!"bvsge"
  | .fplt => cs!"fp.lt" | .fple => cs!"fp.leq" | .fpgt => cs!"fp.gt" | .fpge => cs!"fp.geq" | .null => []

/-- logics with numbers and bit-vectors or floating-point numbers, or with the bit-vectors of a logic that is not known as such: there the
comparison must be written -/
def mixed : List (List Char) := [
  cs!"QF_AUFBVFP", cs!"QF_ABVFP", cs!"QF_BVFP", cs!"QF_BVFPLRA", cs!"QF_FPLRA", cs!"QF_ABVFPLRA", cs!"QF_UFBV", cs!"QF_UFBVDT",
  cs!"QF_UFFP", cs!"QF_UFFPDTNIRA"]

/-- the comparison that is meant when none is written -/
def usual (logic : List Char) (k : OptKind) : Option Comp :=
  let pick (a b : Comp) := some (if k = .minimize then a else b)
  if logic ∈ mixed then none
  else if logic ∈ [cs!"QF_BV", cs!"QF_ABV", cs!"QF_AUFBV"] then pick .bvult .bvugt
  else if logic = cs!"QF_FP" then pick .fplt .fpgt
  else pick .lt .gt

/-- the comparison of an objective -/
inductive CompIs (logic : List Char) (k : OptKind) : Option (List Char) → Comp → Prop where
  | given {c} : c ≠ .null → CompIs logic k (some (compName c)) c
  | usual {c} : usual logic k = some c → CompIs logic k none c

/-- `minimize`, `maximize` -/
inductive Single : List Char → OptKind → Prop where
  | min : Single cs!"minimize" .minimize
  | max : Single cs!"maximize" .maximize

/-- the commands for several objectives -/
inductive Multi : List Char → OptKind → Prop where
  | lex : Multi cs!"lex-optimize" .lex
  | pareto : Multi cs!"pareto-optimize" .pareto
  | box : Multi cs!"box-optimize" .box
  | minmax : Multi cs!"minmax" .minmax
  | maxmin : Multi cs!"maxmin" .maxmin

/-- `minimize :k v ... e :k v ...`: at most four attributes before the expression and four behind it -/
inductive GoalIs (cs : List Cmd) : List Sexp → Goal → Prop where
  | mk {h k x e as bs c} : Single h k → Term (sorts cs) x e → as.length ≤ 4 → bs.length ≤ 4 →
      (∀ a ∈ as ++ bs, a.1 ∈ [cs!":comp", cs!":epsilon", cs!":M", cs!":id"]) → CompIs (logicOf cs) k (last cs!":comp" (as ++ bs)) c →
      GoalIs cs (.atom h :: (attrs as ++ x :: attrs bs))
        (.single k (last cs!":id" (as ++ bs)) e c (last cs!":epsilon" (as ++ bs)) (last cs!":M" (as ++ bs)))

/-- the functions of `define-funs-rec` -/
inductive Recs (decl : Decl) : List Sexp → List Sexp → List (List Char × Fn D) → Prop where
  | nil : Recs decl [] [] []
  | cons {n ps vs y d x e hs bs fs} : Vars decl ps vs → SortOf decl y d → Term decl x e → Recs decl hs bs fs →
      Recs decl (.list [.atom n, .list ps, y] :: hs) (x :: bs) ((n, .recu vs d e) :: fs)

/-- the names of the functions -/
def fnNames (fs : List (List Char × Fn D)) : List (List Char) := fs.map fun f => f.1

/-- the logics -/
def knownLogics : List (List Char) := [
  -- the logics of the SMT-LIB standard
  cs!"AUFLIA", cs!"AUFLIRA", cs!"AUFNIRA", cs!"LIA", cs!"LRA", cs!"QF_ABV", cs!"QF_AUFBV", cs!"QF_AUFLIA", cs!"QF_AX", cs!"QF_BV",
  cs!"QF_IDL", cs!"QF_LIA", cs!"QF_LRA", cs!"QF_NIA", cs!"QF_NRA", cs!"QF_RDL", cs!"QF_UF", cs!"QF_UFBV", cs!"QF_UFIDL", cs!"QF_UFLIA",
  cs!"QF_UFLRA", cs!"QF_UFNRA", cs!"UFLRA", cs!"UFNIA",
  -- others
  cs!"ALL", cs!"QF_LIRA", cs!"QF_NIRA", cs!"QF_UFNIA", cs!"QF_FP", cs!"QF_BVFP", cs!"QF_ABVFP", cs!"QF_FPLRA", cs!"QF_S", cs!"QF_SLIA",
  cs!"QF_DT", cs!"QF_ALIA", cs!"QF_ANIA", cs!"QF_AUFNIA"]

/-- commands that only ask for output or set options -/
def harmless : List (List Char) := [
  cs!"echo", cs!"get-assertions", cs!"get-assignment", cs!"get-info", cs!"get-option", cs!"get-proof", cs!"get-unsat-assumptions",
  cs!"get-unsat-core", cs!"get-value", cs!"set-info", cs!"set-option"]

/-- after the commands `cs`, the S-expression writes the command -/
inductive Writes (cs : List Cmd) : Sexp → Cmd → Prop where
  /-- `(assert :id g e)`, `(assert e :id g)`, `(assert e :id g :named a)` -/
  | assert {x e g1 g2 a} : Term (sorts cs) x e → g1 = none ∨ g2 = none → a = none ∨ g1 ≠ none ∨ g2 ≠ none →
      Writes cs (.list (.atom cs!"assert" :: (opt cs!":id" g1 ++ x :: (opt cs!":id" g2 ++ opt cs!":named" a)))) (.assert e (g1.or g2) a)
  /-- `(assert-soft e :weight w :id g)`: at most two attributes before the expression and two behind it -/
  | soft {x e as bs w} : Term (sorts cs) x e → as.length ≤ 2 → bs.length ≤ 2 → (∀ a ∈ as ++ bs, a.1 ∈ [cs!":id", cs!":weight"]) →
      WeightIs (last cs!":weight" (as ++ bs)) w →
      Writes cs (.list (.atom cs!"assert-soft" :: (attrs as ++ x :: attrs bs))) (.soft e w (last cs!":id" (as ++ bs)))
  /-- `(declare-const n S)` -/
  | const {n y d} : SortOf (sorts cs) y d → (∀ v ∈ vars cs, v.1 ≠ n) → Writes cs (.list [.atom cs!"declare-const", .atom n, y]) (.var n d)
  /-- `(declare-fun n () S)` -/
  | fun0 {n y d} : SortOf (sorts cs) y d → (∀ v ∈ vars cs, v.1 ≠ n) →
      Writes cs (.list [.atom cs!"declare-fun", .atom n, .list [], y]) (.var n d)
  /-- `(declare-fun n (S1 ... Sk) S)` -/
  | func {n ys ds y d} : SortsOf (sorts cs) ys ds → ys ≠ [] → SortOf (sorts cs) y d → n ∉ fnNames (functions cs) →
      Writes cs (.list [.atom cs!"declare-fun", .atom n, .list ys, y]) (.fns [(n, .dec ds d)])
  /-- `(declare-sort n 0)` -/
  | sort {n} : n ∉ declNames (sorts cs) → GoodDecl (sorts cs ++ [(n, .named n)]) →
      Writes cs (.list [.atom cs!"declare-sort", .atom n, .atom cs!"0"]) (.sort n (.named n))
  /-- `(define-sort n () S)` -/
  | defSort {n y d} : SortOf (sorts cs) y d → n ∉ declNames (sorts cs) → GoodDecl (sorts cs ++ [(n, d)]) →
      Writes cs (.list [.atom cs!"define-sort", .atom n, .list [], y]) (.sort n d)
  /-- `(define-const n S e)` -/
  | defConst {n y d x e} : SortOf (sorts cs) y d → Term (sorts cs) x e → n ∉ fnNames (functions cs) →
      Writes cs (.list [.atom cs!"define-const", .atom n, y, x]) (.fns [(n, .defn [] d e)])
  /-- `(define-fun n ((x S) ...) S e)` -/
  | defFun {n ps vs y d x e} : Vars (sorts cs) ps vs → (vs.map fun v => v.1).Nodup → SortOf (sorts cs) y d → Term (sorts cs) x e →
      n ∉ fnNames (functions cs) → Writes cs (.list [.atom cs!"define-fun", .atom n, .list ps, y, x]) (.fns [(n, .defn vs d e)])
  /-- `(define-fun-rec n ((x S) ...) S e)` -/
  | defRec {n ps vs y d x e} : Vars (sorts cs) ps vs → (vs.map fun v => v.1).Nodup → SortOf (sorts cs) y d → Term (sorts cs) x e →
      n ∉ fnNames (functions cs) → Writes cs (.list [.atom cs!"define-fun-rec", .atom n, .list ps, y, x]) (.fns [(n, .recu vs d e)])
  /-- `(define-funs-rec ((n ((x S) ...) S) ...) (e ...))` -/
  | defRecs {hs bs fs} : Recs (sorts cs) hs bs fs → (fnNames fs).Nodup → (∀ n ∈ fnNames fs, n ∉ fnNames (functions cs)) →
      Writes cs (.list [.atom cs!"define-funs-rec", .list hs, .list bs]) (.fns fs)
  /-- `(set-logic l)` -/
  | logic {l} : l ∈ knownLogics → Writes cs (.list [.atom cs!"set-logic", .atom l]) (.logic l)
  | checkSat : Writes cs (.list [.atom cs!"check-sat"]) .checkSat
  | getModel : Writes cs (.list [.atom cs!"get-model"]) .getModel
  | getObjectives : Writes cs (.list [.atom cs!"get-objectives"]) .getObjectives
  /-- a command without an effect, with any arguments -/
  | nothing {h xs} : h ∈ harmless → Writes cs (.list (.atom h :: xs)) .nothing
  /-- `(minimize e)`, `(maximize e)` -/
  | goal {xs g} : GoalIs cs xs g → Writes cs (.list xs) (.goal none g)
  /-- `(define-objective n (minimize e))` -/
  | define {n xs g} : GoalIs cs xs g → (∀ o ∈ defined cs, o.1 ≠ n) →
      Writes cs (.list [.atom cs!"define-objective", .atom n, .list xs]) (.goal (some n) g)
  /-- `(lex-optimize :id g (n1 ... nk))` -/
  | multi {h k i} {ns : List (List Char)} {gs} : Multi h k → ns.map (fun n => (defined cs).lookup n) = gs.map some →
      Writes cs (.list (.atom h :: (opt cs!":id" i ++ [.list (ns.map .atom)]))) (.goal none (.multi k i gs))

/-- the text is a script with the commands, after the commands `before` -/
inductive Script (file : Bool) : (before : List Cmd) → (text : List Char) → List Cmd → Prop where
  /-- nothing but a gap -/
  | done {cs g} : Gap g [] → Script file cs g []
  /-- a command and a script -/
  | cmd {cs c g x tx r ds} : Skip g → Lay file x tx → Writes cs x c → Script file (cs ++ [c]) r ds →
      Script file cs (g ++ (tx ++ r)) (c :: ds)
  /-- `(exit)` and any text -/
  | exit {cs g tx r} : Skip g → Lay file (.list [.atom cs!"exit"]) tx → Script file cs (g ++ (tx ++ r)) []

/-! ## What the parser has recorded -/

/-- the sorts replaced -/
def Fn.map {σ τ : Type} (f : σ → τ) : Fn σ → Fn τ
  | .dec ps o => .dec (ps.map f) (f o)
  | .defn ps o b => .defn (ps.map fun v => (v.1, f v.2)) (f o) (b.map f)
  | .recu ps o b => .recu (ps.map fun v => (v.1, f v.2)) (f o) (b.map f)

mutual
/-- the objective is the goal; of `:epsilon` and `:M` only their presence is recorded -/
inductive IsObj : Obj Srt → Goal → Prop where
  | single {t e k g c eps M} : Same t e → IsObj (.single k (g.getD []) (some t) c eps.isSome M.isSome) (.single k g e c eps M)
  | multi {k g os gs} : IsObjs os gs → IsObj (.multi k (g.getD []) os) (.multi k g gs)
/-- the same for lists -/
inductive IsObjs : List (Option (Obj Srt)) → List Goal → Prop where
  | nil : IsObjs [] []
  | cons {o g os gs} : IsObj o g → IsObjs os gs → IsObjs (some o :: os) (g :: gs)
end

/-- the parser has recorded the commands -/
structure Represents (cs : List Cmd) (s : S) : Prop where
  asserts : s.asserts.map (T.map sortOf) = (assertions cs).map fun a => a.1.map some
  /-- assertion number `i` is in the group `g` -/
  groups : ∀ g i, (∃ is, s.groups.lookup g = some is ∧ i ∈ is) ↔ ∃ e a, (assertions cs)[i]? = some (e, some g, a)
  /-- the name given last comes first -/
  named : s.named.map (fun x => (x.1, x.2.map sortOf)) = (marks cs).reverse.map fun x => (x.1, x.2.map some)
  assumptions : s.assumptions = []
  soft : s.soft.map (T.map sortOf) = (softs cs).map fun a => a.1.map some
  weights : s.weights = (softs cs).map fun a => a.2.1
  softGroups : ∀ g i, (∃ is, s.softGroups.lookup g = some is ∧ i ∈ is) ↔ ∃ e w, (softs cs)[i]? = some (e, w, some g)
  vars : s.vars.map (fun v => (v.1, sortOf v.2)) = (vars cs).map fun v => (v.1, some v.2)
  funs : s.funs.map (fun f => (f.1, f.2.map sortOf)) = (functions cs).map fun f => (f.1, f.2.map some)
  fnames : s.fnames = fnNames (functions cs)
  objs : IsObjs (s.objs.map some) (goals cs)
  /-- the objectives with names -/
  objNames : s.objMap.map (fun o => o.1) = (defined cs).map fun o => o.1
  objMap : ∀ n g, (defined cs).lookup n = some g → ∃ o, s.objMap.lookup n = some (some o) ∧ IsObj o g
  checkSat : s.checkSat = cs.any Cmd.isCheckSat
  getModel : s.getModel = cs.any Cmd.isGetModel
  getObjectives : s.getObjectives = cs.any Cmd.isGetObjectives
  logic : s.logic = logicOf cs

/-- the parser is between two commands: it knows the sorts of `cs`, and no let is open -/
structure Clean (cfg : Cfg) (cs : List Cmd) (p : P) : Prop where
  good : GoodDecl (sorts cs)
  keys : Keys (sorts cs) p.keys
  depth : p.depth = 0
  ph : p.ph = false
  bound : cfg.pres = false → p.bound = []

end SMT.Script
