import Verif.Script.Props
import Verif.Parse.Viol

/-! # Scripts: an example and what goes wrong (C56, C57) -/

namespace SMT.Script
open SMT SMT.Text SMT.Lex SMT.Sorts SMT.Parse

set_option linter.unusedSimpArgs false
set_option linter.unusedVariables false

/-! ## A script that meets the hypotheses -/

/-- commands on lines of their own -/
def lines : List Sexp → List Char
  | [] => []
  | x :: xs => '\n' :: (flat x ++ lines xs)

/-- commands that are written one after the other -/
inductive WritesL : List Cmd → List Sexp → List Cmd → Prop where
  | nil {cs} : WritesL cs [] []
  | cons {cs x c xs ds} : plains x = true → Writes cs x c → WritesL (cs ++ [c]) xs ds → WritesL cs (x :: xs) (c :: ds)

theorem script_lines {file : Bool} {cs ds : List Cmd} {xs : List Sexp} (h : WritesL cs xs ds) : Script file cs (lines xs) ds := by
  induction h with
  | nil => exact .done (.inl .nil)
  | cons hp hw _ ih => exact .cmd (g := ['\n']) (.ws (.inr rfl) .nil) (lay_flat file (plains_toks hp)) hw ih

/-- a script with declarations, definitions, assertions, soft assertions and objectives -/
def exScript : List Sexp := [
  .list [w cs!"set-logic", w cs!"QF_LIA"],
  .list [w cs!"declare-sort", w cs!"U", w cs!"0"],
  .list [w cs!"define-sort", w cs!"M", .list [], .list [w cs!"Array", w cs!"Int", w cs!"U"]],
  .list [w cs!"declare-const", w cs!"x", w cs!"Int"],
  .list [w cs!"declare-fun", w cs!"f", .list [w cs!"Int", w cs!"M"], w cs!"Bool"],
  .list [w cs!"define-fun", w cs!"g", .list [.list [w cs!"a", w cs!"Int"]], w cs!"Int", .list [w cs!"+", w cs!"a", w cs!"x"]],
  .list [w cs!"assert", .list [w cs!"!", .list [w cs!"<", w cs!"x", w cs!"9"], w cs!":named", w cs!"n"], w cs!":id", w cs!"A", w cs!":named", w cs!"o"],
  .list [w cs!"assert-soft", .list [w cs!"<", w cs!"x", w cs!"3"], w cs!":weight", w cs!"0.5", w cs!":id", w cs!"B"],
  .list [w cs!"define-objective", w cs!"c", .list [w cs!"minimize", w cs!"x"]],
  .list [w cs!"maximize", w cs!":id", w cs!"G", .list [w cs!"+", w cs!"x", w cs!"1"], w cs!":comp", w cs!">="],
  .list [w cs!"lex-optimize", w cs!":id", w cs!"L", .list [w cs!"c"]],
  .list [w cs!"set-info", w cs!":status", .list [w cs!"a", w cs!"b"]],
  .list [w cs!"check-sat"]]

/-- `(+ a b)` -/
def bin (f a b : List Char) : T D := .mk (.app f 0) [s a, s b]

/-- its commands -/
def exCmds : List Cmd := [
  .logic cs!"QF_LIA",
  .sort cs!"U" (.named cs!"U"),
  .sort cs!"M" (.array .int (.named cs!"U")),
  .var cs!"x" .int,
  .fns [(cs!"f", .dec [.int, .array .int (.named cs!"U")] .bool)],
  .fns [(cs!"g", .defn [(cs!"a", .int)] .int (bin cs!"+" cs!"a" cs!"x"))],
  .assert (.mk (.named (some cs!"n")) [bin cs!"<" cs!"x" cs!"9"]) (some cs!"A") (some cs!"o"),
  .soft (bin cs!"<" cs!"x" cs!"3") (.real cs!"0.5") (some cs!"B"),
  .goal (some cs!"c") (.single .minimize none (s cs!"x") .lt none none),
  .goal none (.single .maximize (some cs!"G") (bin cs!"+" cs!"x" cs!"1") .ge none none),
  .goal none (.multi .lex (some cs!"L") [.single .minimize none (s cs!"x") .lt none none]),
  .nothing,
  .checkSat]

theorem ex_bin (decl : Decl) (f a b : List Char) (hf : f ∈ [cs!"+", cs!"<"]) : Term decl (.list [w f, w a, w b]) (bin f a b) := by
  simp only [List.mem_cons, List.not_mem_nil, or_false] at hf
  refine ⟨.app ?_ (.cons .sym (.cons .sym .nil)), ?_, fun _ h => by cases h⟩
  · rcases hf with rfl | rfl <;> decide
  · exact List.nodup_nil

theorem ex_writes : WritesL [] exScript exCmds := by
  refine .cons (by decide +kernel) (.logic (by decide)) ?_
  refine .cons (by decide +kernel) (.sort (by decide) (goodDecl (by decide) (by simp [sorts, Cmd.sorts, Over]))) ?_
  refine .cons (by decide +kernel) (.defSort (.array .int (.named (by simp [sorts, Cmd.sorts]))) (by decide)
    (goodDecl (decl := [(cs!"U", .named cs!"U"), (cs!"M", .array .int (.named cs!"U"))]) (by decide) (by simp [Over]))) ?_
  refine .cons (by decide +kernel) (.const .int (by simp [vars, Cmd.vars])) ?_
  refine .cons (by decide +kernel) (.func (ys := [w cs!"Int", w cs!"M"]) (.cons .int (.cons (.named (by simp [sorts, Cmd.sorts])) .nil))
    (by simp) .bool (by simp [functions, fnNames, Cmd.fn])) ?_
  refine .cons (by decide +kernel) (.defFun (ps := [.list [w cs!"a", w cs!"Int"]]) (vs := [(cs!"a", .int)]) (.cons .int .nil) (by decide) .int
    (ex_bin _ _ _ _ (by simp)) (by simp [functions, fnNames, Cmd.fn])) ?_
  refine .cons (by decide +kernel) (.assert (g1 := none) (g2 := some cs!"A") (a := some cs!"o")
    (x := .list [w cs!"!", .list [w cs!"<", w cs!"x", w cs!"9"], w cs!":named", w cs!"n"])
    ⟨.named (ex_bin _ _ _ _ (by simp)).reads, List.nodup_nil, fun _ h => by cases h⟩ (.inl rfl) (by simp)) ?_
  refine .cons (by decide +kernel) (.soft (as := []) (bs := [(cs!":weight", cs!"0.5"), (cs!":id", cs!"B")]) (ex_bin _ _ _ _ (by simp))
    (by decide) (by decide) (by decide) (.real (m := []) (ds := cs!"0") (es := cs!"5") (.inl rfl) ⟨by decide, by decide⟩ ⟨by decide, by decide⟩)) ?_
  refine .cons (by decide +kernel) (.define (xs := [w cs!"minimize", w cs!"x"]) (.mk (as := []) (bs := []) .min
    ⟨.sym, List.nodup_nil, fun a h => by cases h; decide⟩ (by decide) (by decide) (by decide) (.usual (by decide))) (by simp [defined, Cmd.defined])) ?_
  refine .cons (by decide +kernel) (.goal (.mk (as := [(cs!":id", cs!"G")]) (bs := [(cs!":comp", cs!">=")]) .max
    (ex_bin _ _ _ _ (by simp)) (by decide) (by decide) (by decide) (.given (c := .ge) (by decide)))) ?_
  refine .cons (by decide +kernel) (.multi (i := some cs!"L") (ns := [cs!"c"]) .lex rfl) ?_
  refine .cons (by decide +kernel) (.nothing (by decide)) ?_
  exact .cons (by decide +kernel) .checkSat .nil

/-- the script is accepted and recorded, from a file and from a text -/
example (pres : Bool) : ∃ (s : S) (k : Nat), Represents exCmds s ∧ ∀ m, k ≤ m → parseFile pres m fresh (lines exScript) = .ok s :=
  file_recorded_partial pres (script_lines ex_writes)
example (pres : Bool) : ∃ (s : S) (k : Nat), Represents exCmds s ∧ ∀ m, k ≤ m → parseStr ⟨false, pres⟩ m fresh (lines exScript) = .ok s :=
  str_recorded_partial pres (by simp [exScript, lines]) (script_lines ex_writes)

/-! ## What goes wrong -/

/-- the verdict of a script -/
inductive Verdict where
  | ok (rest : List Char) | throw | abort | ub | diverge
  deriving DecidableEq

/-- read a script, with lets kept -/
def after (text : List Char) : Res S := parseStr ⟨false, true⟩ 90 fresh text

/-- its verdict -/
def judge (text : List Char) : Verdict :=
  match after text with
  | .ok s => .ok s.p.lex.rest
  | .throw => .throw
  | .abort => .abort
  | .ub => .ub
  | .diverge => .diverge

/-- something of what was recorded -/
def seen {α : Type} (f : S → α) (text : List Char) : Option α :=
  match after text with
  | .ok s => some (f s)
  | _ => none

/-- the text of a tree of symbols -/
def shape : T Srt → List Char
  | .mk (.sym a _) _ => a
  | _ => cs!"term"

/-- **C56 is violated: commands of the standard that end the process.**  `check-sat-assuming` (its list is left open), the definition of a
function that is declared or recursive, `define-funs-rec` and `define-const` likewise; logics of the standard or in common use; data
types; a parameter used in `define-sort`; `set-logic` with an attribute behind it. -/
theorem commands_abort_violated :
    judge cs!"(check-sat-assuming ())" = .abort ∧
    judge cs!"(check-sat-assuming (p))" = .abort ∧
    judge cs!"(declare-fun f (Int) Int)(define-fun f ((x Int)) Int x)" = .abort ∧
    judge cs!"(define-fun-rec f ((x Int)) Int x)(define-fun-rec f ((x Int)) Int x)" = .abort ∧
    judge cs!"(define-funs-rec ((f ((x Int)) Int)) (x))(define-funs-rec ((f ((x Int)) Int)) (x))" = .abort ∧
    judge cs!"(declare-fun f (Int) Int)(define-const f Int 1)" = .abort ∧
    judge cs!"(set-logic UF)" = .abort ∧ judge cs!"(set-logic QF_UFNIRA)" = .abort ∧ judge cs!"(set-logic BV)" = .abort ∧
    judge cs!"(set-logic NIA)" = .abort ∧ judge cs!"(set-logic AUFDTLIA)" = .abort ∧
    judge cs!"(declare-datatypes ((L 0)) (((nil))))" = .abort ∧
    judge cs!"(define-sort A (T) (Array Int T))" = .abort ∧
    judge cs!"(set-logic QF_LIA :note)" = .abort := by decide +kernel

/-- **C56 is violated**: the empty text reads a null pointer. -/
theorem empty_text_violated : judge [] = .ub := by decide +kernel

/-- **C56 is violated: what is accepted and not recorded.**  The name in `(assert e :named n)`, the name and the group in
`(assert e :named n :id g)`; the second of two groups; a variable that is declared again with another sort keeps the first one; `push`,
`pop`, `reset` and `reset-assertions` have no effect. -/
theorem commands_lost_violated :
    seen (fun s => (s.named.map (fun x => x.1), s.groups)) cs!"(assert p :named n)" = some ([], []) ∧
    seen (fun s => (s.named.map (fun x => x.1), s.groups)) cs!"(assert p :named n :id g)" = some ([], []) ∧
    seen (fun s => (s.named.map (fun x => x.1), s.groups)) cs!"(assert p :id g :named n)" = some ([cs!"n"], [(cs!"g", [0])]) ∧
    seen (fun s => s.vars.map fun v => (v.1, sortOf v.2)) cs!"(declare-const x Int)(declare-const x Bool)" = some [(cs!"x", some .int)] ∧
    seen (fun s => s.asserts.map shape) cs!"(push 1)(assert p)(pop 1)(assert q)" = some [cs!"p", cs!"q"] ∧
    seen (fun s => s.asserts.map shape) cs!"(assert p)(reset-assertions)(assert q)" = some [cs!"p", cs!"q"] ∧
    seen (fun s => (s.asserts.map shape, s.vars.length)) cs!"(declare-const x Int)(assert p)(reset)" = some ([cs!"p"], 1) := by
  refine ⟨?_, ?_, ?_, ?_, ?_, ?_, ?_⟩ <;> decide +kernel

/-- **C57 is violated: objectives.**  `(maxsat)`, `(maxsat :id g)` and `(optimize :opt_kind lex (o))` end the process; the group behind the
list of `lex-optimize` and the group of `define-objective` are lost; an unknown name becomes a null objective, and it stays null when the
objective is defined later; `optimize` records nothing. -/
theorem objectives_violated :
    judge cs!"(maxsat)" = .abort ∧ judge cs!"(maxsat :id g)" = .abort ∧
    judge cs!"(define-objective o (minimize x))(optimize :opt_kind lex (o))" = .abort ∧
    seen (fun s => s.objs.map fun | .multi _ g _ => g | .single _ g _ _ _ _ => g) cs!"(define-objective o (minimize x))(lex-optimize (o) :id g)" =
      some [[], []] ∧
    seen (fun s => s.objs.map fun | .multi _ g _ => g | .single _ g _ _ _ _ => g) cs!"(define-objective o :id g (minimize x))" = some [[]] ∧
    seen (fun s => s.objMap.map fun x => (x.1, x.2.isSome)) cs!"(lex-optimize (o))(define-objective o (minimize x))" = some [(cs!"o", false)] ∧
    seen (fun s => s.objs.length) cs!"(define-objective o (minimize x))(optimize (o))" = some 1 := by decide +kernel

/-- **C57 is violated**: in logics with bit-vectors other than `QF_BV`, `QF_ABV`, `QF_AUFBV` and those with floating-point numbers, an
objective is compared with `<` on numbers; with bit-vectors and floating-point numbers always on bit-vectors, and with bit-vectors, arrays,
floating-point and real numbers always on floating-point numbers. -/
theorem comparison_violated :
    defaultComp cs!"QF_UFBV" .minimize = .lt ∧ defaultComp cs!"ALL" .minimize = .lt ∧ defaultComp cs!"QF_BVFPLRA" .minimize = .bvult ∧
    defaultComp cs!"QF_FPLRA" .maximize = .fpgt ∧ compOf cs!"bvsmt" = .lt := by decide +kernel

end SMT.Script
