import Verif.Dump.Props
import Verif.Parse.RoundViol

/-! # Writing the problem: a worked case, and what cannot be read back (C67) -/

namespace SMT.Dump
open SMT SMT.Text SMT.Lex SMT.Kinds SMT.Sorts SMT.Print SMT.Parse SMT.Script

set_option linter.unusedSimpArgs false
set_option linter.unusedVariables false

/-! ## A worked case -/

/-- constructors that only build nodes: `f` is a declared function, `h` a recursive one -/
def fam : Family := fun known opened =>
  { plainCtors with
    isFun := fun n => n == cs!"f" && known.contains n || n == cs!"h" && (known.contains n || opened == some n)
    apply := fun n cs =>
      if n = cs!"h" ∧ opened = none then .ok (.mk .FUNC_REC_APPLY n INT_SORT (.mk .NULL [] NULL_SORT [] :: cs)) else .ok (.mk .UF_APPLY n INT_SORT cs)
    leaf := fun sc n _ =>
      match sc.lookup n with
      | some (.var s) => .ok (.mk .FUNC_PARAM n (srtOf s) [])
      | some (.val v) => .ok v
      | none => if n.all Char.isDigit then .ok (.mk .CONST n INT_SORT []) else if n = cs!"u" then .ok (.mk .VAR n (decSort cs!"U" 0) []) else
          .ok (.mk .VAR n INT_SORT []) }

theorem fam_lawful (known : List (List Char)) (opened : Option (List Char)) : Lawful (fam known opened) where
  noFun := by
    intro k
    have h1 : (kindName k == cs!"f") = false := by cases k <;> decide +kernel
    have h2 : (kindName k == cs!"h") = false := by cases k <;> decide +kernel
    simp only [fam, h1, h2]
    rfl
  sub1 := plain_lawful.sub1

/-- the first assertion of the case -/
def exA1 : N :=
  .mk .EQ cs!"=" BOOL_SORT [.mk .VAR cs!"x" INT_SORT [], .mk .UF_APPLY cs!"f" INT_SORT [.mk .VAR cs!"x" INT_SORT [], .mk .VAR cs!"u" (decSort cs!"U" 0) []]]
/-- the second assertion of the case -/
def exA2 : N :=
  .mk .LT cs!"<" BOOL_SORT [.mk .FUNC_REC_APPLY cs!"h" INT_SORT [.mk .NULL [] NULL_SORT [], .mk .VAR cs!"x" INT_SORT []], .mk .CONST cs!"-5" INT_SORT []]

/-- a problem with a sort, two variables, a declared, a defined and a recursive function, and two assertions -/
def exProg : Prog :=
  let x : N := .mk .VAR cs!"x" INT_SORT []
  let u : N := .mk .VAR cs!"u" (decSort cs!"U" 0) []
  let a : N := .mk .FUNC_PARAM cs!"a" INT_SORT []
  let b : N := .mk .FUNC_PARAM cs!"b" (decSort cs!"U" 0) []
  { logic := cs!"QF_UFLIA"
    sorts := [(cs!"U", decSort cs!"U" 0), (cs!"BV_8", bvSort 8)]
    vars := [x, u]
    funs := [
      .mk .FUNC_DEC cs!"f" INT_SORT [.mk .NULL [] NULL_SORT [], a, b],
      .mk .FUNC_DEF cs!"g" INT_SORT [.mk .NEG cs!"-" INT_SORT [a], a],
      .mk .FUNC_REC cs!"h" INT_SORT [.mk .ITE cs!"ite" BOOL_SORT [.mk .LT cs!"<" BOOL_SORT [a, .mk .CONST cs!"0" INT_SORT []], a,
        .mk .UF_APPLY cs!"h" INT_SORT [.mk .NEG cs!"-" INT_SORT [a]]], a]]
    asserts := [exA1, exA2] }

example : dumpSMT2 100 exProg = .ok (cs!"(set-logic QF_UFLIA)\n(declare-sort U 0)\n(declare-fun x () Int)\n(declare-fun u () U)\n" ++
    cs!"(declare-fun f (Int U) Int)\n(define-fun g ((a Int)) Int (- a))\n(define-fun-rec h ((a Int)) Int (ite (< a 0) a (h (- a))))\n" ++
    cs!"(assert (= x (f x u)))\n(assert (< (h x) (- 5)))\n(check-sat)\n(exit)\n") := by decide +kernel

set_option hygiene false in
/-- every node has the number of children of its kind -/
macro "wf_node" : tactic => `(tactic| (
  repeat' first
    | (intro c hc; simp only [operands, List.mem_cons, List.not_mem_nil, or_false, List.take, List.head?, Option.toList, List.tail] at hc; rcases hc with rfl | rfl | rfl)
    | (intro c hc; simp only [operands, List.mem_cons, List.not_mem_nil, or_false, List.take, List.head?, Option.toList, List.tail] at hc; rcases hc with rfl | rfl)
    | (intro c hc; simp only [operands, List.mem_cons, List.not_mem_nil, or_false, List.take, List.head?, Option.toList, List.tail] at hc; subst hc)
    | (intro c hc; exact absurd hc (by simp [operands]))
    | refine .mk rfl trivial ?_))

theorem exSort_int : SortOk exProg INT_SORT := ⟨.int, .int, trivial, trivial⟩
theorem exSort_u : SortOk exProg (decSort cs!"U" 0) :=
  ⟨.named cs!"U", .named _, by simp [Over, declOf, sortNames, exProg, decSort, bvSort, Srt.kind], trivial⟩

theorem exFuns : FunsOk plainMode fam exProg [] () exProg.funs () := by
  refine .cons (st1 := ()) (.dec (plainB_tok (by decide +kernel)) (by simp) exSort_int ?_ (by simp)) (.cons (st1 := ()) (.defn (plainB_tok (by decide +kernel)) (by decide) exSort_int ?_
    (by decide) ⟨?_, ?_, by decide +kernel⟩) (.cons (st1 := ()) (.recu (plainB_tok (by decide +kernel)) (by decide) exSort_int ?_ (by decide)
    ⟨?_, ?_, by decide +kernel⟩) .nil))
  · intro p hp
    simp only [List.mem_cons, List.not_mem_nil, or_false] at hp
    rcases hp with rfl | rfl
    · exact exSort_int
    · exact exSort_u
  · intro p hp
    simp only [List.mem_cons, List.not_mem_nil, or_false] at hp
    subst hp
    exact ⟨plainB_tok (by decide +kernel), exSort_int⟩
  · wf_node
  · refine .app (by simp [takes, unary]) ?_ rfl
    intro c hc
    simp only [List.mem_cons, List.not_mem_nil, or_false] at hc
    subst hc
    exact .word rfl (plainB_tok (by decide +kernel)) rfl
  · intro p hp
    simp only [List.mem_cons, List.not_mem_nil, or_false] at hp
    subst hp
    exact ⟨plainB_tok (by decide +kernel), exSort_int⟩
  · wf_node
  · refine .app (by simp [takes, nary]) ?_ rfl
    intro c hc
    simp only [List.mem_cons, List.not_mem_nil, or_false] at hc
    rcases hc with rfl | rfl | rfl
    · refine .app (by simp [takes, binary]) ?_ rfl
      intro c hc
      simp only [List.mem_cons, List.not_mem_nil, or_false] at hc
      rcases hc with rfl | rfl <;> exact .word rfl (plainB_tok (by decide +kernel)) rfl
    · exact .word rfl (plainB_tok (by decide +kernel)) rfl
    · refine .ufCall rfl (by simp) rfl (plainB_tok (by decide +kernel)) (by decide) (by decide) ?_ rfl
      intro c hc
      simp only [List.mem_cons, List.not_mem_nil, or_false] at hc
      subst hc
      refine .app (by simp [takes, unary]) ?_ rfl
      intro c hc
      simp only [List.mem_cons, List.not_mem_nil, or_false] at hc
      subst hc
      exact .word rfl (plainB_tok (by decide +kernel)) rfl

theorem exAssert1 : ExprOk plainMode (fam (exProg.funs.map N.name) none) exProg [] () exA1 () := by
  refine ⟨by wf_node, .app (by simp [takes, nary]) ?_ rfl, by decide +kernel⟩
  intro c hc
  simp only [List.mem_cons, List.not_mem_nil, or_false] at hc
  rcases hc with rfl | rfl
  · exact .word rfl (plainB_tok (by decide +kernel)) rfl
  · refine .ufCall rfl (by simp) rfl (plainB_tok (by decide +kernel)) (by decide) (by decide) ?_ rfl
    intro c hc
    simp only [List.mem_cons, List.not_mem_nil, or_false] at hc
    rcases hc with rfl | rfl <;> exact .word rfl (plainB_tok (by decide +kernel)) rfl

theorem exAssert2 : ExprOk plainMode (fam (exProg.funs.map N.name) none) exProg [] () exA2 () := by
  refine ⟨by wf_node, .app (by simp [takes, binary]) ?_ rfl, by decide +kernel⟩
  intro c hc
  simp only [List.mem_cons, List.not_mem_nil, or_false] at hc
  rcases hc with rfl | rfl
  · refine .call rfl (by simp) rfl (plainB_tok (by decide +kernel)) (by decide) (by decide) ?_ rfl
    intro c hc
    simp only [List.mem_cons, List.not_mem_nil, or_false] at hc
    subst hc
    exact .word rfl (plainB_tok (by decide +kernel)) rfl
  · exact .neg (ds := cs!"5") rfl (plainB_tok (by decide +kernel)) rfl rfl

/-- the case meets the hypotheses of `dump_round_trip_partial` -/
theorem exProg_ok : ProgOk plainMode fam exProg where
  lawful := fam_lawful
  logic := by decide +kernel
  sortArity := by
    intro x hx hk
    simp only [exProg, List.mem_cons, List.not_mem_nil, or_false] at hx
    rcases hx with rfl | rfl
    · rfl
    · revert hk; decide
  sortNodup := by decide
  sortTok := by
    intro n hn
    simp [sortNames, exProg, decSort, bvSort, Srt.kind] at hn
    subst hn
    exact plainB_tok (by decide +kernel)
  good := goodDecl (decl := [(cs!"U", .named cs!"U")]) (by decide) (by simp [Over])
  varTok := by
    intro v hv
    simp only [exProg, List.mem_cons, List.not_mem_nil, or_false] at hv
    rcases hv with rfl | rfl
    · exact ⟨plainB_tok (by decide +kernel), exSort_int⟩
    · exact ⟨plainB_tok (by decide +kernel), exSort_u⟩
  varNodup := by decide
  exprs := by
    exact ⟨(), (), exFuns, .cons (st1 := ()) exAssert1 (.cons exAssert2 .nil)⟩

/-! ## A case with lets -/

/-- the value of a let variable -/
def lessOf (a b : N) : N := .mk .LT cs!"<" BOOL_SORT [a, b]
/-- the two let variables, of the same name -/
def yVar (c : Nat) (v : N) : N := letVar c cs!"y" v
/-- the variable and the number of the case -/
def xN : N := .mk .VAR cs!"x" INT_SORT []
/-- the number -/
def fiveN : N := .mk .CONST cs!"5" INT_SORT []
/-- the first assertion: `(let ((y (< x 5))) (and y y))` -/
def let1 : N :=
  .mk .LET_CHAIN [] BOOL_SORT [.mk .LET_BIND_VAR_LIST [] BOOL_SORT [yVar 1 (lessOf xN fiveN)],
    .mk .AND cs!"and" BOOL_SORT [yVar 1 (lessOf xN fiveN), yVar 1 (lessOf xN fiveN)]]
/-- the second assertion: `(let ((y (< 5 x))) (not y))`, with the same name and another mark -/
def let2 : N :=
  .mk .LET_CHAIN [] BOOL_SORT [.mk .LET_BIND_VAR_LIST [] BOOL_SORT [yVar 2 (lessOf fiveN xN)], .mk .NOT cs!"not" BOOL_SORT [yVar 2 (lessOf fiveN xN)]]
/-- a problem with two lets -/
def letProg : Prog := { logic := cs!"QF_LIA", sorts := [], vars := [xN], funs := [], asserts := [let1, let2] }

example : dumpSMT2 100 letProg = .ok (cs!"(set-logic QF_LIA)\n(declare-fun x () Int)\n(assert (let ((y (< x 5))) (and y y)))\n" ++
    cs!"(assert (let ((y (< 5 x))) (not y)))\n(check-sat)\n(exit)\n") := by decide +kernel

theorem x_wf : WF xN := .mk rfl trivial (by simp [operands])
theorem five_wf : WF fiveN := .mk rfl trivial (by simp [operands])
theorem less_wf {a b : N} (ha : WF a) (hb : WF b) : WF (lessOf a b) := by
  refine .mk rfl trivial ?_
  intro c hc
  simp only [operands, List.mem_cons, List.not_mem_nil, or_false] at hc
  rcases hc with rfl | rfl
  · exact ha
  · exact hb
theorem y_wf {c : Nat} {v : N} (hv : WF v) : WF (yVar c v) := by
  refine .mk rfl trivial ?_
  intro d hd
  simp only [operands, List.mem_cons, List.not_mem_nil, or_false] at hd
  subst hd
  exact hv
theorem let_wf {c : Nat} {v b : N} (hv : WF v) (hb : WF b) :
    WF (.mk .LET_CHAIN [] BOOL_SORT [.mk .LET_BIND_VAR_LIST [] BOOL_SORT [yVar c v], b]) := by
  refine .mk rfl ?_ ?_
  · intro l hl
    simp only [List.dropLast, List.mem_cons, List.not_mem_nil, or_false] at hl
    subst hl
    intro w hw
    have : w = yVar c v := by simpa [N.children] using hw
    exact ⟨v, by rw [this]; rfl⟩
  · intro d hd
    have : d = b ∨ d = v := by simpa [operands, yVar, letVar, N.children] using hd
    rcases this with rfl | rfl
    · exact hb
    · exact hv

/-- a let with one variable and a body that is no let -/
theorem let_made {I : Ctors} {c : Nat} {old : Names} {v b : N} (hv : MadeP I [] true [] ⟨c + 1, []⟩ v ⟨c + 1, []⟩ []) (hs : v.sort = BOOL_SORT)
    (hb : MadeP I [] true [] ⟨c + 1, [(cs!"y", .val (yVar (c + 1) v))]⟩ b ⟨c + 1, [(cs!"y", .val (yVar (c + 1) v))]⟩ []) (hk : b.kind ≠ .LET_CHAIN)
    (hbs : b.sort = BOOL_SORT) (hc : cutAt letSuffix (cs!"y" ++ letSuffix ++ dec (c + 1)) = cs!"y") :
    MadeP I [] false [] ⟨c, old⟩ (.mk .LET_CHAIN [] BOOL_SORT [.mk .LET_BIND_VAR_LIST [] BOOL_SORT [yVar (c + 1) v], b])
      ⟨c + 1, [(cs!"y", .val (yVar (c + 1) v))]⟩ [cs!"y"] := by
  have := MadeP.chain (I := I) (decl := []) (d := false) (sc := []) (st := ⟨c, old⟩) (l := .mk .LET_BIND_VAR_LIST [] (yVar (c + 1) v).sort [yVar (c + 1) v])
    (ls := []) (b := b) (xs := ([cs!"y"] ++ ([] ++ [])) ++ []) (st' := ⟨c + 1, [(cs!"y", .val (yVar (c + 1) v))]⟩)
    (.last (.cons (x := cs!"y") (plainB_tok (by decide +kernel)) hc hv rfl .nil) hk hb)
  rw [hbs] at this
  have e : (yVar (c + 1) v).sort = BOOL_SORT := hs
  rw [e] at this
  exact this

/-- the case meets the hypotheses of `dump_lets_partial` -/
theorem letProg_ok : ProgOk keepMode fam letProg where
  lawful := fam_lawful
  logic := by decide +kernel
  sortArity := by simp [letProg]
  sortNodup := by decide
  sortTok := by simp [letProg, sortNames]
  good := goodDecl (decl := []) (by decide) (by simp)
  varTok := by
    intro v hv
    simp only [letProg, List.mem_cons, List.not_mem_nil, or_false] at hv
    subst hv
    exact ⟨plainB_tok (by decide +kernel), .int, .int, trivial, trivial⟩
  varNodup := by decide
  exprs := by
    have tok : ∀ {w : List Char}, plainB w = true → Tok w := plainB_tok
    refine ⟨(⟨0, []⟩ : LSt), (⟨2, [(cs!"y", .val (yVar 2 (lessOf fiveN xN)))]⟩ : LSt), .nil,
      .cons (st1 := (⟨1, [(cs!"y", .val (yVar 1 (lessOf xN fiveN)))]⟩ : LSt)) ⟨?_, ?_, ?_⟩ (.cons ⟨?_, ?_, ?_⟩ .nil)⟩
    · refine let_wf (less_wf x_wf five_wf) (.mk rfl trivial ?_)
      intro c hc
      simp only [operands, List.mem_cons, List.not_mem_nil, or_false] at hc
      rcases hc with rfl | rfl <;> exact y_wf (less_wf x_wf five_wf)
    · refine ⟨[cs!"y"], by decide, let_made (c := 0) (v := lessOf xN fiveN) (b := .mk .AND cs!"and" BOOL_SORT [yVar 1 (lessOf xN fiveN), yVar 1 (lessOf xN fiveN)]) ?_ rfl ?_
        (by decide) rfl (by decide +kernel)⟩
      · exact .app (xs := [] ++ ([] ++ [])) (by simp [takes, binary]) (.cons (.word rfl (tok (by decide +kernel)) rfl)
          (.cons (.word rfl (tok (by decide +kernel)) rfl) .nil)) rfl
      · exact .app (xs := [] ++ ([] ++ [])) (by simp [takes, nary]) (.cons (.word (w := cs!"y") (by decide +kernel) (tok (by decide +kernel)) rfl)
          (.cons (.word (w := cs!"y") (by decide +kernel) (tok (by decide +kernel)) rfl) .nil)) rfl
    · decide +kernel
    · refine let_wf (less_wf five_wf x_wf) (.mk rfl trivial ?_)
      intro c hc
      simp only [operands, List.mem_cons, List.not_mem_nil, or_false] at hc
      subst hc
      exact y_wf (less_wf five_wf x_wf)
    · refine ⟨[cs!"y"], by decide, let_made (c := 1) (v := lessOf fiveN xN) (b := .mk .NOT cs!"not" BOOL_SORT [yVar 2 (lessOf fiveN xN)]) ?_ rfl ?_
        (by decide) rfl (by decide +kernel)⟩
      · exact .app (xs := [] ++ ([] ++ [])) (by simp [takes, binary]) (.cons (.word rfl (tok (by decide +kernel)) rfl)
          (.cons (.word rfl (tok (by decide +kernel)) rfl) .nil)) rfl
      · exact .app (xs := [] ++ []) (by simp [takes, unary]) (.cons (.word (w := cs!"y") (by decide +kernel) (tok (by decide +kernel)) rfl) .nil) rfl
    · decide +kernel

/-! ## What goes wrong -/

/-- a script without `set-logic` leaves the logic unknown -/
theorem no_logic {cs : List Cmd} {s : S} (h : Represents cs s) (hl : ∀ c ∈ cs, c.logics = none) : s.logic = cs!"UNKNOWN_LOGIC" := by
  rw [h.logic, logicOf, List.filterMap_eq_nil_iff.mpr hl]
  rfl

/-- **C67 violated: no logic.**  When the script has set no logic, the text that is written cannot be read: its first command ends the
process, whatever the problem is. -/
theorem no_logic_violated (pres : Bool) {P : Prog} (hl : P.logic = cs!"UNKNOWN_LOGIC") {m : Nat} {text : List Char}
    (h : dumpSMT2 m P = .ok text) :
    ∃ k, ∀ n, k ≤ n → parseStr ⟨false, pres⟩ n fresh text = .abort ∧ parseFile pres n fresh text = .abort := by
  have ht : ∃ r, text = flat (.list [.atom cs!"set-logic", .atom cs!"UNKNOWN_LOGIC"]) ++ r := by
    unfold dumpSMT2 at h
    cases h1 : funLines m P.funs with
    | ok a =>
      cases h2 : assertLines m P.asserts with
      | ok b =>
        simp only [h1, h2, Res.ok_bind, Res.pure_eq, Res.ok.injEq] at h
        refine ⟨'\n' :: (sortLines P.sorts ++ varLines P.vars ++ a ++ b ++ cs!"(check-sat)\n" ++ cs!"(exit)\n"), h.symm.trans ?_⟩
        rw [hl]
        simp [flat, flats, tails]
      | _ => simp only [h1, h2, Res.ok_bind] at h; cases h
    | _ => simp only [h1] at h; cases h
  obtain ⟨r, rfl⟩ := ht
  have hb : ∀ file, Broken file [] (flat (.list [.atom cs!"set-logic", .atom cs!"UNKNOWN_LOGIC"]) ++ r) := fun file =>
    .bad (g := []) .nil (lay_flat file (x := .list [.atom cs!"set-logic", .atom cs!"UNKNOWN_LOGIC"]) ⟨plainB_tok (by decide +kernel), plainB_tok (by decide +kernel), trivial⟩) (.logic (by decide) (by decide))
  obtain ⟨k1, h1⟩ := (broken_rejected_partial pres).1 (hb true)
  obtain ⟨k2, h2⟩ := (broken_rejected_partial pres).2 (by simp [flat]) (hb false)
  exact ⟨max k1 k2, fun n hn => ⟨h2 n (by omega), h1 n (by omega)⟩⟩

/-- **C67 violated: functions that call each other.**  `define-funs-rec` may define two functions that call each other; they are written one
after the other, and the call of the second in the body of the first is not known when it is read: it ends the process. -/
theorem mutual_violated {J : Family} (hJ : ∀ fs o n, (J fs o).isFun n = true ↔ n ∈ fs ∨ o = some n) {f g : List Char}
    (hfg : f ≠ g) (hg : dispOf g = .unknown) (hr : g ≠ cs!"root-obj") {before : List (List Char)} (hb : g ∉ before) {sc : Names} {ts : List (T (Option D))} {xs : List N}
    (hx : buildL (J before (some f)) sc ts = .ok xs) :
    build (J before (some f)) sc (.mk (.app g 0) ts) = .abort := by
  have hn : (J before (some f)).isFun g = false := by
    cases hh : (J before (some f)).isFun g with
    | false => rfl
    | true =>
      rcases (hJ before (some f) g).mp hh with h | h
      · exact absurd h hb
      · injection h with h
        exact absurd h hfg
  simp only [build, hx, Res.ok_bind, List.take_zero, List.drop_zero]
  rw [callOper_dispOf _ hn hr, hg]
  rfl

/-- two such functions are recorded from one command, and their written form is two commands -/
example : (seen (fun s => s.fnames) cs!"(define-funs-rec ((f ((a Int)) Int) (g ((a Int)) Int)) ((g a) (f a)))") = some [cs!"f", cs!"g"] := by decide +kernel
example : funLines 100 [
      .mk .FUNC_REC cs!"f" INT_SORT [.mk .UF_APPLY cs!"g" INT_SORT [.mk .FUNC_PARAM cs!"a" INT_SORT []], .mk .FUNC_PARAM cs!"a" INT_SORT []],
      .mk .FUNC_REC cs!"g" INT_SORT [.mk .UF_APPLY cs!"f" INT_SORT [.mk .FUNC_PARAM cs!"a" INT_SORT []], .mk .FUNC_PARAM cs!"a" INT_SORT []]] =
    .ok (cs!"(define-fun-rec f ((a Int)) Int (g a))\n" ++ cs!"(define-fun-rec g ((a Int)) Int (f a))\n") := by decide +kernel
example : dispOf cs!"g" = .unknown := by decide +kernel

end SMT.Dump
