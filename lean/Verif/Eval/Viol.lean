import Verif.Eval.Const

/-! # C35: a case that meets the hypotheses, and where evaluation goes wrong -/

namespace SMT.Eval
open SMT SMT.Term

set_option linter.unusedSimpArgs false
set_option linter.unusedVariables false

/-- the model with one entry -/
def m1 (x : String) (t : Term) : Mdl.M := ⟨[(x, 0)], [⟨x, 0⟩], [t]⟩
/-- the model with two entries -/
def m2 (x y : String) (t u : Term) : Mdl.M := ⟨[(y, 1), (x, 0)], [⟨x, 0⟩, ⟨y, 1⟩], [t, u]⟩

/-- these are what `add` makes -/
theorem m1_add (x : String) (t : Term) : Mdl.add Mdl.new ⟨x, 0⟩ t = .ok (m1 x t) := by
  simp [Mdl.add, Mdl.new, m1]
theorem m2_add (x y : String) (t u : Term) (h : x ≠ y) : Mdl.add (m1 x t) ⟨y, 1⟩ u = .ok (m2 x y t u) := by
  have hb : (y == x) = false := by simp; exact fun q => h q.symm
  simp [Mdl.add, m1, m2, List.lookup_cons, hb]

/-- options for the examples: uninterpreted applications are not evaluated -/
def o0 : Opt := { arity := fun _ => none, isFp := fun _ => false, order := id, perm := fun _ => .refl _ }

/-- `(and (or p (< (+ x 1) y)) (distinct x y))` -/
def ex1 : Term := .app .and .bool [.app .or .bool [bv "p", .app .lt .bool [.app .add .int [iv "x", .cint 1], iv "y"]],
  .app .distinct .bool [iv "x", iv "y"]]
/-- the assignment of the example -/
def exρ (y : Rat) : Env := env (fun _ => false) (fun z => if z = "x" then 3 else y)

/-- the model assigns `x` only -/
example : NumOk false c0 ∧ (∀ x, Std false (Mdl.get (m1 "x" (.cint 3)) x) = true) ∧ In false o0 ex1 = true ∧
    Extends (exρ 5) (m1 "x" (.cint 3)) ex1 ∧ eval (exρ 5) ex1 = some (.b true) ∧ eval (exρ 4) ex1 = some (.b false) := by
  refine ⟨?_, ?_, by decide, ?_, by decide +kernel, by decide +kernel⟩
  · simp only [NumOk, IntOK, Bool.false_eq_true, if_false]
    intro i; simp only [c0, id]; exact ⟨by simp, by rw [← Rat.intCast_one, Rat.intCast_inj]⟩
  · intro x
    by_cases h : x = "x"
    · subst h; rfl
    · simp [Mdl.get, m1, List.lookup_cons, beq_eq_false_iff_ne.2 h, Std, leafOk]
  · intro vk s x hmem hne
    simp [ex1, vars, varsL, bv, iv] at hmem
    rcases hmem with ⟨-, -, rfl⟩ | ⟨rfl, rfl, rfl⟩ | ⟨-, -, rfl⟩ | ⟨rfl, rfl, rfl⟩ | ⟨-, -, rfl⟩ <;> simp [Mdl.get, m1, List.lookup_cons] at hne ⊢
    all_goals rfl

/-- `(< (+ x 1) y)` -/
def ex2 : Term := .app .lt .bool [.app .add .int [iv "x", .cint 1], iv "y"]

/-- the model assigns both variables -/
example : In false o0 ex2 = true ∧ Open ex2 = true ∧ Extends (exρ 5) (m2 "x" "y" (.cint 3) (.cint 5)) ex2 ∧
    Total (m2 "x" "y" (.cint 3) (.cint 5)) ex2 ∧ eval (exρ 5) ex2 = some (.b true) ∧
    Mdl.isEmpty (m2 "x" "y" (.cint 3) (.cint 5)) = false := by
  refine ⟨by decide, by decide, ?_, ?_, by decide +kernel, by decide⟩
  · intro vk s x hmem hne
    simp [ex2, vars, varsL, bv, iv] at hmem
    rcases hmem with ⟨rfl, rfl, rfl⟩ | ⟨rfl, rfl, rfl⟩ <;> rfl
  · intro vk s x hmem
    simp [ex2, vars, varsL, bv, iv] at hmem
    rcases hmem with ⟨rfl, rfl, rfl⟩ | ⟨rfl, rfl, rfl⟩ <;> rfl

/-! ## Violations -/

/-- `(=> p q r)` under the model `p := true`: evaluation looks at the first two operands only and returns `(=> true q)`, true
where the expression is false. -/
theorem evaluate_implies_violated (c : Cfg) (o : Opt) :
    mkImplies c [bv "p", bv "q", bv "r"] = .app .implies .bool [bv "p", bv "q", bv "r"] ∧
    eval (env (fun x => x != "r") (fun _ => 0)) (.app .implies .bool [bv "p", bv "q", bv "r"]) = some (.b false) ∧
    Extends (env (fun x => x != "r") (fun _ => 0)) (m1 "p" .tt) (.app .implies .bool [bv "p", bv "q", bv "r"]) ∧
    eval (env (fun x => x != "r") (fun _ => 0)) (evaluate c o (m1 "p" .tt) (.app .implies .bool [bv "p", bv "q", bv "r"])) = some (.b true) := by
  refine ⟨?_, by decide, ?_, ?_⟩
  · simp [mkImplies, scan, bv, isErr, Term.isTrue, Term.isFalse, mkOper, simp, simp3, simp2, isUnknown, isComm]
  · intro vk s x hmem hne
    simp [vars, varsL, bv] at hmem
    rcases hmem with ⟨rfl, rfl, rfl⟩ | ⟨-, -, rfl⟩ | ⟨-, -, rfl⟩ <;> simp [Mdl.get, m1, List.lookup_cons] at hne ⊢
    rfl
  · have : evaluate c o (m1 "p" .tt) (.app .implies .bool [bv "p", bv "q", bv "r"]) = .app .implies .bool [.tt, bv "q"] := by
      simp [evaluate, Mdl.isEmpty, m1, ev, evL, step, evFix, bv, Mdl.get, List.lookup_cons, isUnknown, mkOper, simp, simp2,
        Term.isTrue, Term.isFalse, isComm, List.range_succ]
    rw [this]
    decide

/-- `(distinct x y)` under `x := 1, y := 1.0`: two different literal nodes are taken for two different numbers. -/
theorem evaluate_distinct_violated (c : Cfg) (o : Opt) (ρ : Env) (n : String) :
    evaluate c o (m2 "x" "y" (.cint 1) (.creal n 1)) (.app .distinct .bool [.var .var .real "x", .var .var .real "y"]) = .tt ∧
    eval ρ (.app .distinct .bool [.cint 1, .creal n 1]) = some (.b false) := by
  constructor
  · simp [evaluate, Mdl.isEmpty, m2, ev, evL, step, evDistinct, Mdl.get, List.lookup_cons, isUnknown, consts, others, isConst, dedup,
      List.range_succ]
  · rw [eval_app]
    refine guardSort_some.2 ⟨?_, rfl⟩
    rw [evalApp_distinct]
    refine ⟨by simp, ?_, ?_, ?_⟩ <;> simp [Ev, eval, val, Val.sameSort]

/-- `(= x y)` for two variables of a sort whose literals are not compared, rounding modes for instance: two different literals
are taken for equal. -/
theorem evaluate_eq_violated (c : Cfg) (o : Opt) (k i : Nat) (h : o.isFp (.other k i) = false) (a b : String) (hab : a ≠ b) :
    evaluate c o (m2 "x" "y" (.clit (.other k i) a) (.clit (.other k i) b))
      (.app .eq .bool [.var .var (.other k i) "x", .var .var (.other k i) "y"]) = .tt := by
  simp [evaluate, Mdl.isEmpty, m2, ev, evL, step, evEq, Mdl.get, List.lookup_cons, isUnknown, consts, others, isConst, constNe, isCInt,
    isCReal, isCStr, isCBV, Term.isTrue, Term.isFalse, Term.sort, h, List.range_succ]

/-- An application of an uninterpreted function is returned as it is, with its variables, though the model assigns them. -/
theorem evaluate_uf_violated (c : Cfg) (o : Opt) (i : Nat) (s s' : Srt) (h : o.arity (.uf i) = none) (t : Term) :
    evaluate c o (m1 "x" t) (.app (.uf i) s [.var .var s' "x"]) = .app (.uf i) s [.var .var s' "x"] := by
  unfold evaluate
  split
  · rfl
  · simp [ev, step, h]

/-- With real literals and floating-point evaluation off, `(< x 1.5)` under `x := 0.5` is not decided. -/
theorem evaluate_lt_violated (c : Cfg) (o : Opt) (n n' : String) (p q : Rat) (hf : c.floating = false) :
    evaluate c o (m1 "x" (.creal n p)) (.app .lt .bool [.var .var .real "x", .creal n' q]) = .app .lt .bool [.creal n p, .creal n' q] := by
  simp [evaluate, Mdl.isEmpty, m1, ev, evL, step, evFix, Mdl.get, List.lookup_cons, isUnknown, mkOper, simp, simp2, isCInt, isCReal, hf,
    isComm, List.range_succ]

/-- `(= p q r)` on Booleans under `r := true` becomes `(= p q)`: the literal is dropped. -/
theorem evaluate_eq3_violated (c : Cfg) (hs : ∀ l, c.sort l = l) (o : Opt) :
    eval (env (fun x => x == "r") (fun _ => 0)) (.app .eq .bool [bv "p", bv "q", bv "r"]) = some (.b false) ∧
    Extends (env (fun x => x == "r") (fun _ => 0)) (m1 "r" .tt) (.app .eq .bool [bv "p", bv "q", bv "r"]) ∧
    eval (env (fun x => x == "r") (fun _ => 0)) (evaluate c o (m1 "r" .tt) (.app .eq .bool [bv "p", bv "q", bv "r"])) = some (.b true) := by
  refine ⟨by decide, ?_, ?_⟩
  · intro vk s x hmem hne
    simp [vars, varsL, bv] at hmem
    rcases hmem with ⟨-, -, rfl⟩ | ⟨-, -, rfl⟩ | ⟨rfl, rfl, rfl⟩ <;> simp [Mdl.get, m1, List.lookup_cons] at hne ⊢
    rfl
  · have : evaluate c o (m1 "r" .tt) (.app .eq .bool [bv "p", bv "q", bv "r"]) = .app .eq .bool [bv "p", bv "q"] := by
      simp [evaluate, Mdl.isEmpty, m1, ev, evL, step, evEq, bv, Mdl.get, List.lookup_cons, isUnknown, mkOper, simp, simp2,
        Term.isTrue, Term.isFalse, isComm, List.range_succ, consts, others, isConst, mkEqV, scan, badSort, getSort, Srt.isNum, Term.sort,
        mismatch, Srt.eqTo, isCInt, isCReal, isCBV, isCStr, hs]
    rw [this]
    decide

end SMT.Eval
