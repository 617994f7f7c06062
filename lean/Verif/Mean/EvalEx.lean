import Verif.Mean.EvalProps
import Verif.Mean.Viol
import Verif.Eval.Viol

/-! # C81: a case that meets the hypotheses, and where the value is another one -/

namespace SMT.Mean
open SMT SMT.Text SMT.Kinds SMT.Sorts SMT.Parse SMT.Leaf SMT.Term SMT.Eval

set_option linter.unusedSimpArgs false
set_option linter.unusedVariables false

/-- `(and (or (< (+ x 1) y) (= x z)) (distinct x y))` -/
def evTerm : T D := ap cs!"and" [ap cs!"or" [ap cs!"<" [ap cs!"+" [s cs!"x", s cs!"1"], s cs!"y"], ap cs!"=" [s cs!"x", s cs!"z"]],
  ap cs!"distinct" [s cs!"x", s cs!"y"]]

/-- the model `x := 3, y := 5, z := 7` -/
def evModel : Mdl.M := ⟨[(String.ofList cs!"z", 2), (String.ofList cs!"y", 1), (String.ofList cs!"x", 0)],
  [⟨String.ofList cs!"x", 0⟩, ⟨String.ofList cs!"y", 1⟩, ⟨String.ofList cs!"z", 2⟩], [.cint 3, .cint 5, .cint 7]⟩

theorem lookup3 {α : Type} {n : List Char} {d x : α} (h : [(cs!"x", d), (cs!"y", d), (cs!"z", d)].lookup n = some x) :
    (n = cs!"x" ∨ n = cs!"y" ∨ n = cs!"z") ∧ x = d := by
  by_cases h1 : n = cs!"x"
  · subst h1; cases h; exact ⟨.inl rfl, rfl⟩
  by_cases h2 : n = cs!"y"
  · subst h2; cases h; exact ⟨.inr (.inl rfl), rfl⟩
  by_cases h3 : n = cs!"z"
  · subst h3; cases h; exact ⟨.inr (.inr rfl), rfl⟩
  simp [List.lookup_cons, beq_eq_false_iff_ne.2 h1, beq_eq_false_iff_ne.2 h2, beq_eq_false_iff_ne.2 h3] at h

theorem ev_means : Means (env3 (.n 3) (.n 5) (.n 7)) (G2 .int) [] evTerm (.b true) := by
  have hx : Means (env3 (.n 3) (.n 5) (.n 7)) (G2 .int) [] (s cs!"x") (.n 3) := var_means .int (by decide) (by decide) rfl rfl .int (by decide)
  have hy : Means (env3 (.n 3) (.n 5) (.n 7)) (G2 .int) [] (s cs!"y") (.n 5) := var_means .int (by decide) (by decide) rfl rfl .int (by decide)
  have hz : Means (env3 (.n 3) (.n 5) (.n 7)) (G2 .int) [] (s cs!"z") (.n 7) := var_means .int (by decide) (by decide) rfl rfl .int (by decide)
  refine op2 (k := .and) (by decide) (x := .b true) (y := .b true) (op2 (k := .or) (by decide) (x := .b true) (y := .b false) ?_ ?_ rfl) ?_ rfl
  · exact op2 (k := .lt) (by decide) (x := .n 4) (op2 (k := .add) (by decide) hx (lit_means (q := 1) rfl rfl ⟨by decide, by decide⟩ (by decide +kernel))
      (by decide +kernel)) hy (by decide +kernel)
  · exact op2 (k := .eq) (by decide) hx hz (by decide +kernel)
  · exact op2 (k := .distinct) (by decide) hx hy (by decide +kernel)

theorem ev_follows : Follows (G2 .int) (env3 (.n 3) (.n 5) (.n 7)) evModel := by
  intro n d σ h1 h2 _
  obtain ⟨h, rfl⟩ := lookup3 h1
  cases h2
  rcases h with rfl | rfl | rfl <;> decide

theorem ev_complete : Complete (G2 .int) evModel := by
  intro n d h1
  obtain ⟨h, rfl⟩ := lookup3 h1
  rcases h with rfl | rfl | rfl <;> decide

theorem ev_std (n : String) : Std false (Mdl.get evModel n) = true := by
  by_cases h1 : n = String.ofList cs!"x"
  · subst h1; decide
  by_cases h2 : n = String.ofList cs!"y"
  · subst h2; decide
  by_cases h3 : n = String.ofList cs!"z"
  · subst h3; decide
  simp [Mdl.get, evModel, List.lookup_cons, beq_eq_false_iff_ne.2 h1, beq_eq_false_iff_ne.2 h2, beq_eq_false_iff_ne.2 h3, Std, leafOk]

/-- the hypotheses are met, and the formula evaluates to `true` -/
example (rest : Ctors SMT.Term) (rlit : Leaf.Lit → Res SMT.Term) :
    ∃ n, node (declared c0 (G2 .int).vars []) rest rlit (evTerm.map some) = .ok n ∧ evaluate c0 o0 evModel n = .tt := by
  have hc : Arith true false c0 := ⟨fun i => by simp only [c0, id]; constructor <;> norm_cast, by decide, fun _ => .inl (by decide)⟩
  have hG : SigOk (G2 .int) := ⟨by simp [G2], by simp [G2], by simp [G2], by simp [G2]⟩
  have hl : LetsOk (G2 .int) evTerm := ⟨by decide, by rw [show evTerm.names = [] by decide]; simp, by rw [show evTerm.names = [] by decide]; simp⟩
  have hf : Fits (G2 .int) true false evTerm := by simp [evTerm, ap, s, Fits, FitsL, Tag.fits, Tag.reals, relations, wrongFold, foldOps, strFolds, strInts, intOps, realOps, wrongWidth]
  have he : ∀ u, Evals (G2 .int) false u evTerm := by intro u; simp [evTerm, ap, s, Evals, EvalsL, Tag.evals, bvTable, arTable, strTable, G2]
  obtain ⟨n, h1, _⟩ := node_means_all (rest := rest) (rlit := rlit) hc hG hl hf ⟨_, _, ev_means⟩
  refine ⟨n, h1, ?_⟩
  have := node_evaluates hc hG hl hf (he true) o0 (fun _ => rfl) h1 evModel _ _ ev_std ev_means ev_follows
  exact isLiteral_bool.1 (this.2 (he false) (fun h => by cases h) (by decide) ev_complete)

/-- the script of C79, with a declared function, in the empty model and in the model `x := 14` -/
example (rest : Ctors SMT.Term) (rlit : Leaf.Lit → Res SMT.Term) : ∃ (st : Script.S) (k : Nat) (t : T Sorts.Srt) (n : SMT.Term),
    (∀ m, k ≤ m → Script.parseStr ⟨false, false⟩ m Script.fresh (Script.lines mScript) = .ok st) ∧ st.asserts = [t] ∧
      (∀ s0, Script.Represents mDecls s0 → node (ctxOf c0 s0) rest rlit (t.map sortOf) = .ok n) ∧
      eval mEnv (evaluate (forLogic c0 (Script.logicOf mDecls)) o0 (m1 "x" (.cint 14)) n) = some (.b true) := by
  obtain ⟨st, k, h1, h2, h3⟩ := script_evaluates_partial (arith := true) (reals := false) (c := c0) (rest := rest) (rlit := rlit)
    (by simp [mScript, Script.lines]) (Script.script_lines m_writes) o0 (fun _ => rfl)
  have he : Evals (sigOf mDecls) false true mTerm := by
    rw [m_sig]; simp [mTerm, ap, s, Evals, EvalsL, Tag.evals, bvTable, arTable, strTable]
  obtain ⟨t, n, a1, a2, a3⟩ := h3 mDecls mTerm none none [] rfl (by simp [NoDefs, mDecls, Script.functions, Script.Cmd.fn]) m_arith m_sigOk m_lets
    m_fits he ⟨mEnv, _, m_means⟩
  refine ⟨st, k, t, n, h1, ?_, a2, (a3 _ _ _ ?_ m_means ?_).1⟩
  · have hl : st.asserts.length = 1 := h2
    match e : st.asserts, hl with
    | [t'], _ => rw [e] at a1; simp [mDecls, Script.assertions, Script.Cmd.assertion] at a1; rw [a1]
  · intro x
    by_cases h : x = "x"
    · subst h; rfl
    · simp [Mdl.get, m1, List.lookup_cons, beq_eq_false_iff_ne.2 h, Std, leafOk]
  · intro n d σ b1 b2 b3
    rw [m_sig] at b1
    have hn : n = cs!"x" := by
      by_cases h : n = cs!"x"
      · exact h
      · simp [List.lookup_cons, beq_eq_false_iff_ne.2 h] at b1
    subst hn
    have : d = .int := by simpa [List.lookup_cons] using b1.symm
    subst this
    cases b2
    decide

/-! ## What goes wrong -/

/-- `(=> x y z)` -/
def badImplies : T D := ap cs!"=>" [s cs!"x", s cs!"y", s cs!"z"]
/-- `(distinct x 1)` -/
def badDistinct : T D := ap cs!"distinct" [s cs!"x", s cs!"1"]
/-- one declared function and one constant -/
def G1f : Sig := ⟨[(cs!"x", .int)], [(cs!"f", [.int], .int)]⟩
/-- `(f x)` -/
def badFn : T D := ap cs!"f" [s cs!"x"]

/-- **C81 fails** for `=>` with three operands (the model `x := true`), for `distinct` with reals (the model `x := 1.0`): the node that is
read and evaluated has another value than what is written; and an application of a declared function stays as it is though the
model assigns its operand. -/
theorem read_evaluates_violated (rest : Ctors SMT.Term) (rlit : Leaf.Lit → Res SMT.Term) (r : String) :
    (Means (env3 (.b true) (.b true) (.b false)) (G2 .bool) [] badImplies (.b false) ∧
      Follows (G2 .bool) (env3 (.b true) (.b true) (.b false)) (m1 "x" .tt) ∧
      ∃ n, node (declared c0 (G2 .bool).vars []) rest rlit (badImplies.map some) = .ok n ∧
        eval (env3 (.b true) (.b true) (.b false)) (evaluate c0 o0 (m1 "x" .tt) n) = some (.b true)) ∧
    (Means (env3 (.n 1) (.n 0) (.n 0)) (G2 .real) [] badDistinct (.b false) ∧
      Follows (G2 .real) (env3 (.n 1) (.n 0) (.n 0)) (m1 "x" (.creal r 1)) ∧
      ∃ n, node (declared (forLogic c0 cs!"QF_LRA") (G2 .real).vars []) rest rlit (badDistinct.map some) = .ok n ∧
        evaluate (forLogic c0 cs!"QF_LRA") o0 (m1 "x" (.creal r 1)) n = .tt) ∧
    (Means mEnv G1f [] badFn (.n 14) ∧ Follows G1f mEnv (m1 "x" (.cint 14)) ∧ Complete G1f (m1 "x" (.cint 14)) ∧
      ∃ n, node (declared c0 G1f.vars G1f.funs) rest rlit (badFn.map some) = .ok n ∧ evaluate c0 o0 (m1 "x" (.cint 14)) n = n ∧
        ¬ IsLiteral n (.n 14)) := by
  have hget : ∀ (t : SMT.Term) (n : String), n ≠ "x" → Mdl.get (m1 "x" t) n = .unknown := by
    intro t n h
    simp [Mdl.get, m1, List.lookup_cons, beq_eq_false_iff_ne.2 h]
  refine ⟨⟨?_, ?_, ?_⟩, ⟨?_, ?_, ?_⟩, ⟨?_, ?_, ?_, ?_⟩⟩
  · exact op3 (k := .implies) (by decide) (var_means .bool (by decide) (by decide) rfl rfl .bool (by decide))
      (var_means .bool (by decide) (by decide) rfl rfl .bool (by decide)) (var_means .bool (by decide) (by decide) rfl rfl .bool (by decide))
      (by decide +kernel)
  · intro n d σ h1 h2 h3
    obtain ⟨h, rfl⟩ := lookup3 h1
    cases h2
    rcases h with rfl | rfl | rfl
    · decide
    · exact absurd (hget _ _ (by decide)) h3
    · exact absurd (hget _ _ (by decide)) h3
  · exact ⟨_, rfl, by decide +kernel⟩
  · exact op2 (k := .distinct) (by decide) (var_means .real (by decide) (by decide) rfl rfl .real (by decide))
      (lit_means (q := 1) rfl rfl ⟨by decide, by decide⟩ (by decide +kernel)) (by decide +kernel)
  · intro n d σ h1 h2 h3
    obtain ⟨h, rfl⟩ := lookup3 h1
    cases h2
    rcases h with rfl | rfl | rfl
    · rfl
    · exact absurd (hget _ _ (by decide)) h3
    · exact absurd (hget _ _ (by decide)) h3
  · refine ⟨_, rfl, ?_⟩
    rfl
  · exact .fn (i := 0) (ds := [.int]) (vs := [.n 14]) rfl .int (.cons (var_means .int (by decide) (by decide) rfl rfl .int (by decide)) .nil) rfl rfl (by decide)
  · intro n d σ h1 h2 h3
    have hn : n = cs!"x" := by
      by_cases h : n = cs!"x"
      · exact h
      · simp [G1f, List.lookup_cons, beq_eq_false_iff_ne.2 h] at h1
    subst hn
    have : d = .int := by simpa [G1f, List.lookup_cons] using h1.symm
    subst this
    cases h2
    decide
  · intro n d h1
    have hn : n = cs!"x" := by
      by_cases h : n = cs!"x"
      · exact h
      · simp [G1f, List.lookup_cons, beq_eq_false_iff_ne.2 h] at h1
    subst hn
    decide
  · exact ⟨_, rfl, by decide, by simp [IsLiteral]⟩

end SMT.Mean
