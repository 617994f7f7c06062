import Verif.Mean.Props
import Verif.Script.Viol
import Verif.Term.Props

/-! # C79: a script that meets the hypotheses, and what goes wrong -/

namespace SMT.Mean
open SMT SMT.Text SMT.Kinds SMT.Sorts SMT.Parse SMT.Leaf SMT.Term SMT.Eval

set_option linter.unusedSimpArgs false
set_option linter.unusedVariables false

/-! ## A script that meets the hypotheses -/

/-- a script with a let, a declared function and arithmetic -/
def mScript : List Sexp := [
  .list [w cs!"set-logic", w cs!"QF_UFLIA"],
  .list [w cs!"declare-const", w cs!"x", w cs!"Int"],
  .list [w cs!"declare-fun", w cs!"f", .list [w cs!"Int"], w cs!"Int"],
  .list [w cs!"assert", .list [w cs!"let", .list [.list [w cs!"y", .list [w cs!"f", w cs!"x"]]],
    .list [w cs!"and", .list [w cs!"<=", .list [w cs!"+", w cs!"y", w cs!"12"], .list [w cs!"*", w cs!"2", w cs!"x"]],
      .list [w cs!"not", .list [w cs!"=", w cs!"y", .list [w cs!"-", w cs!"x"]]]]]]]

/-- `(f e1 ... en)` -/
def ap (f : List Char) (ts : List (T D)) : T D := .mk (.app f 0) ts

/-- the asserted term -/
def mTerm : T D := .mk (.lets [cs!"y"]) ([ap cs!"f" [s cs!"x"]] ++ [
  ap cs!"and" [ap cs!"<=" [ap cs!"+" [s cs!"y", s cs!"12"], ap cs!"*" [s cs!"2", s cs!"x"]],
    ap cs!"not" [ap cs!"=" [s cs!"y", ap cs!"-" [s cs!"x"]]]]])

/-- the declarations before it -/
def mDecls : List Script.Cmd := [.logic cs!"QF_UFLIA", .var cs!"x" .int, .fns [(cs!"f", .dec [.int] .int)]]

theorem reads_app {op : List Char} {xs : List Sexp} {ts : List (T D)} (h : op ∉ reserved) (hs : ReadsL [] false xs ts) :
    Reads [] false (.list (.atom op :: xs)) (ap op ts) := .app h hs

theorem reads_sym (a : List Char) : Reads [] false (w a) (s a) := .sym

theorem m_reads : Reads [] false (.list [w cs!"let", .list [.list [w cs!"y", .list [w cs!"f", w cs!"x"]]],
    .list [w cs!"and", .list [w cs!"<=", .list [w cs!"+", w cs!"y", w cs!"12"], .list [w cs!"*", w cs!"2", w cs!"x"]],
      .list [w cs!"not", .list [w cs!"=", w cs!"y", .list [w cs!"-", w cs!"x"]]]]]) mTerm := by
  refine .lets (.cons (reads_app (by decide) (.cons (reads_sym _) .nil)) .nil) (reads_app (by decide) (.cons (reads_app (by decide) (.cons ?_ (.cons ?_ .nil)))
    (.cons (reads_app (by decide) (.cons (reads_app (by decide) (.cons (reads_sym _) (.cons ?_ .nil))) .nil)) .nil)))
  · exact reads_app (by decide) (.cons (reads_sym _) (.cons (reads_sym _) .nil))
  · exact reads_app (by decide) (.cons (reads_sym _) (.cons (reads_sym _) .nil))
  · exact reads_app (by decide) (.cons (reads_sym _) .nil)

theorem m_writes : Script.WritesL [] mScript (mDecls ++ [.assert mTerm none none]) := by
  refine .cons (by decide +kernel) (.logic (by decide)) ?_
  refine .cons (by decide +kernel) (.const .int (by simp [Script.vars, Script.Cmd.vars])) ?_
  refine .cons (by decide +kernel) (.func (ys := [w cs!"Int"]) (.cons .int .nil) (by simp) .int
    (by simp [Script.functions, Script.fnNames, Script.Cmd.fn])) ?_
  exact .cons (by decide +kernel) (.assert (g1 := none) (g2 := none) (a := none) ⟨m_reads, by decide, fun _ h => by cases h⟩ (.inl rfl) (.inl rfl)) .nil

/-- `x` is 14, `f` the identity -/
def mEnv : Env := ⟨fun _ _ _ => .n 14, fun _ _ => "", fun _ _ vs => vs.head?⟩

theorem not_literal {n : List Char} (h : n.head?.any (fun c => c.isDigit) = false) (q : Rat) : ¬ Literal n q := by
  have key : ∀ ds : List Char, Tok.Digits ds → ∀ r, ((ds ++ r).head?.any fun c => c.isDigit) = true := by
    intro ds h r
    cases ds with
    | nil => exact absurd rfl h.1
    | cons c ds => simpa using h.2 c (by simp)
  rintro (⟨h1⟩ | ⟨h1, h2⟩)
  · have := key n h1 []; rw [List.append_nil] at this; rw [this] at h; cases h
  · rw [key _ h1] at h; cases h

theorem not_const {n : List Char} (h : n.head?.any (fun c => c.isDigit) = false) (h' : n.head? ≠ some '#' ∧ n.head? ≠ some '"') : ¬ IsConst n := by
  intro hc
  cases hc with
  | num h1 => exact not_literal h _ h1
  | bin x => exact h'.1 rfl
  | hex => exact h'.1 rfl
  | str s => exact h'.2 rfl

theorem m_sig : sigOf mDecls = ⟨[(cs!"x", .int)], [(cs!"f", [.int], .int)]⟩ := rfl

theorem m_sigOk : SigOk (sigOf mDecls) := by
  rw [m_sig]
  refine ⟨by decide, by simp, ?_, ?_⟩
  · intro f hf
    simp only [List.mem_cons, List.not_mem_nil, or_false] at hf
    subst hf
    exact ⟨fun k => by simp [opTable], fun k => by simp [bvTable, arTable, strTable]⟩
  · intro f hf
    simp only [List.mem_cons, List.not_mem_nil, or_false] at hf
    subst hf
    exact not_const (by decide) (by decide)

theorem m_lets : LetsOk (sigOf mDecls) mTerm := by
  have hn : mTerm.names = [cs!"y"] := by decide
  refine ⟨by decide, ?_, ?_⟩ <;> rw [hn]
  · simp [m_sig]
  · intro n hm
    simp only [List.mem_cons, List.not_mem_nil, or_false] at hm
    subst hm
    exact not_const (by decide) (by decide)

theorem m_fits : Fits (sigOf mDecls) true false mTerm := by
  simp [mTerm, ap, s, Fits, FitsL, Tag.fits, Tag.reals, relations, wrongFold, foldOps, strFolds, strInts, intOps, realOps, wrongWidth]

theorem m_arith : Arith true false (forLogic c0 (Script.logicOf mDecls)) :=
  ⟨fun i => by simp only [forLogic, c0, id]; constructor <;> norm_cast, by decide, fun _ => .inl (by decide)⟩

theorem var_means {ρ : Env} {G : Sig} {Δ : List (List Char × Val)} {n : List Char} {σ : SMT.Srt} (d : D) (h1 : n ≠ cs!"true") (h2 : n ≠ cs!"false")
    (hΔ : Δ.lookup n = none) (h3 : G.vars.lookup n = some d) (h4 : SortIs d σ) (h5 : (ρ.var .var σ (String.ofList n)).hasSort σ = true) :
    Means ρ G Δ (s n) (ρ.var .var σ (String.ofList n)) := .var h1 h2 hΔ h3 h4 rfl h5

theorem lit_means {ρ : Env} {G : Sig} {Δ : List (List Char × Val)} {n : List Char} {q : Rat} (hΔ : Δ.lookup n = none)
    (h3 : G.vars.lookup n = none) (h : Tok.Digits n) (hq : q = undec n) : Means ρ G Δ (s n) (.n q) := by
  subst hq; exact .lit hΔ h3 (.num h)

theorem op1 {ρ : Env} {G : Sig} {Δ : List (List Char × Val)} {o : List Char} {k : Kind} {t : T D} {x v : Val} (h : (o, k) ∈ opTable)
    (h1 : Means ρ G Δ t x) (hv : apply ρ k .bool [x] = some v) : Means ρ G Δ (ap o [t]) v := .op h (.cons h1 .nil) hv

theorem op2 {ρ : Env} {G : Sig} {Δ : List (List Char × Val)} {o : List Char} {k : Kind} {t u : T D} {x y v : Val} (h : (o, k) ∈ opTable)
    (h1 : Means ρ G Δ t x) (h2 : Means ρ G Δ u y) (hv : apply ρ k .bool [x, y] = some v) : Means ρ G Δ (ap o [t, u]) v :=
  .op h (.cons h1 (.cons h2 .nil)) hv

theorem op3 {ρ : Env} {G : Sig} {Δ : List (List Char × Val)} {o : List Char} {k : Kind} {t u r : T D} {x y z v : Val} (h : (o, k) ∈ opTable)
    (h1 : Means ρ G Δ t x) (h2 : Means ρ G Δ u y) (h3 : Means ρ G Δ r z) (hv : apply ρ k .bool [x, y, z] = some v) :
    Means ρ G Δ (ap o [t, u, r]) v :=
  .op h (.cons h1 (.cons h2 (.cons h3 .nil))) hv

theorem m_means : Means mEnv (sigOf mDecls) [] mTerm (.b true) := by
  rw [m_sig]
  have hx : ∀ Δ : List (List Char × Val), Δ.lookup cs!"x" = none →
      Means mEnv ⟨[(cs!"x", .int)], [(cs!"f", [.int], .int)]⟩ Δ (s cs!"x") (.n 14) :=
    fun Δ h => var_means .int (by decide) (by decide) h rfl .int (by decide)
  refine .lets (xs := [.n 14]) rfl (.cons (.fn (i := 0) (vs := [.n 14]) rfl .int (.cons (hx _ rfl) .nil) rfl rfl (by decide)) .nil) ?_
  have hy : Means mEnv ⟨[(cs!"x", .int)], [(cs!"f", [.int], .int)]⟩ [(cs!"y", .n 14)] (s cs!"y") (.n 14) :=
    .bound (by decide) (by decide) rfl
  refine op2 (k := .and) (by decide) (x := .b true) (y := .b true) ?_ ?_ rfl
  · refine op2 (k := .le) (by decide) (x := .n 26) (y := .n 28) ?_ ?_ (by decide +kernel)
    · exact op2 (k := .add) (by decide) hy (lit_means (q := 12) rfl rfl ⟨by decide, by decide⟩ (by decide +kernel)) (by decide +kernel)
    · exact op2 (k := .mul) (by decide) (lit_means (q := 2) rfl rfl ⟨by decide, by decide⟩ (by decide +kernel)) (hx _ rfl) (by decide +kernel)
  · refine op1 (k := .not) (by decide) (x := .b false) ?_ rfl
    exact op2 (k := .eq) (by decide) hy (.neg (hx _ rfl)) (by decide +kernel)

/-- the script meets the hypotheses of `script_means_partial` -/
example (rest : Ctors SMT.Term) (rlit : Leaf.Lit → Res SMT.Term) : ∃ (st : Script.S) (k : Nat) (t : T Sorts.Srt) (n : SMT.Term),
    (∀ m, k ≤ m → Script.parseStr ⟨false, false⟩ m Script.fresh (Script.lines mScript) = .ok st) ∧ st.asserts = [t] ∧
      (∀ s0, Script.Represents mDecls s0 → node (ctxOf c0 s0) rest rlit (t.map sortOf) = .ok n) ∧ eval mEnv n = some (.b true) := by
  obtain ⟨st, k, h1, h2, h3⟩ := script_means_partial (arith := true) (reals := false) (c := c0) (rest := rest) (rlit := rlit)
    (by simp [mScript, Script.lines]) (Script.script_lines m_writes)
  obtain ⟨t, n, a1, a2, a3⟩ := h3 mDecls mTerm none none [] rfl (by simp [NoDefs, mDecls, Script.functions, Script.Cmd.fn]) m_arith m_sigOk m_lets
    m_fits ⟨mEnv, _, m_means⟩
  refine ⟨st, k, t, n, h1, ?_, a2, a3 _ _ m_means⟩
  have hl : st.asserts.length = 1 := h2
  match e : st.asserts, hl with
  | [t'], _ => rw [e] at a1; simp [mDecls, Script.assertions, Script.Cmd.assertion] at a1; rw [a1]

/-! ## What goes wrong -/

/-- constants only -/
def G2 (d : D) : Sig := ⟨[(cs!"x", d), (cs!"y", d), (cs!"z", d)], []⟩

/-- values for three constants -/
def env3 (x y z : Val) : Env := ⟨fun _ _ n => if n = "x" then x else if n = "y" then y else z, fun _ _ => "", fun _ _ _ => none⟩

/-- `(<= x y z)`: the third operand is lost -/
def badLe : T D := ap cs!"<=" [s cs!"x", s cs!"y", s cs!"z"]
/-- `(= true x y)`: `true` is lost -/
def badEq : T D := ap cs!"=" [s cs!"true", s cs!"x", s cs!"y"]
/-- `(let ((x y) (y x)) (= y z))`: the second binding sees the first -/
def badLet : T D := .mk (.lets [cs!"x", cs!"y"]) ([s cs!"y", s cs!"x"] ++ [ap cs!"=" [s cs!"y", s cs!"z"]])
/-- `(* 0 x)` in the logic `ALL`: the zero is lost -/
def badMul : T D := ap cs!"*" [s cs!"0", s cs!"x"]

/-- **C79 fails** for relations with three operands, for simultaneous lets, and for products with zero in the logic `ALL`: the node has
another value than what is written. -/
theorem read_means_violated (rest : Ctors SMT.Term) (rlit : Leaf.Lit → Res SMT.Term) :
    (Means (env3 (.n 1) (.n 2) (.n 0)) (G2 .int) [] badLe (.b false) ∧
      ∃ n, node (declared c0 (G2 .int).vars []) rest rlit (badLe.map some) = .ok n ∧ eval (env3 (.n 1) (.n 2) (.n 0)) n = some (.b true)) ∧
    (Means (env3 (.b false) (.b false) (.b false)) (G2 .bool) [] badEq (.b false) ∧
      ∃ n, node (declared c0 (G2 .bool).vars []) rest rlit (badEq.map some) = .ok n ∧
        eval (env3 (.b false) (.b false) (.b false)) n = some (.b true)) ∧
    (Means (env3 (.n 1) (.n 2) (.n 1)) (G2 .int) [] badLet (.b true) ∧
      ∃ n, node (declared c0 (G2 .int).vars []) rest rlit (badLet.map some) = .ok n ∧ eval (env3 (.n 1) (.n 2) (.n 1)) n = some (.b false)) ∧
    (Means (env3 (.n 5) (.n 0) (.n 0)) (G2 .int) [] badMul (.n 0) ∧
      ∃ n, node (declared (forLogic c0 cs!"ALL") (G2 .int).vars []) rest rlit (badMul.map some) = .ok n ∧
        eval (env3 (.n 5) (.n 0) (.n 0)) n = some (.n 5)) := by
  refine ⟨⟨?_, ?_⟩, ⟨?_, ?_⟩, ⟨?_, ?_⟩, ⟨?_, ?_⟩⟩
  · exact op3 (k := .le) (by decide) (var_means .int (by decide) (by decide) rfl rfl .int (by decide))
      (var_means .int (by decide) (by decide) rfl rfl .int (by decide)) (var_means .int (by decide) (by decide) rfl rfl .int (by decide))
      (by decide +kernel)
  · exact ⟨_, rfl, by decide +kernel⟩
  · exact op3 (k := .eq) (by decide) .tru (var_means .bool (by decide) (by decide) rfl rfl .bool (by decide))
      (var_means .bool (by decide) (by decide) rfl rfl .bool (by decide)) (by decide +kernel)
  · refine ⟨mkEqV c0 [.tt, bv "x", bv "y"], rfl, ?_⟩
    rw [show mkEqV c0 [.tt, bv "x", bv "y"] = .app .eq .bool [bv "x", bv "y"] by rw [mkEqV.eq_def]; rfl]
    decide
  · refine .lets (xs := [.n 2, .n 1]) rfl (.cons (var_means .int (by decide) (by decide) rfl rfl .int (by decide))
      (.cons (var_means .int (by decide) (by decide) rfl rfl .int (by decide)) .nil)) ?_
    exact op2 (k := .eq) (by decide) (x := .n 1) (y := .n 1) (.bound (by decide) (by decide) rfl)
      (var_means .int (by decide) (by decide) rfl rfl .int (by decide)) (by decide +kernel)
  · refine ⟨mkEqV c0 [iv "y", iv "z"], rfl, ?_⟩
    rw [show mkEqV c0 [iv "y", iv "z"] = .app .eq .bool [iv "y", iv "z"] by rw [mkEqV.eq_def]; dsimp only; rw [mkEq2.eq_def]; rfl]
    decide
  · exact op2 (k := .mul) (by decide) (lit_means (q := 0) rfl rfl ⟨by decide, by decide⟩ (by decide +kernel))
      (var_means .int (by decide) (by decide) rfl rfl .int (by decide)) (by decide +kernel)
  · exact ⟨_, rfl, by decide +kernel⟩

end SMT.Mean
