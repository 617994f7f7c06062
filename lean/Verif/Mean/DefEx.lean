import Verif.Mean.DefProps
import Verif.Mean.Viol
import Verif.Eval.Viol

/-! # C82: a script that meets the hypotheses, and definitions whose calls do not mean their bodies -/

namespace SMT.Mean
open SMT SMT.Text SMT.Kinds SMT.Sorts SMT.Parse SMT.Leaf SMT.Term SMT.Eval

set_option linter.unusedSimpArgs false
set_option linter.unusedVariables false

/-- two definitions, the second one calling the first -/
def dScript : List Sexp := [
  .list [w cs!"set-logic", w cs!"QF_UFLIA"],
  .list [w cs!"declare-const", w cs!"x", w cs!"Int"],
  .list [w cs!"define-fun", w cs!"g", .list [.list [w cs!"a", w cs!"Int"]], w cs!"Int", .list [w cs!"+", w cs!"a", w cs!"a"]],
  .list [w cs!"define-fun", w cs!"h", .list [.list [w cs!"a", w cs!"Int"], .list [w cs!"b", w cs!"Int"]], w cs!"Bool",
    .list [w cs!"<", .list [w cs!"g", w cs!"a"], w cs!"b"]],
  .list [w cs!"assert", .list [w cs!"h", .list [w cs!"g", w cs!"x"], w cs!"60"]]]

/-- `(+ a a)` -/
def gBody : T D := ap cs!"+" [s cs!"a", s cs!"a"]
/-- `(< (g a) b)` -/
def hBody : T D := ap cs!"<" [ap cs!"g" [s cs!"a"], s cs!"b"]
/-- the asserted term `(h (g x) 60)` -/
def dTerm : T D := ap cs!"h" [ap cs!"g" [s cs!"x"], s cs!"60"]

/-- the commands before the assertion -/
def dDecls : List Script.Cmd := [.logic cs!"QF_UFLIA", .var cs!"x" .int, .fns [(cs!"g", .defn [(cs!"a", .int)] .int gBody)],
  .fns [(cs!"h", .defn [(cs!"a", .int), (cs!"b", .int)] .bool hBody)]]

theorem d_writes : Script.WritesL [] dScript (dDecls ++ [.assert dTerm none none]) := by
  refine .cons (by decide +kernel) (.logic (by decide)) ?_
  refine .cons (by decide +kernel) (.const .int (by simp [Script.vars, Script.Cmd.vars])) ?_
  refine .cons (by decide +kernel) (.defFun (vs := [(cs!"a", .int)]) (.cons .int .nil) (by decide) .int
    ⟨reads_app (by decide) (.cons (reads_sym _) (.cons (reads_sym _) .nil)), by decide, fun _ h => by cases h⟩
    (by simp [Script.functions, Script.fnNames, Script.Cmd.fn])) ?_
  refine .cons (by decide +kernel) (.defFun (vs := [(cs!"a", .int), (cs!"b", .int)]) (.cons .int (.cons .int .nil)) (by decide) .bool
    ⟨reads_app (by decide) (.cons (reads_app (by decide) (.cons (reads_sym _) .nil)) (.cons (reads_sym _) .nil)), by decide, fun _ h => by cases h⟩
    (by simp [Script.functions, Script.fnNames, Script.Cmd.fn])) ?_
  exact .cons (by decide +kernel) (.assert (g1 := none) (g2 := none) (a := none)
    ⟨reads_app (by decide) (.cons (reads_app (by decide) (.cons (reads_sym _) .nil)) (.cons (reads_sym _) .nil)), by decide, fun _ h => by cases h⟩
    (.inl rfl) (.inl rfl)) .nil

/-- `x` is 14; `g` doubles, `h` says whether the double is smaller -/
def dEnv : Env := ⟨fun _ _ _ => .n 14, fun _ _ => "", fun k _ vs => match k, vs with
  | .uf 0, [.n p] => some (.n (p + p))
  | .uf 1, [.n p, .n q] => some (.b (decide (p + p < q)))
  | _, _ => none⟩

theorem d_fns : Script.functions dDecls =
    [(cs!"g", .defn [(cs!"a", .int)] .int gBody), (cs!"h", .defn [(cs!"a", .int), (cs!"b", .int)] .bool hBody)] := rfl

theorem d_sig : sigAll dDecls = ⟨[(cs!"x", .int)], [(cs!"g", [.int], .int), (cs!"h", [.int, .int], .bool)]⟩ := rfl

theorem d_sigOk : SigOk (sigAll dDecls) := by
  rw [d_sig]
  refine ⟨by decide, ?_, ?_, ?_⟩ <;> intro f hf <;> simp only [List.mem_cons, List.not_mem_nil, or_false] at hf <;> rcases hf with rfl | rfl
  · decide
  · decide
  · exact ⟨fun k => by simp [opTable], fun k => by simp [bvTable, arTable, strTable]⟩
  · exact ⟨fun k => by simp [opTable], fun k => by simp [bvTable, arTable, strTable]⟩
  · exact not_const (by decide) (by decide)
  · exact not_const (by decide) (by decide)

theorem d_vars : VarsOk (Script.vars dDecls) := by
  intro n hn
  have h : n ≠ cs!"x" := by
    rintro rfl
    exact not_const (by decide) (by decide) hn
  have h' : '|' :: n ++ ['|'] ≠ cs!"x" := by
    intro e
    cases n <;> simp at e
  rw [show Script.vars dDecls = [(cs!"x", .int)] from rfl]
  constructor
  · simp [List.lookup_cons, beq_eq_false_iff_ne.2 h]
  · rw [List.lookup_cons, beq_eq_false_iff_ne.2 h']; rfl

theorem d_at {i : Nat} {f : List Char} {ps : List (List Char × D)} {o : D} {b : T D} (h : (Script.functions dDecls)[i]? = some (f, .defn ps o b)) :
    (i = 0 ∧ f = cs!"g" ∧ ps = [(cs!"a", .int)] ∧ o = .int ∧ b = gBody) ∨
      (i = 1 ∧ f = cs!"h" ∧ ps = [(cs!"a", .int), (cs!"b", .int)] ∧ o = .bool ∧ b = hBody) := by
  rw [d_fns] at h
  match i with
  | 0 => cases h; exact .inl ⟨rfl, rfl, rfl, rfl, rfl⟩
  | 1 => cases h; exact .inr ⟨rfl, rfl, rfl, rfl, rfl⟩
  | n + 2 => cases h

theorem d_lets {G : Sig} {e : T D} (h : e.names = []) : LetsOk G e := by
  refine ⟨?_, ?_, ?_⟩ <;> rw [h] <;> simp

theorem d_ok : DefsOk true false (Script.functions dDecls) where
  noRec := by intro f ps o b h; rw [d_fns] at h; simp at h
  once := by
    intro f ps o b h
    rw [d_fns] at h
    simp only [List.mem_cons, Prod.mk.injEq, List.not_mem_nil, or_false] at h
    rcases h with ⟨_, h⟩ | ⟨_, h⟩ <;> cases h <;> decide
  apart := by
    intro i f ps o b h g hg p hp
    rcases d_at h with ⟨rfl, rfl, rfl, rfl, rfl⟩ | ⟨rfl, rfl, rfl, rfl, rfl⟩
    · simp at hg
    · rw [d_fns] at hg
      simp only [List.take_succ_cons, List.take_zero, List.mem_cons, List.not_mem_nil, or_false] at hg hp
      subst hg
      rcases hp with rfl | rfl <;> simp
  lets := by
    intro i f ps o b h
    rcases d_at h with ⟨rfl, rfl, rfl, rfl, rfl⟩ | ⟨rfl, rfl, rfl, rfl, rfl⟩ <;> exact d_lets (by decide)
  fits := by
    intro i f ps o b h
    rcases d_at h with ⟨rfl, rfl, rfl, rfl, rfl⟩ | ⟨rfl, rfl, rfl, rfl, rfl⟩ <;>
      simp [gBody, hBody, ap, s, Fits, FitsL, Tag.fits, Tag.reals, relations, wrongFold, foldOps, strFolds, strInts, intOps, realOps, wrongWidth]
  evals := by
    intro i f ps o b h
    rcases d_at h with ⟨rfl, rfl, rfl, rfl, rfl⟩ | ⟨rfl, rfl, rfl, rfl, rfl⟩ <;> simp [gBody, hBody, ap, s, Evals, EvalsL, Tag.evals, bvTable, arTable, strTable]

/-- a parameter has the value of the argument -/
theorem param_means {ρ : Env} {G : Sig} (d : D) {n : List Char} {v : Val} {σ : SMT.Srt} (h1 : n ≠ cs!"true") (h2 : n ≠ cs!"false")
    (h3 : G.vars.lookup n = some d) (h4 : SortIs d σ) (h5 : ρ.var .var σ (String.ofList n) = v) (h6 : v.hasSort σ = true) :
    Means ρ G [] (s n) v := .var h1 h2 rfl h3 h4 h5 h6

theorem one_num {p : Rat} : apply ρ .add .bool [.n p, .n p] = some (.n (p + p)) := by
  simp [apply, numsOf, Rat.add_zero]

theorem g_means {ρ : Env} {p : Rat} {fs : List (List Char × List D × D)} :
    Means (withArgs ρ [(cs!"a", .int)] [.n p]) ⟨[(cs!"a", .int)], fs⟩ [] gBody (.n (p + p)) := by
  have ha : Means (withArgs ρ [(cs!"a", .int)] [.n p]) ⟨[(cs!"a", .int)], fs⟩ [] (s cs!"a") (.n p) :=
    param_means .int (by decide) (by decide) rfl .int (by simp [withArgs]) rfl
  exact op2 (k := .add) (by decide) ha ha one_num

theorem h_means {ρ : Env} {p q : Rat} {u : Rat} (h : ρ.fn (.uf 0) .int [.n p] = some (.n u)) :
    Means (withArgs ρ [(cs!"a", .int), (cs!"b", .int)] [.n p, .n q]) ⟨[(cs!"a", .int), (cs!"b", .int)], [(cs!"g", [.int], .int)]⟩ [] hBody
      (.b (decide (u < q))) := by
  refine op2 (k := .lt) (x := .n u) (y := .n q) (by decide) (.fn (i := 0) (ds := [.int]) (vs := [.n p]) rfl .int (.cons ?_ .nil) rfl h rfl) ?_ ?_
  · exact param_means .int (by decide) (by decide) rfl .int (by simp [withArgs]) rfl
  · exact param_means .int (by decide) (by decide) rfl .int (by simp [withArgs, List.lookup_cons]) rfl
  · simp [apply, numsOf, cmpChain, chain]

theorem d_defines : Defines dEnv (Script.functions dDecls) := by
  intro i f ps o b h σ vs v hσ hl hv
  rcases d_at h with ⟨rfl, rfl, rfl, rfl, rfl⟩ | ⟨rfl, rfl, rfl, rfl, rfl⟩
  · match vs, hl with
    | [.n p], _ => simp [dEnv] at hv; subst hv; exact g_means
    | [.b _], _ => simp [dEnv] at hv
    | [.u _ _], _ => simp [dEnv] at hv
  · match vs, hl with
    | [.n p, .n q], _ => simp only [dEnv, Option.some.injEq] at hv; subst hv; exact h_means rfl
    | [.b _, _], _ => simp [dEnv] at hv
    | [.u _ _, _], _ => simp [dEnv] at hv
    | [.n _, .b _], _ => simp [dEnv] at hv
    | [.n _, .u _ _], _ => simp [dEnv] at hv

theorem d_meaningful : Meaningful (Script.functions dDecls) := by
  intro i f ps o b h
  have hd : ∀ k, Defines dEnv ((Script.functions dDecls).take k) := by
    intro k j f ps o b hj σ vs v hσ hl hv
    have hjk : j < k := by
      rcases Nat.lt_or_ge j k with h | h
      · exact h
      · rw [List.getElem?_eq_none (by rw [List.length_take]; omega)] at hj; cases hj
    rw [List.getElem?_take_of_lt hjk] at hj
    rw [List.take_take, Nat.min_eq_left (by omega)]
    exact d_defines j f ps o b hj σ vs v hσ hl hv
  rcases d_at h with ⟨rfl, rfl, rfl, rfl, rfl⟩ | ⟨rfl, rfl, rfl, rfl, rfl⟩
  · exact ⟨dEnv, [.n 1], _, hd _, rfl, g_means⟩
  · exact ⟨dEnv, [.n 1, .n 2], _, hd _, rfl, h_means rfl⟩

theorem d_means : Means dEnv (sigAll dDecls) [] dTerm (.b true) := by
  rw [d_sig]
  refine .fn (i := 1) (ds := [.int, .int]) (vs := [.n 28, .n 60]) rfl .bool (.cons (.fn (i := 0) (ds := [.int]) (vs := [.n 14]) rfl .int
    (.cons (var_means .int (by decide) (by decide) rfl rfl .int (by decide)) .nil) rfl (by decide +kernel) (by decide)) (.cons ?_ .nil)) rfl
    (by decide +kernel) rfl
  exact lit_means (q := 60) rfl rfl ⟨by decide, by decide⟩ (by decide +kernel)

theorem d_follows : Follows (sigAll dDecls) dEnv (m1 "x" (.cint 14)) := by
  intro n d σ b1 b2 b3
  rw [d_sig] at b1
  have hn : n = cs!"x" := by
    by_cases h : n = cs!"x"
    · exact h
    · simp [List.lookup_cons, beq_eq_false_iff_ne.2 h] at b1
  subst hn
  have : d = .int := by simpa [List.lookup_cons] using b1.symm
  subst this
  cases b2
  decide

/-- The script meets the hypotheses of `script_defs_partial`: its assertion is the node of `(< (+ (+ x x) (+ x x)) 60)`, which is true where `x` is 14,
whatever is said of `g` and `h`. -/
example (rest : Ctors SMT.Term) (rlit : Leaf.Lit → Res SMT.Term) : ∃ (st : Script.S) (k : Nat) (t : T Sorts.Srt) (X : DCtx) (n : SMT.Term),
    (∀ m, k ≤ m → Script.parseStr ⟨false, false⟩ m Script.fresh (Script.lines dScript) = .ok st) ∧ st.asserts = [t] ∧
      (∀ s0, Script.Represents dDecls s0 → dctxOf c0 rest rlit s0 = .ok X) ∧ dnode X rest rlit (t.map sortOf) = .ok n ∧
      eval { dEnv with fn := fun _ _ _ => none } n = some (.b true) ∧
      eval dEnv (evaluate (forLogic c0 (Script.logicOf dDecls)) o0 (m1 "x" (.cint 14)) n) = some (.b true) := by
  obtain ⟨st, k, h1, h2, h3⟩ := script_defs_partial (arith := true) (reals := false) (c := c0) (rest := rest) (rlit := rlit)
    (by simp [dScript, Script.lines]) (Script.script_lines d_writes) o0 (fun _ => rfl)
  have hf : Fits (sigAll dDecls) true false dTerm := by
    simp [dTerm, ap, s, Fits, FitsL, Tag.fits, Tag.reals, relations, wrongFold, foldOps, strFolds, strInts, intOps, realOps, wrongWidth]
  have he : Evals (sigAll dDecls) false true dTerm := by
    rw [d_sig]; simp [dTerm, ap, s, Evals, EvalsL, Tag.evals, bvTable, arTable, strTable]
  have ha : Arith true false (forLogic c0 (Script.logicOf dDecls)) :=
    ⟨fun i => by simp only [forLogic, c0, id]; constructor <;> norm_cast, by decide, fun _ => .inl (by decide)⟩
  obtain ⟨t, X, n, a1, a2, a3, a4⟩ := h3 dDecls dTerm none none [] rfl ha d_sigOk d_vars d_ok d_meaningful (d_lets (by decide)) hf he
    ⟨dEnv, _, d_defines, d_means⟩
  obtain ⟨b1, b2⟩ := a4 _ _ d_defines d_means
  refine ⟨st, k, t, X, n, h1, ?_, a2, a3, ?_, b2 _ ?_ d_follows⟩
  · have hl : st.asserts.length = 1 := h2
    match e : st.asserts, hl with
    | [t'], _ => rw [e] at a1; simp [dDecls, Script.assertions, Script.Cmd.assertion] at a1; rw [a1]
  · have : forget (Script.functions dDecls) dEnv = { dEnv with fn := fun _ _ _ => none } := by
      simp only [forget, d_fns, dEnv, Env.mk.injEq, true_and]
      funext k σ vs
      split
      · rename_i i
        match i with
        | 0 => rfl
        | 1 => rfl
        | n + 2 => rfl
      · split <;> simp_all
    rw [← this]
    exact b1
  · intro x
    by_cases h : x = "x"
    · subst h; rfl
    · simp [Mdl.get, m1, List.lookup_cons, beq_eq_false_iff_ne.2 h, Std, leafOk]

/-! ## What goes wrong -/

/-- `k`, without parameters, is 5; the recursive `r` adds 1; `u` adds the declared `x` -/
def badDefs : List (List Char × Script.Fn (Option D)) := [(cs!"k", .defn [] (some .int) (.mk (.sym cs!"5" false) [])),
  (cs!"r", .recu [(cs!"a", some .int)] (some .int) (.mk (.app cs!"+" 0) [.mk (.sym cs!"a" false) [], .mk (.sym cs!"1" false) []])),
  (cs!"u", .defn [(cs!"a", some .int)] (some .int) (.mk (.app cs!"+" 0) [.mk (.sym cs!"a" false) [], .mk (.sym cs!"x" false) []]))]

/-- **C82 fails**: the name of a function defined without parameters, and a call of a recursive function, are opaque: the node is an operator of
which nothing is known, so an assignment decides what it is; and a call of a function whose body has a declared constant ends the process. -/
theorem define_const_violated (rest : Ctors SMT.Term) (rlit : Leaf.Lit → Res SMT.Term) :
    ∃ F, addFuns c0 [(cs!"x", .int)] rest rlit [] badDefs = .ok F ∧
      dnode ⟨c0, [(cs!"x", .int)], F, []⟩ rest rlit (.mk (.sym cs!"k" false) []) = .ok (.app (.misc 0) .int []) ∧
      dnode ⟨c0, [(cs!"x", .int)], F, []⟩ rest rlit (.mk (.app cs!"r" 0) [.mk (.sym cs!"x" false) []]) =
        .ok (.app (.misc 1) .int [.var .var .int "x"]) ∧
      dnode ⟨c0, [(cs!"x", .int)], F, []⟩ rest rlit (.mk (.app cs!"u" 0) [.mk (.sym cs!"x" false) []]) = .abort ∧
      ∀ v : Rat, ∃ ρ : Env, eval ρ (.app (.misc 0) .int []) = some (.n v) ∧ eval ρ (.app (.misc 1) .int [.var .var .int "x"]) = some (.n v) := by
  refine ⟨_, rfl, rfl, rfl, rfl, fun v => ⟨⟨fun _ _ _ => .n 0, fun _ _ => "", fun _ _ _ => some (.n v)⟩, ?_, ?_⟩⟩
  · rfl
  · rfl

/-- `(define-fun p ((a Bool) (b Bool)) Bool (= a b))` -/
def eqDef : List (List Char × Script.Fn (Option D)) := [(cs!"p", .defn [(cs!"a", some .bool), (cs!"b", some .bool)] (some .bool)
  (.mk (.app cs!"=" 0) [.mk (.sym cs!"a" false) [], .mk (.sym cs!"b" false) []]))]

/-- **No literal is claimed in C82**, unlike C81: `(p true false)` is the node `(= true false)`, which `mkEq` would simplify but the copy of
the body does not; evaluation, which rebuilds only what changed, leaves it as it is in every model, so it never gives `false`. -/
theorem call_const_violated (rest : Ctors SMT.Term) (rlit : Leaf.Lit → Res SMT.Term) (m : Mdl.M) :
    ∃ F n, addFuns c0 [] rest rlit [] eqDef = .ok F ∧
      dnode ⟨c0, [], F, []⟩ rest rlit (.mk (.app cs!"p" 0) [.mk (.sym cs!"true" false) [], .mk (.sym cs!"false" false) []]) = .ok n ∧
      n = .app .eq .bool [.tt, .ff] ∧ (∀ ρ, eval ρ n = some (.b false)) ∧ evaluate c0 o0 m n = n ∧ ¬ IsLiteral n (.b false) := by
  have hb : build (dctors ⟨c0, [], [], [(cs!"a", some .bool), (cs!"b", some .bool)]⟩ rest rlit) []
      (.mk (.app cs!"=" 0) [.mk (.sym cs!"a" false) [], .mk (.sym cs!"b" false) []]) =
      .ok (.app .eq .bool [.var .temp .bool "a", .var .temp .bool "b"]) := by
    show Res.ok (mkEqV c0 [.var .temp .bool "a", .var .temp .bool "b"]) = _
    rw [mkEqV.eq_def]
    dsimp only
    rw [mkEq2.eq_def]
    rfl
  refine ⟨[(cs!"p", ⟨0, .bool, [(.bool, "a"), (.bool, "b")], some (.app .eq .bool [.param .bool "a", .param .bool "b"]), false⟩)],
    .app .eq .bool [.tt, .ff], ?_, rfl, rfl, fun ρ => rfl, ?_, by simp [IsLiteral]⟩
  · simp only [addFuns, addFun, eqDef, hb]
    rfl
  · unfold evaluate
    split <;> rfl

end SMT.Mean
