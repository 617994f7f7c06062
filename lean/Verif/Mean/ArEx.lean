import Verif.Mean.BvEx

/-! # C83: a script that meets the hypotheses, and what goes wrong -/

namespace SMT.Mean
open SMT SMT.Text SMT.Kinds SMT.Sorts SMT.Parse SMT.Leaf SMT.Term SMT.Eval

set_option linter.unusedSimpArgs false
set_option linter.unusedVariables false

/-! ## An assignment of the theorem -/

/-- the operators, with some value for division by zero -/
def arMeaning (k : Kind) (vs : List Val) : Option Val := match k, vs with
  | .arith 0, [.n a, .n b] => some (.n ((a.floor / b.floor : Int) : Rat))
  | .arith 1, [.n a, .n b] => some (.n ((a.floor % b.floor : Int) : Rat))
  | .arith 2, [.n a, .n b] => some (.n (a / b))
  | .arith 3, [.n a] => some (.n (if a < 0 then -a else a))
  | .arith 4, [.n a] => some (.n a)
  | .arith 5, [.n a] => some (.n (a.floor : Int))
  | .atom 8, [.n a] => some (.b (decide (a.den = 1)))
  | _, _ => none

/-- every constant of sort `Real` is 7/2, every other one is -7 -/
def arEnv : Env := ⟨fun _ σ _ => match σ with
  | .real => .n (7 / 2)
  | _ => .n (-7), fun _ _ => "", fun k _ vs => arMeaning k vs⟩

theorem divmod_eq {a b q r : Int} (h : a = b * q + r) (h0 : 0 ≤ r) (h1 : r < b.natAbs) : a / b = q ∧ a % b = r := by
  rcases Int.lt_trichotomy b 0 with hb | hb | hb
  · exact (Int.ediv_emod_unique' hb).2 ⟨by omega, h0, by omega⟩
  · subst hb; simp at h1; omega
  · exact (Int.ediv_emod_unique hb).2 ⟨by omega, h0, by omega⟩

theorem arMeaning_ok {o : List Char} {k : Kind} {vs : List Val} {v : Val} (hk : (o, k) ∈ arTable) (h : ArApp o vs v) : arMeaning k vs = some v := by
  have one : ∀ {k' : Kind}, arTable.lookup o = some k' → k = k' := by
    intro k' e
    have key : ∀ p ∈ arTable, arTable.lookup p.1 = some p.2 := by decide
    have := key _ hk
    rw [e] at this
    exact (Option.some.inj this).symm
  cases h with
  | div a b q r h1 h2 h3 => rw [one rfl]; simp [arMeaning, Rat.floor_intCast, divmod_eq h1 h2 h3]
  | mod a b q r h1 h2 h3 => rw [one rfl]; simp [arMeaning, Rat.floor_intCast, divmod_eq h1 h2 h3]
  | quot a b q h1 h2 =>
    rw [one rfl]
    simp only [arMeaning, Option.some.injEq, Val.n.injEq]
    rw [h2, Rat.mul_comm, Rat.div_def, Rat.mul_assoc, Rat.mul_inv_cancel _ h1, Rat.mul_one]
  | absPos a h => rw [one rfl]; simp [arMeaning, Rat.not_lt.2 h]
  | absNeg a h => rw [one rfl]; simp [arMeaning, h]
  | toReal a => rw [one rfl]; rfl
  | toInt a z h1 h2 =>
    rw [one rfl]
    have e : a.floor = z := by
      have a1 := Rat.le_floor_iff.2 h1
      have a2 := Rat.floor_lt_iff.2 (show a < ((z + 1 : Int) : Rat) by rw [Rat.intCast_add]; exact h2)
      omega
    simp [arMeaning, e]
  | isInt a => rw [one rfl]; simp [arMeaning]
  | notInt a h =>
    rw [one rfl]
    have : ¬ a.den = 1 := by
      intro e
      refine h a.num ?_
      apply Rat.ext
      · simp
      · simpa using e
    simp [arMeaning, this]

theorem arEnv_interprets : InterpretsAr arEnv := fun _ _ _ _ _ hk h _ => arMeaning_ok hk h

/-! ## A script that meets the hypotheses -/

/-- integers and reals -/
def aScript : List Sexp := [
  .list [w cs!"set-logic", w cs!"QF_NIRA"],
  .list [w cs!"declare-const", w cs!"x", w cs!"Int"],
  .list [w cs!"declare-const", w cs!"r", w cs!"Real"],
  .list [w cs!"assert", .list [w cs!"let", .list [.list [w cs!"q", .list [w cs!"div", w cs!"x", w cs!"2"]]],
    .list [w cs!"and", .list [w cs!"=", w cs!"q", .list [w cs!"-", .list [w cs!"mod", w cs!"x", w cs!"4"], w cs!"5"]],
      .list [w cs!">=", .list [w cs!"abs", w cs!"x"], .list [w cs!"mod", w cs!"x", w cs!"0"]],
      .list [w cs!"not", .list [w cs!"is_int", .list [w cs!"/", w cs!"r", w cs!"7.0"]]],
      .list [w cs!"<", .list [w cs!"/", .list [w cs!"+", w cs!"r", w cs!"1.5"], .list [w cs!"to_real", w cs!"x"]],
        .list [w cs!"to_int", w cs!"r"]]]]]]

/-- the asserted term -/
def aTerm : T D := .mk (.lets [cs!"q"]) ([ap cs!"div" [s cs!"x", s cs!"2"]] ++ [
  ap cs!"and" [ap cs!"=" [s cs!"q", ap cs!"-" [ap cs!"mod" [s cs!"x", s cs!"4"], s cs!"5"]],
    ap cs!">=" [ap cs!"abs" [s cs!"x"], ap cs!"mod" [s cs!"x", s cs!"0"]],
    ap cs!"not" [ap cs!"is_int" [ap cs!"/" [s cs!"r", s cs!"7.0"]]],
    ap cs!"<" [ap cs!"/" [ap cs!"+" [s cs!"r", s cs!"1.5"], ap cs!"to_real" [s cs!"x"]], ap cs!"to_int" [s cs!"r"]]]])

/-- the declarations before it -/
def aDecls : List Script.Cmd := [.logic cs!"QF_NIRA", .var cs!"x" .int, .var cs!"r" .real]

theorem a_reads : Reads [] false (.list [w cs!"let", .list [.list [w cs!"q", .list [w cs!"div", w cs!"x", w cs!"2"]]],
    .list [w cs!"and", .list [w cs!"=", w cs!"q", .list [w cs!"-", .list [w cs!"mod", w cs!"x", w cs!"4"], w cs!"5"]],
      .list [w cs!">=", .list [w cs!"abs", w cs!"x"], .list [w cs!"mod", w cs!"x", w cs!"0"]],
      .list [w cs!"not", .list [w cs!"is_int", .list [w cs!"/", w cs!"r", w cs!"7.0"]]],
      .list [w cs!"<", .list [w cs!"/", .list [w cs!"+", w cs!"r", w cs!"1.5"], .list [w cs!"to_real", w cs!"x"]],
        .list [w cs!"to_int", w cs!"r"]]]]) aTerm := by
  have r1 : ∀ {a : List Char}, ReadsL [] false [w a] [s a] := .cons (reads_sym _) .nil
  have r2 : ∀ {a b : List Char}, ReadsL [] false [w a, w b] [s a, s b] := .cons (reads_sym _) r1
  refine .lets (.cons (reads_app (by decide) r2) .nil) (reads_app (by decide) (.cons (reads_app (by decide) (.cons (reads_sym _) (.cons ?_ .nil)))
    (.cons (reads_app (by decide) (.cons (reads_app (by decide) r1) (.cons (reads_app (by decide) r2) .nil)))
    (.cons (reads_app (by decide) (.cons (reads_app (by decide) (.cons (reads_app (by decide) r2) .nil)) .nil)) (.cons ?_ .nil)))))
  · exact reads_app (by decide) (.cons (reads_app (by decide) r2) r1)
  · exact reads_app (by decide) (.cons (reads_app (by decide) (.cons (reads_app (by decide) r2) (.cons (reads_app (by decide) r1) .nil)))
      (.cons (reads_app (by decide) r1) .nil))

theorem a_writes : Script.WritesL [] aScript (aDecls ++ [.assert aTerm none none]) := by
  refine .cons (by decide +kernel) (.logic (by decide)) ?_
  refine .cons (by decide +kernel) (.const .int (by simp [Script.vars, Script.Cmd.vars])) ?_
  refine .cons (by decide +kernel) (.const .real (by simp [Script.vars, Script.Cmd.vars])) ?_
  exact .cons (by decide +kernel) (.assert (g1 := none) (g2 := none) (a := none) ⟨a_reads, by decide, fun _ h => by cases h⟩ (.inl rfl) (.inl rfl)) .nil

/-- the declarations of the script -/
def aG : Sig := ⟨[(cs!"x", .int), (cs!"r", .real)], []⟩

theorem a_sig : sigOf aDecls = aG := rfl

theorem a_sigOk : SigOk aG := ⟨by decide, by simp [aG], by simp [aG], by simp [aG]⟩

theorem a_lets : LetsOk aG aTerm := by
  have hn : aTerm.names = [cs!"q"] := by decide
  refine ⟨by decide, ?_, ?_⟩ <;> rw [hn]
  · simp [aG]
  · intro n hm
    simp only [List.mem_cons, List.not_mem_nil, or_false] at hm
    subst hm
    exact not_const (by decide) (by decide)

/-- decimals -/
theorem dec_lit (ds es : List Char) (h1 : Tok.Digits ds) (h2 : Tok.Digits es) : ∃ q, Literal (ds ++ '.' :: es) q := ⟨_, .dec h1 h2⟩

theorem a_fits : Fits aG true true aTerm := by
  have d7 : ∃ q, Literal cs!"7.0" q := dec_lit cs!"7" cs!"0" ⟨by decide, by decide⟩ ⟨by decide, by decide⟩
  have d1 : ∃ q, Literal cs!"1.5" q := dec_lit cs!"1" cs!"5" ⟨by decide, by decide⟩ ⟨by decide, by decide⟩
  have n2 : Tok.Digits cs!"2" := ⟨by decide, by decide⟩
  have n4 : Tok.Digits cs!"4" := ⟨by decide, by decide⟩
  have n0 : Tok.Digits cs!"0" := ⟨by decide, by decide⟩
  have hr : [(cs!"x", D.int), (cs!"r", D.real)].lookup cs!"r" = some .real := rfl
  simp [aTerm, ap, s, Fits, FitsL, Tag.fits, Tag.reals, relations, wrongFold, foldOps, strFolds, strInts, intOps, realOps, wrongWidth, OfSort, OfSortL, Strictly,
    AnyStrictly, Varies, VariesL, resTable, bvTable, arTable, aG, d7, d1, n2, n4, n0, hr]

theorem a_arith : Arith true true (forLogic c0 (Script.logicOf aDecls)) :=
  ⟨fun q => rfl, fun _ => rfl, fun _ => .inr (by decide)⟩

theorem ar_as {ρ : Env} {G : Sig} {Δ : List (List Char × Val)} {o : List Char} {ts : List (T D)} {vs : List Val} {v v' : Val}
    (hI : InterpretsAr ρ) (ha : ArApp o vs v') (e : v' = v) (h : MeansL ρ G Δ ts vs) : Means ρ G Δ (ap o ts) v := e ▸ .ar hI h (.inl ha)

theorem dec_means {ρ : Env} {G : Sig} {Δ : List (List Char × Val)} (ds es : List Char) {q : Rat} (hΔ : Δ.lookup (ds ++ '.' :: es) = none)
    (h3 : G.vars.lookup (ds ++ '.' :: es) = none) (h1 : Tok.Digits ds) (h2 : Tok.Digits es)
    (hq : undec ds + undec es / ((10 ^ es.length : Nat) : Rat) = q) : Means ρ G Δ (s (ds ++ '.' :: es)) (.n q) := by
  subst hq; exact .lit hΔ h3 (.dec h1 h2)

theorem a_means : Means arEnv (sigOf aDecls) [] aTerm (.b true) := by
  rw [a_sig]
  have hI := arEnv_interprets
  have hx : ∀ Δ : List (List Char × Val), Δ.lookup cs!"x" = none → Means arEnv aG Δ (s cs!"x") (.n ((-7 : Int) : Rat)) :=
    fun Δ h => var_means .int (by decide) (by decide) h rfl .int (by decide)
  have hr : ∀ Δ : List (List Char × Val), Δ.lookup cs!"r" = none → Means arEnv aG Δ (s cs!"r") (.n (7 / 2)) :=
    fun Δ h => var_means .real (by decide) (by decide) h rfl .real (by decide)
  have hn : ∀ (Δ : List (List Char × Val)) (n : List Char) (k : Int), Δ.lookup n = none → aG.vars.lookup n = none → Tok.Digits n →
      (k : Rat) = undec n → Means arEnv aG Δ (s n) (.n (k : Rat)) := fun Δ n k h1 h2 h3 h4 => lit_means h1 h2 h3 h4
  refine .lets (xs := [.n ((-4 : Int) : Rat)]) rfl (.cons (ar_as hI (.div (-7) 2 (-4) 1 (by decide) (by decide) (by decide)) rfl
    (.cons (hx _ rfl) (.cons (hn _ _ 2 rfl rfl ⟨by decide, by decide⟩ (by decide +kernel)) .nil))) .nil) ?_
  refine .op (k := .and) (vs := [.b true, .b true, .b true, .b true]) (by decide) (.cons ?_ (.cons ?_ (.cons ?_ (.cons ?_ .nil)))) rfl
  · refine op2 (k := .eq) (by decide) (x := .n (-4)) (y := .n (-4)) (.bound (by decide) (by decide) rfl) ?_ (by decide +kernel)
    exact op2 (k := .sub) (by decide) (ar_as hI (.mod (-7) 4 (-2) 1 (by decide) (by decide) (by decide)) rfl
      (.cons (hx _ rfl) (.cons (hn _ _ 4 rfl rfl ⟨by decide, by decide⟩ (by decide +kernel)) .nil)))
      (hn _ _ 5 rfl rfl ⟨by decide, by decide⟩ (by decide +kernel)) (by decide +kernel)
  · refine op2 (k := .ge) (by decide) (ar_as hI (.absNeg ((-7 : Int) : Rat) (by decide +kernel)) rfl (.cons (hx _ rfl) .nil))
      (.ar (v := .n (-7)) hI (.cons (hx _ rfl) (.cons (hn _ _ 0 rfl rfl ⟨by decide, by decide⟩ (by decide +kernel)) .nil))
        (.inr ⟨.arith 1, .int, _, by decide, rfl, by decide +kernel, rfl⟩)) (by decide +kernel)
  · refine op1 (k := .not) (by decide) (x := .b false) ?_ rfl
    refine ar_as hI (.notInt (1 / 2) ?_) rfl (.cons (ar_as hI (.quot (7 / 2) 7 (1 / 2) (by decide +kernel) (by decide +kernel)) rfl
      (.cons (hr _ rfl) (.cons (dec_means cs!"7" cs!"0" rfl rfl ⟨by decide, by decide⟩ ⟨by decide, by decide⟩ (by decide +kernel)) .nil))) .nil)
    intro z h
    have := congrArg Rat.den h
    rw [Rat.den_intCast] at this
    exact absurd this (by decide +kernel)
  · refine op2 (k := .lt) (by decide) (x := .n (-5 / 7)) (y := .n ((3 : Int) : Rat)) ?_
      (ar_as hI (.toInt (7 / 2) 3 (by decide +kernel) (by decide +kernel)) rfl (.cons (hr _ rfl) .nil)) (by decide +kernel)
    refine ar_as hI (.quot 5 ((-7 : Int) : Rat) (-5 / 7) (by decide +kernel) (by decide +kernel)) rfl (.cons ?_ (.cons ?_ .nil))
    · exact op2 (k := .add) (by decide) (hr _ rfl)
        (dec_means cs!"1" cs!"5" (q := 3 / 2) rfl rfl ⟨by decide, by decide⟩ ⟨by decide, by decide⟩ (by decide +kernel)) (by decide +kernel)
    · exact ar_as hI (.toReal (-7)) rfl (.cons (hx _ rfl) .nil)

/-- the script meets the hypotheses of `script_means_partial` -/
example (rest : Ctors SMT.Term) (rlit : Leaf.Lit → Res SMT.Term) : ∃ (st : Script.S) (k : Nat) (t : T Sorts.Srt) (n : SMT.Term),
    (∀ m, k ≤ m → Script.parseStr ⟨false, false⟩ m Script.fresh (Script.lines aScript) = .ok st) ∧ st.asserts = [t] ∧
      (∀ s0, Script.Represents aDecls s0 → node (ctxOf c0 s0) rest rlit (t.map sortOf) = .ok n) ∧ eval arEnv n = some (.b true) := by
  obtain ⟨st, k, h1, h2, h3⟩ := script_means_partial (arith := true) (reals := true) (c := c0) (rest := rest) (rlit := rlit)
    (by simp [aScript, Script.lines]) (Script.script_lines a_writes)
  obtain ⟨t, n, a1, a2, a3⟩ := h3 aDecls aTerm none none [] rfl (by simp [NoDefs, aDecls, Script.functions, Script.Cmd.fn]) a_arith a_sigOk a_lets
    a_fits ⟨arEnv, _, a_means⟩
  refine ⟨st, k, t, n, h1, ?_, a2, a3 _ _ a_means⟩
  have hl : st.asserts.length = 1 := h2
  match e : st.asserts, hl with
  | [t'], _ => rw [e] at a1; simp [aDecls, Script.assertions, Script.Cmd.assertion] at a1; rw [a1]

/-- operators on constants only: all but the first quotients are computed -/
def constTerm : T D := ap cs!"and" [
  ap cs!"=" [ap cs!"/" [s cs!"1", s cs!"3"], ap cs!"/" [s cs!"0.5", s cs!"1.5"]],
  ap cs!"=" [ap cs!"/" [ap cs!"-" [s cs!"4"], s cs!"2"], ap cs!"-" [ap cs!"to_real" [s cs!"2"]]],
  ap cs!"=" [ap cs!"div" [s cs!"7", s cs!"2"], s cs!"3"],
  ap cs!"=" [ap cs!"mod" [s cs!"7", s cs!"4"], ap cs!"to_int" [s cs!"3"]],
  ap cs!"is_int" [s cs!"4"]]

theorem const_fits : Fits aG true true constTerm := by
  have n : ∀ x : List Char, Tok.Digits x → aG.vars.lookup x = none → Numeral aG (s x) := fun x h1 h2 => ⟨x, _, rfl, h1, h2⟩
  have d1 : Tok.Digits cs!"1" := ⟨by decide, by decide⟩
  have d2 : Tok.Digits cs!"2" := ⟨by decide, by decide⟩
  have d3 : Tok.Digits cs!"3" := ⟨by decide, by decide⟩
  have d4 : Tok.Digits cs!"4" := ⟨by decide, by decide⟩
  have d7 : Tok.Digits cs!"7" := ⟨by decide, by decide⟩
  have l1 : Literal cs!"0.5" _ := .dec (ds := cs!"0") (es := cs!"5") ⟨by decide, by decide⟩ ⟨by decide, by decide⟩
  have l2 : Literal cs!"1.5" _ := .dec (ds := cs!"1") (es := cs!"5") ⟨by decide, by decide⟩ ⟨by decide, by decide⟩
  have e1 : ∃ q, Literal cs!"0.5" q := ⟨_, l1⟩
  have e2 : ∃ q, Literal cs!"1.5" q := ⟨_, l2⟩
  have f1 : FoldsRightAr aG true cs!"/" [s cs!"1", s cs!"3"] :=
    .inr ⟨rfl, rfl, _, _, _, _, rfl, .lit (.num d1) rfl, .lit (.num d3) rfl, .inr (by decide +kernel)⟩
  have f2 : FoldsRightAr aG true cs!"/" [s cs!"0.5", s cs!"1.5"] :=
    .inr ⟨rfl, rfl, _, _, _, _, rfl, .lit l1 rfl, .lit l2 rfl, .inr (by decide +kernel)⟩
  have f3 : FoldsRightAr aG true cs!"/" [ap cs!"-" [s cs!"4"], s cs!"2"] :=
    .inr ⟨rfl, rfl, _, _, _, _, rfl, .neg (.lit (.num d4) rfl), .lit (.num d2) rfl, .inr (by decide +kernel)⟩
  have one : ∀ {o x : List Char}, o ∈ arRight → o ≠ cs!"div" ∧ o ≠ cs!"mod" → Tok.Digits x → aG.vars.lookup x = none →
      FoldsRightAr aG true o [s x] := fun h1 h2 h3 h4 =>
    .inl ⟨h1, by simpa using n _ h3 h4, fun _ => rfl, fun h => (h.elim h2.1 h2.2).elim⟩
  have two : ∀ {o x y : List Char}, o ∈ arRight → Tok.Digits x → aG.vars.lookup x = none → Tok.Digits y → aG.vars.lookup y = none → undec y ≠ 0 →
      FoldsRightAr aG true o [s x, s y] := fun h1 h3 h4 h5 h6 h7 =>
    .inl ⟨h1, by simpa using ⟨n _ h3 h4, n _ h5 h6⟩, fun _ => rfl, fun _ s' ph h => by simp [s] at h; rw [h.1]; exact h7⟩
  have f4 : FoldsRightAr aG true cs!"to_real" [s cs!"2"] := one (by decide) (by decide) d2 rfl
  have f5 : FoldsRightAr aG true cs!"div" [s cs!"7", s cs!"2"] := two (by decide) d7 rfl d2 rfl (by decide)
  have f6 : FoldsRightAr aG true cs!"mod" [s cs!"7", s cs!"4"] := two (by decide) d7 rfl d4 rfl (by decide)
  have f7 : FoldsRightAr aG true cs!"to_int" [s cs!"3"] := one (by decide) (by decide) d3 rfl
  have f8 : FoldsRightAr aG true cs!"is_int" [s cs!"4"] := one (by decide) (by decide) d4 rfl
  have g : ∀ x : List Char, x ∈ [cs!"1", cs!"2", cs!"3", cs!"4", cs!"7", cs!"0.5", cs!"1.5"] → aG.vars.lookup x = none := by decide
  simp only [List.mem_cons, List.not_mem_nil, or_false, forall_eq_or_imp, forall_eq] at g
  simp only [s, ap] at f1 f2 f3 f4 f5 f6 f7 f8
  simp [constTerm, ap, s, Fits, FitsL, Tag.fits, Tag.reals, relations, f1, f2, f3, f4, f5, f6, f7, f8, wrongFold, foldOps, strFolds, strInts, intOps,
    realOps, wrongWidth, OfSort, OfSortL, Strictly, d1, d2, d3, d4, d7, e1, e2, g]

theorem const_means : Means arEnv aG [] constTerm (.b true) := by
  have hI := arEnv_interprets
  have n : ∀ (t : List Char) (i : Int), Tok.Digits t → aG.vars.lookup t = none → ((i : Rat) = undec t) → Means arEnv aG [] (s t) (.n (i : Rat)) :=
    fun t i h h' e => lit_means rfl h' h e
  have m1 := n cs!"1" 1 ⟨by decide, by decide⟩ rfl (by decide +kernel)
  have m2 := n cs!"2" 2 ⟨by decide, by decide⟩ rfl (by decide +kernel)
  have m3 := n cs!"3" 3 ⟨by decide, by decide⟩ rfl (by decide +kernel)
  have m4 := n cs!"4" 4 ⟨by decide, by decide⟩ rfl (by decide +kernel)
  have m7 := n cs!"7" 7 ⟨by decide, by decide⟩ rfl (by decide +kernel)
  refine .op (k := .and) (vs := [.b true, .b true, .b true, .b true, .b true]) (by decide) (.cons ?_ (.cons ?_ (.cons ?_ (.cons ?_ (.cons ?_ .nil))))) rfl
  · refine op2 (k := .eq) (by decide) (x := .n (1 / 3)) (y := .n (1 / 3)) ?_ ?_ (by decide +kernel)
    · exact ar_as hI (.quot ((1 : Int) : Rat) ((3 : Int) : Rat) (1 / 3) (by decide +kernel) (by decide +kernel)) rfl (.cons m1 (.cons m3 .nil))
    · exact ar_as hI (.quot (1 / 2) (3 / 2) (1 / 3) (by decide +kernel) (by decide +kernel)) rfl
        (.cons (dec_means cs!"0" cs!"5" rfl rfl ⟨by decide, by decide⟩ ⟨by decide, by decide⟩ (by decide +kernel))
        (.cons (dec_means cs!"1" cs!"5" rfl rfl ⟨by decide, by decide⟩ ⟨by decide, by decide⟩ (by decide +kernel)) .nil))
  · refine op2 (k := .eq) (by decide) (x := .n ((-2 : Int) : Rat)) (y := .n (-((2 : Int) : Rat))) ?_ (.neg (ar_as hI (.toReal 2) rfl (.cons m2 .nil)))
      (by decide +kernel)
    exact ar_as hI (.quot (-((4 : Int) : Rat)) ((2 : Int) : Rat) ((-2 : Int) : Rat) (by decide +kernel) (by decide +kernel)) rfl (.cons (.neg m4) (.cons m2 .nil))
  · exact op2 (k := .eq) (by decide) (x := .n ((3 : Int) : Rat)) (y := .n ((3 : Int) : Rat))
      (ar_as hI (.div 7 2 3 1 (by decide) (by decide) (by decide)) rfl (.cons m7 (.cons m2 .nil))) m3 (by decide +kernel)
  · exact op2 (k := .eq) (by decide) (x := .n ((3 : Int) : Rat)) (y := .n ((3 : Int) : Rat))
      (ar_as hI (.mod 7 4 1 3 (by decide) (by decide) (by decide)) rfl (.cons m7 (.cons m4 .nil)))
      (ar_as hI (.toInt ((3 : Int) : Rat) 3 (by decide +kernel) (by decide +kernel)) rfl (.cons m3 .nil)) (by decide +kernel)
  · exact ar_as hI (.isInt 4) rfl (.cons m4 .nil)

theorem const_lets : LetsOk aG constTerm := by
  have hn : constTerm.names = [] := by decide
  constructor <;> rw [hn] <;> simp

/-- the term meets the hypotheses of `node_means` -/
example (rest : Ctors SMT.Term) (rlit : Leaf.Lit → Res SMT.Term) : ∃ n, node (declared (forLogic c0 cs!"QF_NIRA") aG.vars aG.funs) rest rlit (constTerm.map some) = .ok n ∧
    eval arEnv n = some (.b true) :=
  node_means a_arith a_sigOk const_lets const_fits const_means

/-! ## What goes wrong -/

/-- the term `(- 7)` -/
def neg7 : T D := ap cs!"-" [s cs!"7"]

/-- **C83 fails for constants**: `(div (- 7) 2)` and `(mod (- 7) 2)` are rounded towards zero, `(/ 4294967296.0 1.0)` is reduced to 32 bits and
`(is_int 1.0)` is false. -/
theorem fold_arith_violated (rest : Ctors SMT.Term) (rlit : Leaf.Lit → Res SMT.Term) :
    (Means arEnv G0 [] (ap cs!"div" [neg7, s cs!"2"]) (.n (-4)) ∧
      ∃ n, node (declared c0 [] []) rest rlit ((ap cs!"div" [neg7, s cs!"2"]).map some) = .ok n ∧ eval arEnv n = some (.n (-3))) ∧
    (Means arEnv G0 [] (ap cs!"mod" [neg7, s cs!"2"]) (.n 1) ∧
      ∃ n, node (declared c0 [] []) rest rlit ((ap cs!"mod" [neg7, s cs!"2"]).map some) = .ok n ∧ eval arEnv n = some (.n (-1))) ∧
    (Means arEnv G0 [] (ap cs!"/" [s cs!"4294967296.0", s cs!"1.0"]) (.n 4294967296) ∧
      ∃ n, node (declared c0 [] []) rest rlit ((ap cs!"/" [s cs!"4294967296.0", s cs!"1.0"]).map some) = .ok n ∧ eval arEnv n = some (.n 0)) ∧
    (Means arEnv G0 [] (ap cs!"is_int" [s cs!"1.0"]) (.b true) ∧
      ∃ n, node (declared c0 [] []) rest rlit ((ap cs!"is_int" [s cs!"1.0"]).map some) = .ok n ∧ eval arEnv n = some (.b false)) := by
  have hI := arEnv_interprets
  have m7 : Means arEnv G0 [] neg7 (.n ((-7 : Int) : Rat)) := .neg (q := 7) (lit_means rfl rfl ⟨by decide, by decide⟩ (by decide +kernel))
  have m2 : Means arEnv G0 [] (s cs!"2") (.n ((2 : Int) : Rat)) := lit_means rfl rfl ⟨by decide, by decide⟩ (by decide +kernel)
  have m1 : Means arEnv G0 [] (s cs!"1.0") (.n ((1 : Int) : Rat)) :=
    dec_means cs!"1" cs!"0" rfl rfl ⟨by decide, by decide⟩ ⟨by decide, by decide⟩ (by decide +kernel)
  refine ⟨⟨?_, ?_⟩, ⟨?_, ?_⟩, ⟨?_, ?_⟩, ⟨?_, ?_⟩⟩
  · exact ar_as hI (.div (-7) 2 (-4) 1 (by decide) (by decide) (by decide)) rfl (.cons m7 (.cons m2 .nil))
  · exact ⟨.cint (-3), rfl, by decide +kernel⟩
  · exact ar_as hI (.mod (-7) 2 (-4) 1 (by decide) (by decide) (by decide)) rfl (.cons m7 (.cons m2 .nil))
  · exact ⟨.cint (-1), rfl, by decide +kernel⟩
  · exact ar_as hI (.quot 4294967296 ((1 : Int) : Rat) 4294967296 (by decide +kernel) (by decide +kernel)) rfl
      (.cons (dec_means cs!"4294967296" cs!"0" rfl rfl ⟨by decide, by decide⟩ ⟨by decide, by decide⟩ (by decide +kernel)) (.cons m1 .nil))
  · refine ⟨.cint 0, ?_, by decide +kernel⟩
    show mkDivReal c0 (.creal (String.ofList cs!"4294967296.0") (readReal 0 0 false cs!"4294967296.0"))
      (.creal (String.ofList cs!"1.0") (readReal 0 0 false cs!"1.0")) = _
    have e1 : readReal 0 0 false cs!"4294967296.0" = 4294967296 := by decide +kernel
    have e2 : readReal 0 0 false cs!"1.0" = 1 := by decide +kernel
    have e3 : toReal c0 (.creal (String.ofList cs!"4294967296.0") 4294967296) / toReal c0 (.creal (String.ofList cs!"1.0") 1) = 4294967296 := by decide +kernel
    rw [e1, e2]
    unfold mkDivReal arOper2 simpDivReal
    simp only [e3, SMT.Term.isCReal, Bool.and_self, if_true]
    decide +kernel
  · exact ar_as hI (.isInt 1) rfl (.cons m1 .nil)
  · exact ⟨.ff, rfl, by decide +kernel⟩

/-- **C83 fails for division of constants by zero**: the call ends in an exception. -/
theorem div_zero_violated (rest : Ctors SMT.Term) (rlit : Leaf.Lit → Res SMT.Term) : ∀ o ∈ [cs!"div", cs!"mod"],
    (∃ v, Means arEnv G0 [] (ap o [s cs!"1", s cs!"0"]) v) ∧
      node (declared c0 [] []) rest rlit ((ap o [s cs!"1", s cs!"0"]).map some) = .throw := by
  have hI := arEnv_interprets
  have m : MeansL arEnv G0 [] [s cs!"1", s cs!"0"] [.n 1, .n 0] := .cons (lit_means rfl rfl ⟨by decide, by decide⟩ (by decide +kernel))
    (.cons (lit_means rfl rfl ⟨by decide, by decide⟩ (by decide +kernel)) .nil)
  intro o ho
  simp only [List.mem_cons, List.not_mem_nil, or_false] at ho
  rcases ho with rfl | rfl
  · exact ⟨⟨_, .ar hI m (.inr ⟨.arith 0, .int, _, by decide, rfl, rfl, rfl⟩)⟩, rfl⟩
  · exact ⟨⟨_, .ar hI m (.inr ⟨.arith 1, .int, _, by decide, rfl, rfl, rfl⟩)⟩, rfl⟩

/-- **C83 fails for division with three operands** (SMT-LIB has `div` and `/` associate to the left): the third one is lost. -/
theorem div_three_violated (rest : Ctors SMT.Term) (rlit : Leaf.Lit → Res SMT.Term) :
    node (declared c0 (G2 .int).vars []) rest rlit ((ap cs!"div" [s cs!"x", s cs!"y", s cs!"z"]).map some) =
      .ok (.app (.arith 0) .int [iv "x", iv "y"]) ∧
    node (declared c0 (G2 .real).vars []) rest rlit ((ap cs!"/" [s cs!"x", s cs!"y", s cs!"z"]).map some) =
      .ok (.app (.arith 2) .real [.var .var .real "x", .var .var .real "y"]) := ⟨rfl, rfl⟩

end SMT.Mean
