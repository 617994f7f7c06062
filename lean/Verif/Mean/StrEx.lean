import Verif.Mean.ArEx

/-! # C84: a script that meets the hypotheses, and what goes wrong -/

namespace SMT.Mean
open SMT SMT.Text SMT.Kinds SMT.Sorts SMT.Parse SMT.Leaf SMT.Term SMT.Eval

set_option linter.unusedSimpArgs false
set_option linter.unusedVariables false

/-! ## An assignment of the theorem -/

open Classical in
/-- the value with a property, if there is one -/
noncomputable def some_of {α : Type} (P : α → Prop) : Option α := if h : ∃ x, P x then some (choose h) else none

theorem some_of_eq {α : Type} {P : α → Prop} {x : α} (h : P x) (hu : ∀ y, P y → y = x) : some_of P = some x := by
  have h' : ∃ x, P x := ⟨x, h⟩
  unfold some_of
  rw [dif_pos h']
  exact congrArg some (hu _ (Classical.choose_spec h'))

theorem dec_unique {b b' : Bool} {P : Prop} (h : b = true ↔ P) (h' : b' = true ↔ P) : b' = b := by
  cases b <;> cases b' <;> simp_all

/-- two applications of an operator to the same values have the same value -/
theorem strApp_unique {o : List Char} {vs : List Val} {v v' : Val} (h : StrApp o vs v) (h' : StrApp o vs v') : v' = v := by
  generalize ho : o = o' at h'
  generalize hv : vs = vs' at h'
  cases h with
  | len s =>
    cases h' <;> first | (exact absurd ho (by decide)) | skip
    rw [single_inj hv]
  | cat s t ss =>
    cases h' <;> first | (exact absurd ho (by decide)) | skip
    have := congrArg textsOf hv
    rw [textsOf_map, textsOf_map] at this
    rw [Option.some.inj this]
  | «at» s i =>
    cases h' <;> first | (exact absurd ho (by decide)) | skip
    simp only [List.cons.injEq, and_true] at hv
    rw [strVal_inj hv.1, num_inj hv.2]
  | substr s i n =>
    cases h' <;> first | (exact absurd ho (by decide)) | skip
    simp only [List.cons.injEq, and_true] at hv
    rw [strVal_inj hv.1, num_inj hv.2.1, num_inj hv.2.2]
  | prefixof s t b hb =>
    cases h' <;> first | (exact absurd ho (by decide)) | skip
    rename_i s' t' b' hb'
    simp only [List.cons.injEq, and_true] at hv
    cases strVal_inj hv.1; cases strVal_inj hv.2
    rw [dec_unique hb hb']
  | suffixof s t b hb =>
    cases h' <;> first | (exact absurd ho (by decide)) | skip
    rename_i s' t' b' hb'
    simp only [List.cons.injEq, and_true] at hv
    cases strVal_inj hv.1; cases strVal_inj hv.2
    rw [dec_unique hb hb']
  | contains s t b hb =>
    cases h' <;> first | (exact absurd ho (by decide)) | skip
    rename_i s' t' b' hb'
    simp only [List.cons.injEq, and_true] at hv
    cases strVal_inj hv.1; cases strVal_inj hv.2
    rw [dec_unique hb hb']
  | indexof s t i q hq =>
    cases h' <;> first | (exact absurd ho (by decide)) | skip
    rename_i hq'
    simp only [List.cons.injEq, and_true] at hv
    cases strVal_inj hv.1; cases strVal_inj hv.2.1; cases num_inj hv.2.2
    rw [indexof_unique hq hq']
  | replace s t u q hq =>
    cases h' <;> first | (exact absurd ho (by decide)) | skip
    rename_i hq'
    simp only [List.cons.injEq, and_true] at hv
    cases strVal_inj hv.1; cases strVal_inj hv.2.1; cases strVal_inj hv.2.2
    rw [replace_unique hq hq']
  | replaceAll s t u q hq =>
    cases h' <;> first | (exact absurd ho (by decide)) | skip
    rename_i hq'
    simp only [List.cons.injEq, and_true] at hv
    cases strVal_inj hv.1; cases strVal_inj hv.2.1; cases strVal_inj hv.2.2
    rw [replaceAll_unique hq hq']
  | isDigit s b hb =>
    cases h' <;> first | (exact absurd ho (by decide)) | skip
    rename_i hb'
    cases single_inj hv
    rw [dec_unique hb hb']
  | toCode c =>
    cases h' <;> first | (exact absurd ho (by decide)) | skip
    · have := single_inj hv
      simp only [List.cons.injEq, and_true] at this
      rw [this]
    · rename_i hn
      cases single_inj hv
      exact absurd rfl hn
  | noCode s hn =>
    cases h' <;> first | (exact absurd ho (by decide)) | skip
    · cases single_inj hv
      exact absurd rfl hn
    · rfl
  | fromCode c hc =>
    cases h' <;> first | (exact absurd ho (by decide)) | skip
    · have := nums_inj (i := c.toNat) hv
      rw [Char.toNat_inj.1 (Int.ofNat.inj this)]
    · rename_i hn
      have := nums_inj (i := c.toNat) hv
      omega
  | noChar i hn =>
    cases h' <;> first | (exact absurd ho (by decide)) | skip
    · rename_i c hc
      have := nums_inj (j := c.toNat) hv
      omega
    · rfl
  | toInt s hs =>
    cases h' <;> first | (exact absurd ho (by decide)) | skip
    · rw [single_inj hv]
    · rename_i hn
      cases single_inj hv
      exact absurd hs hn
  | noInt s hn =>
    cases h' <;> first | (exact absurd ho (by decide)) | skip
    · rename_i hs
      cases single_inj hv
      exact absurd hs hn
    · rfl
  | fromInt n =>
    cases h' <;> first | (exact absurd ho (by decide)) | skip
    · rename_i m
      have := nums_inj (i := n) (j := m) hv
      rw [Int.ofNat.inj this]
    · rename_i hn
      have := nums_inj (i := n) hv
      omega
  | noNat i hn =>
    cases h' <;> first | (exact absurd ho (by decide)) | skip
    · rename_i m
      have := nums_inj (j := m) hv
      omega
    · rfl

/-- what the operator of a kind gives -/
noncomputable def strMeaning (k : Kind) (vs : List Val) : Option Val := some_of fun v => ∃ o, (o, k) ∈ strTable ∧ StrApp o vs v

theorem strMeaning_ok {o : List Char} {k : Kind} {vs : List Val} {v : Val} (hk : (o, k) ∈ strTable) (h : StrApp o vs v) : strMeaning k vs = some v := by
  refine some_of_eq ⟨o, hk, h⟩ ?_
  rintro y ⟨o', hk', h'⟩
  have key : ∀ a ∈ strTable, ∀ b ∈ strTable, a.2 = b.2 → a.1 = b.1 := by decide
  have e : o' = o := key _ hk' _ hk rfl
  subst e
  exact strApp_unique h h'

/-- every constant of sort `String` is `k7`, every other one is 1 -/
noncomputable def strEnv : Env := ⟨fun _ σ _ => match σ with
  | .str => strVal cs!"k7"
  | _ => .n 1, fun _ _ => "", fun k _ vs => strMeaning k vs⟩

theorem strEnv_interprets : InterpretsStr strEnv := fun _ _ _ _ _ hk h _ => strMeaning_ok hk h

/-! ## A script that meets the hypotheses -/

/-- a test for words: plain ones and string literals -/
def tokB (a : List Char) : Bool := plainB a || (decide (a = Str.quote (a.drop 1).dropLast) && (a.drop 1).dropLast.all (· != '"'))

theorem strBody_of : ∀ {b : List Char}, b.all (· != '"') = true → Lex.StrBody b
  | [], _ => .nil
  | _ :: _, h => by
    simp only [List.all_cons, Bool.and_eq_true, bne_iff_ne] at h
    exact .ch h.1 (strBody_of h.2)

theorem tokB_tok {a : List Char} (h : tokB a = true) : Parse.Tok a := by
  simp only [tokB, Bool.or_eq_true, Bool.and_eq_true, decide_eq_true_eq] at h
  rcases h with h | ⟨h1, h2⟩
  · exact plainB_tok h
  · rw [h1]
    exact .str (strBody_of h2)

mutual
/-- a test for S-expressions of such words -/
def toksB : Sexp → Bool
  | .atom a => tokB a
  | .list xs => toksLB xs
/-- the same for lists -/
def toksLB : List Sexp → Bool
  | [] => true
  | x :: xs => toksB x && toksLB xs
end
mutual
theorem toksB_toks : ∀ {x : Sexp}, toksB x = true → Toks x
  | .atom _, h => tokB_tok h
  | .list _, h => toksLB_toks h
theorem toksLB_toks : ∀ {xs : List Sexp}, toksLB xs = true → ToksL xs
  | [], _ => trivial
  | _ :: _, h => by
    simp only [toksLB, Bool.and_eq_true] at h
    exact ⟨toksB_toks h.1, toksLB_toks h.2⟩
end

/-- the asserted formula, as it is written -/
def sSexp : Sexp := .list [w cs!"let", .list [.list [w cs!"c", .list [w cs!"str.++", w cs!"a", w cs!"\"-x\"", w cs!"b"]]],
  .list [w cs!"and", .list [w cs!"=", .list [w cs!"str.len", .list [w cs!"str.++", w cs!"c", w cs!"b"]], w cs!"8"],
    .list [w cs!"str.prefixof", w cs!"a", w cs!"c"],
    .list [w cs!"str.contains", .list [w cs!"str.replace", w cs!"c", w cs!"\"-x\"", w cs!"b"], w cs!"\"k7k7\""],
    .list [w cs!"=", .list [w cs!"str.at", w cs!"c", w cs!"i"],
      .list [w cs!"str.from_int", .list [w cs!"str.to_int", .list [w cs!"str.substr", w cs!"a", w cs!"i", w cs!"1"]]]],
    .list [w cs!"not", .list [w cs!"str.is_digit", w cs!"a"]],
    .list [w cs!">=", .list [w cs!"str.indexof", w cs!"c", w cs!"a", w cs!"i"], .list [w cs!"str.to_code", .list [w cs!"str.from_code", w cs!"i"]]],
    .list [w cs!"=", .list [w cs!"str.replace_all", w cs!"b", w cs!"\"7\"", w cs!"a"], w cs!"\"kk7\""]]]

/-- strings and an integer -/
def sScript : List Sexp := [
  .list [w cs!"set-logic", w cs!"QF_SLIA"],
  .list [w cs!"declare-const", w cs!"a", w cs!"String"],
  .list [w cs!"declare-const", w cs!"b", w cs!"String"],
  .list [w cs!"declare-const", w cs!"i", w cs!"Int"],
  .list [w cs!"assert", sSexp]]

/-- the asserted term -/
def sTerm : T D := .mk (.lets [cs!"c"]) ([ap cs!"str.++" [s cs!"a", s cs!"\"-x\"", s cs!"b"]] ++ [
  ap cs!"and" [ap cs!"=" [ap cs!"str.len" [ap cs!"str.++" [s cs!"c", s cs!"b"]], s cs!"8"],
    ap cs!"str.prefixof" [s cs!"a", s cs!"c"],
    ap cs!"str.contains" [ap cs!"str.replace" [s cs!"c", s cs!"\"-x\"", s cs!"b"], s cs!"\"k7k7\""],
    ap cs!"=" [ap cs!"str.at" [s cs!"c", s cs!"i"], ap cs!"str.from_int" [ap cs!"str.to_int" [ap cs!"str.substr" [s cs!"a", s cs!"i", s cs!"1"]]]],
    ap cs!"not" [ap cs!"str.is_digit" [s cs!"a"]],
    ap cs!">=" [ap cs!"str.indexof" [s cs!"c", s cs!"a", s cs!"i"], ap cs!"str.to_code" [ap cs!"str.from_code" [s cs!"i"]]],
    ap cs!"=" [ap cs!"str.replace_all" [s cs!"b", s cs!"\"7\"", s cs!"a"], s cs!"\"kk7\""]]])

/-- the declarations before it -/
def sDecls : List Script.Cmd := [.logic cs!"QF_SLIA", .var cs!"a" .str, .var cs!"b" .str, .var cs!"i" .int]

theorem s_reads : Reads [] false sSexp sTerm := by
  have r1 : ∀ {a : List Char}, ReadsL [] false [w a] [s a] := .cons (reads_sym _) .nil
  have r2 : ∀ {a b : List Char}, ReadsL [] false [w a, w b] [s a, s b] := .cons (reads_sym _) r1
  have r3 : ∀ {a b d : List Char}, ReadsL [] false [w a, w b, w d] [s a, s b, s d] := .cons (reads_sym _) r2
  refine .lets (.cons (reads_app (by decide) r3) .nil) (reads_app (by decide) (.cons ?_ (.cons ?_ (.cons ?_ (.cons ?_ (.cons ?_ (.cons ?_ (.cons ?_ .nil))))))))
  · exact reads_app (by decide) (.cons (reads_app (by decide) (.cons (reads_app (by decide) r2) .nil)) r1)
  · exact reads_app (by decide) r2
  · exact reads_app (by decide) (.cons (reads_app (by decide) r3) r1)
  · exact reads_app (by decide) (.cons (reads_app (by decide) r2) (.cons (reads_app (by decide) (.cons (reads_app (by decide)
      (.cons (reads_app (by decide) r3) .nil)) .nil)) .nil))
  · exact reads_app (by decide) (.cons (reads_app (by decide) r1) .nil)
  · exact reads_app (by decide) (.cons (reads_app (by decide) r3) (.cons (reads_app (by decide) (.cons (reads_app (by decide) r1) .nil)) .nil))
  · exact reads_app (by decide) (.cons (reads_app (by decide) r3) r1)

theorem s_writes : Script.Script false [] (Script.lines sScript) (sDecls ++ [.assert sTerm none none]) := by
  have add : ∀ {cs ds : List Script.Cmd} {x : Sexp} {xs : List Sexp} {c : Script.Cmd}, toksB x = true → Script.Writes cs x c →
      Script.Script false (cs ++ [c]) (Script.lines xs) ds → Script.Script false cs (Script.lines (x :: xs)) (c :: ds) :=
    fun hp hw h => .cmd (g := ['\n']) (.ws (.inr rfl) .nil) (lay_flat false (toksB_toks hp)) hw h
  refine add (by decide +kernel) (.logic (by decide)) ?_
  refine add (by decide +kernel) (.const .str (by simp [Script.vars, Script.Cmd.vars])) ?_
  refine add (by decide +kernel) (.const .str (by simp [Script.vars, Script.Cmd.vars])) ?_
  refine add (by decide +kernel) (.const .int (by simp [Script.vars, Script.Cmd.vars]; rintro a b (⟨rfl, _⟩ | ⟨rfl, _⟩) <;> decide)) ?_
  exact add (by decide +kernel) (.assert (g1 := none) (g2 := none) (a := none) ⟨s_reads, by decide, fun _ h => by cases h⟩ (.inl rfl) (.inl rfl))
    (.done (.inl .nil))

/-- the declarations of the script -/
def sG : Sig := ⟨[(cs!"a", .str), (cs!"b", .str), (cs!"i", .int)], []⟩

theorem s_sig : sigOf sDecls = sG := rfl

theorem s_sigOk : SigOk sG := ⟨by decide, by simp [sG], by simp [sG], by simp [sG]⟩

theorem s_lets : LetsOk sG sTerm := by
  have hn : sTerm.names = [cs!"c"] := by decide
  refine ⟨by decide, ?_, ?_⟩ <;> rw [hn]
  · simp [sG]
  · intro n hm
    simp only [List.mem_cons, List.not_mem_nil, or_false] at hm
    subst hm
    exact not_const (by decide) (by decide)

theorem s_fits : Fits sG true false sTerm := by
  have n1 : Tok.Digits cs!"1" := ⟨by decide, by decide⟩
  have hi : [(cs!"a", D.str), (cs!"b", D.str), (cs!"i", D.int)].lookup cs!"i" = some .int := rfl
  have ha : [(cs!"a", D.str), (cs!"b", D.str), (cs!"i", D.int)].lookup cs!"a" = some .str := rfl
  have hb : [(cs!"a", D.str), (cs!"b", D.str), (cs!"i", D.int)].lookup cs!"b" = some .str := rfl
  have h1 : [(cs!"a", D.str), (cs!"b", D.str), (cs!"i", D.int)].lookup cs!"1" = none := rfl
  simp [sTerm, ap, s, Fits, FitsL, Tag.fits, Tag.reals, relations, wrongFold, foldOps, strFolds, strInts, intOps, realOps, wrongWidth, OfSort, OfSortL, Strictly,
    AnyStrictly, Varies, VariesL, resTable, bvTable, arTable, strTable, sG, n1, hi, ha, hb, h1]

theorem s_arith : Arith true false (forLogic c0 (Script.logicOf sDecls)) :=
  ⟨fun i => by simp only [forLogic, c0, id]; constructor <;> norm_cast, by decide, fun _ => .inl (by decide)⟩

theorem st_as {ρ : Env} {G : Sig} {Δ : List (List Char × Val)} {o : List Char} {ts : List (T D)} {vs : List Val} {v v' : Val}
    (hI : InterpretsStr ρ) (ha : StrApp o vs v') (e : v' = v) (h : MeansL ρ G Δ ts vs) : Means ρ G Δ (ap o ts) v := e ▸ .st hI h ha

theorem not_at {s t : List Char} {k : Nat} (h : (s.drop k).take t.length ≠ t) : ¬ Str.At s t k := by
  rintro ⟨u, v, rfl, rfl⟩
  exact h (by simp)

theorem plain_means {ρ : Env} {G : Sig} {Δ : List (List Char × Val)} (x : List Char) (hp : ∀ c ∈ x, Str.Plain c) (hΔ : Δ.lookup (Str.quote x) = none)
    (h1 : G.vars.lookup (Str.quote x) = none) (h2 : G.vars.lookup ('|' :: Str.quote x ++ ['|']) = none) : Means ρ G Δ (s (Str.quote x)) (strVal x) :=
  .str hp hΔ h1 h2

instance (c : Char) : Decidable (Str.Plain c) := by unfold Str.Plain; infer_instance

theorem s_means : Means strEnv (sigOf sDecls) [] sTerm (.b true) := by
  rw [s_sig]
  have hI := strEnv_interprets
  have ha : ∀ Δ : List (List Char × Val), Δ.lookup cs!"a" = none → Means strEnv sG Δ (s cs!"a") (strVal cs!"k7") :=
    fun Δ h => var_means .str (by decide) (by decide) h rfl .str rfl
  have hb : ∀ Δ : List (List Char × Val), Δ.lookup cs!"b" = none → Means strEnv sG Δ (s cs!"b") (strVal cs!"k7") :=
    fun Δ h => var_means .str (by decide) (by decide) h rfl .str rfl
  have hi : ∀ Δ : List (List Char × Val), Δ.lookup cs!"i" = none → Means strEnv sG Δ (s cs!"i") (.n ((1 : Int) : Rat)) :=
    fun Δ h => var_means .int (by decide) (by decide) h rfl .int rfl
  have hc : Means strEnv sG [(cs!"c", strVal cs!"k7-xk7")] (s cs!"c") (strVal cs!"k7-xk7") := .bound (by decide) (by decide) rfl
  refine .lets (xs := [strVal cs!"k7-xk7"]) rfl (.cons (st_as hI (.cat cs!"k7" cs!"-x" [cs!"k7"]) rfl
    (.cons (ha _ rfl) (.cons (plain_means cs!"-x" (by decide) rfl rfl rfl) (.cons (hb _ rfl) .nil)))) .nil) ?_
  refine .op (k := .and) (vs := [.b true, .b true, .b true, .b true, .b true, .b true, .b true]) (by decide)
    (.cons ?_ (.cons ?_ (.cons ?_ (.cons ?_ (.cons ?_ (.cons ?_ (.cons ?_ .nil))))))) rfl
  · refine op2 (k := .eq) (by decide) (x := .n ((8 : Nat) : Rat)) (y := .n ((8 : Nat) : Rat)) ?_ (lit_means rfl rfl ⟨by decide, by decide⟩ (by decide +kernel)) (by decide +kernel)
    exact st_as hI (.len cs!"k7-xk7k7") rfl (.cons (st_as hI (.cat cs!"k7-xk7" cs!"k7" []) rfl (.cons hc (.cons (hb _ rfl) .nil))) .nil)
  · exact st_as hI (.prefixof cs!"k7" cs!"k7-xk7" true ⟨fun _ => ⟨cs!"-xk7", rfl⟩, fun _ => rfl⟩) rfl (.cons (ha _ rfl) (.cons hc .nil))
  · refine st_as hI (.contains cs!"k7k7k7" cs!"k7k7" true ⟨fun _ => ⟨[], cs!"k7", rfl⟩, fun _ => rfl⟩) rfl (.cons ?_
      (.cons (plain_means cs!"k7k7" (by decide) rfl rfl rfl) .nil))
    refine st_as hI (.replace cs!"k7-xk7" cs!"-x" cs!"k7" cs!"k7k7k7" (.inr ⟨cs!"k7", cs!"k7", rfl, rfl, ?_⟩)) rfl
      (.cons hc (.cons (plain_means cs!"-x" (by decide) rfl rfl rfl) (.cons (hb _ rfl) .nil)))
    intro k hk
    match k, hk with
    | 0, _ => exact not_at (by decide)
    | 1, _ => exact not_at (by decide)
  · refine op2 (k := .eq) (by decide) (x := strVal cs!"7") (y := strVal cs!"7") (st_as hI (.at cs!"k7-xk7" 1) rfl (.cons hc (.cons (hi _ rfl) .nil))) ?_ (by decide +kernel)
    refine st_as hI (.fromInt 7) (by decide +kernel) (.cons (st_as hI (.toInt cs!"7" ⟨by decide, by decide⟩) (by decide +kernel) (.cons (st_as hI
      (.substr cs!"k7" 1 1) rfl (.cons (ha _ rfl) (.cons (hi _ rfl) (.cons (lit_means (q := ((1 : Int) : Rat)) rfl rfl ⟨by decide, by decide⟩ (by decide +kernel)) .nil)))) .nil)) .nil)
  · refine op1 (k := .not) (by decide) (x := .b false) ?_ rfl
    exact st_as hI (.isDigit cs!"k7" false ⟨fun h => by simp at h, fun ⟨c, h, _⟩ => by simp at h⟩) rfl (.cons (ha _ rfl) .nil)
  · refine op2 (k := .ge) (by decide) (x := .n ((4 : Int) : Rat)) (y := .n ((1 : Nat) : Rat)) ?_ ?_ (by decide +kernel)
    · refine st_as hI (.indexof cs!"k7-xk7" cs!"k7" 1 4 (.inl ⟨4, rfl, by decide, by decide, ⟨cs!"k7-x", [], rfl, rfl⟩, ?_⟩)) rfl
        (.cons hc (.cons (ha _ rfl) (.cons (hi _ rfl) .nil)))
      intro k h1 h2
      have : k = 1 ∨ k = 2 ∨ k = 3 := by omega
      rcases this with rfl | rfl | rfl <;> exact not_at (by decide)
    · exact st_as hI (.toCode (Char.ofNat 1)) rfl (.cons (st_as hI (.fromCode (Char.ofNat 1) (by decide)) rfl (.cons (hi _ rfl) .nil)) .nil)
  · refine op2 (k := .eq) (by decide) (x := strVal cs!"kk7") (y := strVal cs!"kk7") ?_ (plain_means cs!"kk7" (by decide) rfl rfl rfl) (by decide +kernel)
    refine st_as hI (.replaceAll cs!"k7" cs!"7" cs!"k7" cs!"kk7" ?_) rfl (.cons (hb _ rfl) (.cons (plain_means cs!"7" (by decide) rfl rfl rfl) (.cons (ha _ rfl) .nil)))
    refine .step cs!"k" [] [] (by decide) ?_ (.none _ fun k => not_at (by simp))
    intro k hk
    match k, hk with
    | 0, _ => exact not_at (by decide)

/-- the script meets the hypotheses of `script_means_partial` -/
example (rest : Ctors SMT.Term) (rlit : Leaf.Lit → Res SMT.Term) : ∃ (st : Script.S) (k : Nat) (t : T Sorts.Srt) (n : SMT.Term),
    (∀ m, k ≤ m → Script.parseStr ⟨false, false⟩ m Script.fresh (Script.lines sScript) = .ok st) ∧ st.asserts = [t] ∧
      (∀ s0, Script.Represents sDecls s0 → node (ctxOf c0 s0) rest rlit (t.map sortOf) = .ok n) ∧ eval strEnv n = some (.b true) := by
  obtain ⟨st, k, h1, h2, h3⟩ := script_means_partial (arith := true) (reals := false) (c := c0) (rest := rest) (rlit := rlit)
    (by simp [sScript, Script.lines]) s_writes
  obtain ⟨t, n, a1, a2, a3⟩ := h3 sDecls sTerm none none [] rfl (by simp [NoDefs, sDecls, Script.functions, Script.Cmd.fn]) s_arith s_sigOk s_lets
    s_fits ⟨strEnv, _, s_means⟩
  refine ⟨st, k, t, n, h1, ?_, a2, a3 _ _ s_means⟩
  have hl : st.asserts.length = 1 := h2
  match e : st.asserts, hl with
  | [t'], _ => rw [e] at a1; simp [sDecls, Script.assertions, Script.Cmd.assertion] at a1; rw [a1]

/-! ## Terms of literals -/

/-- operators on literals only: they are computed -/
def litTerm : T D := ap cs!"and" [
  ap cs!"=" [ap cs!"str.++" [ap cs!"str.++" [s (Str.quote cs!"ab"), s (Str.quote cs!"c")], s (Str.quote cs!"d")], s (Str.quote cs!"abcd")],
  ap cs!"=" [ap cs!"str.replace" [ap cs!"str.substr" [s (Str.quote cs!"abcd"), s cs!"1", s cs!"2"], s (Str.quote cs!"c"), s (Str.quote cs!"x")], s (Str.quote cs!"bx")],
  ap cs!"=" [ap cs!"str.at" [s (Str.quote cs!"abc"), s cs!"2"], s (Str.quote cs!"c")],
  ap cs!"=" [ap cs!"str.replace_all" [ap cs!"str.++" [s (Str.quote cs!"a"), s (Str.quote cs!"b")], s (Str.quote cs!"a"), s (Str.quote cs!"xa")], s (Str.quote cs!"xab")]]

theorem lit_fits : Fits sG true false litTerm := by
  have q : ∀ x : List Char, (∀ c ∈ x, Str.Plain c) → RightLit sG (s (Str.quote x)) := fun x h => .str h rfl
  have d : ∀ n : List Char, Tok.Digits n → sG.vars.lookup n = none → undec n < 2 ^ 64 → RightLit sG (s n) := fun n h1 h2 h3 => .num h1 h2 h3
  have n1 : Tok.Digits cs!"1" := ⟨by decide, by decide⟩
  have n2 : Tok.Digits cs!"2" := ⟨by decide, by decide⟩
  have d1 := d cs!"1" n1 rfl (by decide)
  have d2 := d cs!"2" n2 rfl (by decide)
  have hall1 : ∀ {P : T D → Prop} {a b : T D}, P a → P b → ∀ t ∈ [a, b], P t := by
    intro P a b h1 h2 t ht
    simp only [List.mem_cons, List.not_mem_nil, or_false] at ht
    rcases ht with rfl | rfl <;> assumption
  have hall2 : ∀ {P : T D → Prop} {a b e : T D}, P a → P b → P e → ∀ t ∈ [a, b, e], P t := by
    intro P a b e h1 h2 h3 t ht
    simp only [List.mem_cons, List.not_mem_nil, or_false] at ht
    rcases ht with rfl | rfl | rfl <;> assumption
  have c1 : ∀ t ∈ [s (Str.quote cs!"ab"), s (Str.quote cs!"c")], RightLit sG t := hall1 (q _ (by decide)) (q _ (by decide))
  have c2 : ∀ t ∈ [ap cs!"str.++" [s (Str.quote cs!"ab"), s (Str.quote cs!"c")], s (Str.quote cs!"d")], RightLit sG t :=
    hall1 (.app (by decide) c1) (q _ (by decide))
  have c3 : ∀ t ∈ [s (Str.quote cs!"abcd"), s cs!"1", s cs!"2"], RightLit sG t := hall2 (q _ (by decide)) d1 d2
  have c4 : ∀ t ∈ [ap cs!"str.substr" [s (Str.quote cs!"abcd"), s cs!"1", s cs!"2"], s (Str.quote cs!"c"), s (Str.quote cs!"x")], RightLit sG t :=
    hall2 (.app (by decide) c3) (q _ (by decide)) (q _ (by decide))
  have c5 : ∀ t ∈ [s (Str.quote cs!"abc"), s cs!"2"], RightLit sG t := hall1 (q _ (by decide)) d2
  have c6 : ∀ t ∈ [s (Str.quote cs!"a"), s (Str.quote cs!"b")], RightLit sG t := hall1 (q _ (by decide)) (q _ (by decide))
  have c7 : ∀ t ∈ [ap cs!"str.++" [s (Str.quote cs!"a"), s (Str.quote cs!"b")], s (Str.quote cs!"a"), s (Str.quote cs!"xa")], RightLit sG t :=
    hall2 (.app (by decide) c6) (q _ (by decide)) (q _ (by decide))
  have f1 : FoldsRight sG cs!"str.++" [s (Str.quote cs!"ab"), s (Str.quote cs!"c")] := ⟨by decide, c1, (absurd · (by decide)), (absurd · (by decide))⟩
  have f2 : FoldsRight sG cs!"str.++" [ap cs!"str.++" [s (Str.quote cs!"ab"), s (Str.quote cs!"c")], s (Str.quote cs!"d")] :=
    ⟨by decide, c2, (absurd · (by decide)), (absurd · (by decide))⟩
  have f3 : FoldsRight sG cs!"str.substr" [s (Str.quote cs!"abcd"), s cs!"1", s cs!"2"] := ⟨by decide, c3, (absurd · (by decide)), (absurd · (by decide))⟩
  have f4 : FoldsRight sG cs!"str.replace" [ap cs!"str.substr" [s (Str.quote cs!"abcd"), s cs!"1", s cs!"2"], s (Str.quote cs!"c"), s (Str.quote cs!"x")] :=
    ⟨by decide, c4, (absurd · (by decide)), (absurd · (by decide))⟩
  have f5 : FoldsRight sG cs!"str.at" [s (Str.quote cs!"abc"), s cs!"2"] :=
    ⟨by decide, c5, fun _ => ⟨cs!"abc", _, cs!"2", _, rfl, n2, by decide⟩, (absurd · (by decide))⟩
  have f6 : FoldsRight sG cs!"str.++" [s (Str.quote cs!"a"), s (Str.quote cs!"b")] := ⟨by decide, c6, (absurd · (by decide)), (absurd · (by decide))⟩
  have f7 : FoldsRight sG cs!"str.replace_all" [ap cs!"str.++" [s (Str.quote cs!"a"), s (Str.quote cs!"b")], s (Str.quote cs!"a"), s (Str.quote cs!"xa")] :=
    ⟨by decide, c7, (absurd · (by decide)), fun _ => ⟨_, cs!"a", _, _, rfl, by decide⟩⟩
  have h1 : [(cs!"a", D.str), (cs!"b", D.str), (cs!"i", D.int)].lookup cs!"1" = none := rfl
  have h2 : [(cs!"a", D.str), (cs!"b", D.str), (cs!"i", D.int)].lookup cs!"2" = none := rfl
  simp only [ap, s] at f1 f2 f3 f4 f5 f6 f7
  simp [litTerm, ap, s, Fits, FitsL, Tag.fits, Tag.reals, relations, f1, f2, f3, f4, f5, f6, f7, strInts, intOps, realOps, wrongFold, foldOps, strFolds,
    wrongWidth, OfSort, OfSortL, Strictly, n1, n2]
  simp [sG, h1, h2, Str.quote]
  constructor <;> rintro a b (⟨rfl, _⟩ | ⟨rfl, _⟩ | ⟨rfl, _⟩) <;> decide

theorem lit_means_true : Means strEnv sG [] litTerm (.b true) := by
  have hI := strEnv_interprets
  have q : ∀ x : List Char, (∀ c ∈ x, Str.Plain c) → sG.vars.lookup ('|' :: Str.quote x ++ ['|']) = none → Means strEnv sG [] (s (Str.quote x)) (strVal x) :=
    fun x h h' => plain_means x h rfl rfl h'
  have n : ∀ (t : List Char) (i : Int), Tok.Digits t → sG.vars.lookup t = none → ((i : Rat) = undec t) → Means strEnv sG [] (s t) (.n (i : Rat)) :=
    fun t i h h' e => lit_means rfl h' h e
  refine .op (k := .and) (vs := [.b true, .b true, .b true, .b true]) (by decide) (.cons ?_ (.cons ?_ (.cons ?_ (.cons ?_ .nil)))) rfl
  · refine op2 (k := .eq) (by decide) (x := strVal cs!"abcd") (y := strVal cs!"abcd") ?_ (q _ (by decide) rfl) (by decide +kernel)
    exact st_as hI (.cat cs!"abc" cs!"d" []) rfl (.cons (st_as hI (.cat cs!"ab" cs!"c" []) rfl (.cons (q _ (by decide) rfl) (.cons (q _ (by decide) rfl) .nil)))
      (.cons (q _ (by decide) rfl) .nil))
  · refine op2 (k := .eq) (by decide) (x := strVal cs!"bx") (y := strVal cs!"bx") ?_ (q _ (by decide) rfl) (by decide +kernel)
    refine st_as hI (.replace cs!"bc" cs!"c" cs!"x" cs!"bx" (.inr ⟨cs!"b", [], rfl, rfl, ?_⟩)) rfl (.cons (st_as hI (.substr cs!"abcd" 1 2) rfl
      (.cons (q _ (by decide) rfl) (.cons (n cs!"1" 1 ⟨by decide, by decide⟩ rfl (by decide +kernel)) (.cons (n cs!"2" 2 ⟨by decide, by decide⟩ rfl (by decide +kernel)) .nil))))
      (.cons (q _ (by decide) rfl) (.cons (q _ (by decide) rfl) .nil)))
    intro k hk
    match k, hk with
    | 0, _ => exact not_at (by decide)
  · refine op2 (k := .eq) (by decide) (x := strVal cs!"c") (y := strVal cs!"c") ?_ (q _ (by decide) rfl) (by decide +kernel)
    exact st_as hI (.at cs!"abc" 2) rfl (.cons (q _ (by decide) rfl) (.cons (n cs!"2" 2 ⟨by decide, by decide⟩ rfl (by decide +kernel)) .nil))
  · refine op2 (k := .eq) (by decide) (x := strVal cs!"xab") (y := strVal cs!"xab") ?_ (q _ (by decide) rfl) (by decide +kernel)
    refine st_as hI (.replaceAll cs!"ab" cs!"a" cs!"xa" cs!"xab" ?_) rfl (.cons (st_as hI (.cat cs!"a" cs!"b" []) rfl (.cons (q _ (by decide) rfl)
      (.cons (q _ (by decide) rfl) .nil))) (.cons (q _ (by decide) rfl) (.cons (q _ (by decide) rfl) .nil)))
    exact .step [] cs!"b" cs!"b" (by decide) (by simp) (.none _ fun k => not_at (by match k with | 0 => decide | k + 1 => simp))

theorem lit_lets : LetsOk sG litTerm := by
  have hn : litTerm.names = [] := by decide
  constructor <;> rw [hn] <;> simp

/-- the term meets the hypotheses of `node_means` -/
example (rest : Ctors SMT.Term) (rlit : Leaf.Lit → Res SMT.Term) : ∃ n, node (declared (forLogic c0 cs!"QF_SLIA") sG.vars sG.funs) rest rlit (litTerm.map some) = .ok n ∧
    eval strEnv n = some (.b true) :=
  node_means s_arith s_sigOk lit_lets lit_fits lit_means_true

/-! ## What goes wrong -/

/-- a string literal -/
abbrev sl (x : List Char) : T D := s (Str.quote x)

theorem sl_means (x : List Char) (hp : ∀ c ∈ x, Str.Plain c) : Means strEnv G0 [] (sl x) (strVal x) := plain_means x hp rfl rfl rfl

theorem num_means (n : List Char) (i : Int) (h : Tok.Digits n) (e : (i : Rat) = undec n) : Means strEnv G0 [] (s n) (.n (i : Rat)) := lit_means rfl rfl h e

/-- **C84 fails for literals**: `(str.len "ab")` counts the quotation marks, `"7"` is no digit, and `(str.from_int 5)` is a literal without
quotation marks; for `(str.at "ab" 5)` an exception is thrown, `(str.to_code "7")` and `(str.to_int "7")` end the process, and
`(str.replace_all "ab" "" "c")` does not return. -/
theorem fold_str_violated (rest : Ctors SMT.Term) (rlit : Leaf.Lit → Res SMT.Term) :
    (Means strEnv G0 [] (ap cs!"str.len" [sl cs!"ab"]) (.n ((2 : Nat) : Rat)) ∧
      ∃ n, node (declared c0 [] []) rest rlit ((ap cs!"str.len" [sl cs!"ab"]).map some) = .ok n ∧ eval strEnv n = some (.n 4)) ∧
    (Means strEnv G0 [] (ap cs!"str.is_digit" [sl cs!"7"]) (.b true) ∧
      ∃ n, node (declared c0 [] []) rest rlit ((ap cs!"str.is_digit" [sl cs!"7"]).map some) = .ok n ∧ eval strEnv n = some (.b false)) ∧
    (Means strEnv G0 [] (ap cs!"str.from_int" [s cs!"5"]) (strVal cs!"5") ∧
      ∃ n, node (declared c0 [] []) rest rlit ((ap cs!"str.from_int" [s cs!"5"]).map some) = .ok n ∧ eval strEnv n = some (.u .str "5") ∧
        strVal cs!"5" ≠ .u .str "5") ∧
    (Means strEnv G0 [] (ap cs!"str.at" [sl cs!"ab", s cs!"5"]) (strVal []) ∧
      node (declared c0 [] []) rest rlit ((ap cs!"str.at" [sl cs!"ab", s cs!"5"]).map some) = .throw) ∧
    (Means strEnv G0 [] (ap cs!"str.to_code" [sl cs!"7"]) (.n ((55 : Nat) : Rat)) ∧
      node (declared c0 [] []) rest rlit ((ap cs!"str.to_code" [sl cs!"7"]).map some) = .abort) ∧
    (Means strEnv G0 [] (ap cs!"str.to_int" [sl cs!"7"]) (.n ((7 : Nat) : Rat)) ∧
      node (declared c0 [] []) rest rlit ((ap cs!"str.to_int" [sl cs!"7"]).map some) = .abort) ∧
    (Means strEnv G0 [] (ap cs!"str.replace_all" [sl cs!"ab", sl [], sl cs!"c"]) (strVal cs!"ab") ∧
      node (declared c0 [] []) rest rlit ((ap cs!"str.replace_all" [sl cs!"ab", sl [], sl cs!"c"]).map some) = .diverge) := by
  have hI := strEnv_interprets
  refine ⟨⟨?_, ?_⟩, ⟨?_, ?_⟩, ⟨?_, ?_⟩, ⟨?_, ?_⟩, ⟨?_, ?_⟩, ⟨?_, ?_⟩, ⟨?_, ?_⟩⟩
  · exact st_as hI (.len cs!"ab") rfl (.cons (sl_means _ (by decide)) .nil)
  · exact ⟨.cint 4, rfl, by decide +kernel⟩
  · exact st_as hI (.isDigit cs!"7" true ⟨fun _ => ⟨'7', rfl, rfl⟩, fun _ => rfl⟩) rfl (.cons (sl_means _ (by decide)) .nil)
  · exact ⟨.ff, rfl, by simp [eval]⟩
  · exact st_as hI (.fromInt 5) (by decide +kernel) (.cons (num_means cs!"5" 5 ⟨by decide, by decide⟩ (by decide +kernel)) .nil)
  · exact ⟨.clit .str (String.ofList (Str.mkConstStr (Tok.showInt 5))), rfl, by decide +kernel, by decide +kernel⟩
  · exact st_as hI (.at cs!"ab" 5) rfl (.cons (sl_means _ (by decide)) (.cons (num_means cs!"5" 5 ⟨by decide, by decide⟩ (by decide +kernel)) .nil))
  · rfl
  · exact st_as hI (.toCode '7') rfl (.cons (sl_means cs!"7" (by decide)) .nil)
  · rfl
  · exact st_as hI (.toInt cs!"7" ⟨by decide, by decide⟩) (by decide +kernel) (.cons (sl_means cs!"7" (by decide)) .nil)
  · rfl
  · exact st_as hI (.replaceAll cs!"ab" [] cs!"c" cs!"ab" (.empty _ rfl)) rfl (.cons (sl_means _ (by decide)) (.cons (sl_means _ (by decide))
      (.cons (sl_means _ (by decide)) .nil)))
  · rfl

end SMT.Mean
