import Verif.Mean.EvalProof

/-! # C81: evaluating a formula that was read gives the value of what is written -/

namespace SMT.Mean
open SMT SMT.Text SMT.Kinds SMT.Sorts SMT.Parse SMT.Leaf SMT.Term SMT.Eval

set_option linter.unusedSimpArgs false
set_option linter.unusedVariables false

mutual
/-- the variables of a term that has a value have values -/
theorem vars_eval {ρ : Env} : (t : SMT.Term) → ∀ v, eval ρ t = some v → ∀ vk s x, SMT.Term.var vk s x ∈ vars t → ∃ y, eval ρ (.var vk s x) = some y
  | .unknown, v, h, vk, s, x, hx => by simp [vars] at hx
  | .err, v, h, vk, s, x, hx => by simp [vars] at hx
  | .tt, v, h, vk, s, x, hx => by simp [vars] at hx
  | .ff, v, h, vk, s, x, hx => by simp [vars] at hx
  | .cint i, v, h, vk, s, x, hx => by simp [vars] at hx
  | .creal n q, v, h, vk, s, x, hx => by simp [vars] at hx
  | .clit s' y, v, h, vk, s, x, hx => by simp [vars] at hx
  | .var vk' s' y, v, h, vk, s, x, hx => by
    simp only [vars, List.mem_singleton] at hx
    rw [hx]
    exact ⟨v, h⟩
  | .app k s' ts, v, h, vk, s, x, hx => by
    simp only [eval] at h
    cases e : evalL ρ ts with
    | none => rw [e] at h; cases h
    | some vs => exact varsL_eval ts vs e vk s x (by simpa [vars] using hx)
theorem varsL_eval {ρ : Env} : (ts : List SMT.Term) → ∀ vs, evalL ρ ts = some vs → ∀ vk s x, SMT.Term.var vk s x ∈ varsL ts →
    ∃ y, eval ρ (.var vk s x) = some y
  | [], vs, h, vk, s, x, hx => by simp [varsL] at hx
  | t :: ts, vs, h, vk, s, x, hx => by
    simp only [evalL] at h
    cases e : eval ρ t with
    | none => rw [e] at h; cases h
    | some y =>
      cases e' : evalL ρ ts with
      | none => rw [e, e'] at h; cases h
      | some ys =>
        simp only [varsL, List.mem_append] at hx
        rcases hx with hx | hx
        · exact vars_eval t y e vk s x hx
        · exact varsL_eval ts ys e' vk s x hx
end

section
variable {arith reals u : Bool} {ρ : Env} {G : Sig} {c : SMT.Cfg} {rest : Ctors SMT.Term} {rlit : Leaf.Lit → Res SMT.Term}

/-- an assignment that follows the model extends it on such a node -/
theorem follows_extends {m : Mdl.M} {n : SMT.Term} {v : Val} (hn : Neat reals u (IsDeclared G) n) (hv : eval ρ n = some v) (h : Follows G ρ m) :
    Extends ρ m n := by
  intro vk σ x hx hne
  obtain ⟨rfl, s, d, rfl, h1, h2⟩ := neat_vars n hn vk σ x hx
  obtain ⟨y, hy⟩ := vars_eval n v hv _ _ _ hx
  rw [h s d σ h1 h2 hne, hy]
  simp only [eval] at hy
  exact (guardSort_some.1 hy).1 ▸ rfl

theorem isLiteral_const {t : SMT.Term} {v : Val} (hc : t.isConst = true) (hs : Std reals t = true) (h : eval ρ t = some v) : IsLiteral t v := by
  cases t with
  | tt => simp only [eval, Option.some.injEq] at h; subst h; trivial
  | ff => simp only [eval, Option.some.injEq] at h; subst h; trivial
  | cint i => simp only [eval, Option.some.injEq] at h; subst h; rfl
  | creal n q => simp only [eval, Option.some.injEq] at h; subst h; rfl
  | clit s x =>
    simp only [eval] at h
    have h := (guardSort_some.1 h).1
    cases s <;> simp only [Std, leafOk, Bool.false_eq_true] at hs
    all_goals
      simp only [Option.some.injEq] at h
      subst h
      rfl
  | _ => simp [SMT.Term.isConst] at hc

theorem node_neat (hc : Arith arith reals c) (hfl : reals = true → c.floating = true ∨ u = true) (hG : SigOk G) {e : T D} {v : Val} (hl : LetsOk G e)
    (hf : Fits G arith reals e) (he : Evals G reals u e) (h : Means ρ G [] e v) :
    ∃ n, node (declared c G.vars G.funs) rest rlit (e.map some) = .ok n ∧ eval ρ n = some v ∧ Std reals n = true ∧ Neat reals u (IsDeclared G) n :=
  goodN_means (rest := rest) (rlit := rlit) (lawful_declared hG) hc hfl hG h [] ⟨rfl, (by intro n v h; simp at h), (by intro n t h; simp [letsOf] at h)⟩
    (by intro n t h; simp [letsOf] at h) hf he hl.once fun n hn => ⟨rfl, hl.notDeclared n hn, hl.notConstant n hn⟩

theorem node_evaluates (hc : Arith arith reals c) (hG : SigOk G) {e : T D} (hl : LetsOk G e) (hf : Fits G arith reals e)
    (he : Evals G reals true e) (o : Opt) (ho : ∀ i, o.arity (.uf i) = none) {n : SMT.Term}
    (hn : node (declared c G.vars G.funs) rest rlit (e.map some) = .ok n) : NodeEvaluates reals G c o e n := by
  intro m ρ v hm h hfol
  obtain ⟨n', h1, h2, h3, h4⟩ := node_neat (rest := rest) (rlit := rlit) (u := true) hc (fun _ => .inr rfl) hG hl hf he h
  rw [hn] at h1
  cases h1
  have hx := follows_extends h4 h2 hfol
  have hev := evaluate_sound_partial reals c o m ρ n v hc.num hm (neat_in o ho n h3 h4) hx h2
  refine ⟨hev, fun he' hfl hne hco => ?_⟩
  obtain ⟨n', h1, _, _, h5⟩ := node_neat (rest := rest) (rlit := rlit) (u := false) hc (fun h => .inl (hfl h)) hG hl hf he' h
  rw [hn] at h1
  cases h1
  have hk := ev_live c o m ρ ho hc.num hfl hm n h3 h5 hx (by
    intro vk σ x hx
    obtain ⟨rfl, s, d, rfl, a1, a2⟩ := neat_vars n h5 vk σ x hx
    exact hco s d a1) v h2
  have hg := ev_good reals c o m ρ hc.num hm n (neat_in o ho n h3 h4) hx v h2
  have e : evaluate c o m n = (ev c o m n).1 := by unfold evaluate; rw [hne]; rfl
  rw [e] at hev ⊢
  exact isLiteral_const hk.1 hg.2 hev

/-- **C81, a term in a string**: under the hypotheses of `mkExpr_means_partial`, evaluating the node that `mkExpr` returns, in any model, gives a
node with the meaning of what was written, in every assignment that follows the model; if the model gives every declared constant a literal,
it gives the literal of that value (`NodeEvaluates`).  `o` is anything that evaluation takes from outside, with uninterpreted applications
left alone (`src/eval_parser.cpp:565-570`).
Missing, besides what is missing there: `=>` with more than two operands and `distinct` with reals (and `=`, whose negation is `distinct`), for which the claim is false
(`read_evaluates_violated`), and operators on bit-vectors. -/
theorem mkExpr_evaluates_partial (pres : Bool) {decl : Decl} (hg : GoodDecl decl) (p : P) (hk : Keys decl p.keys) {x : Sexp} {e : T D}
    (hx : Reads decl p.ph x e) (hb : ∀ n ∈ e.names, n ∉ p.bound) (hp : pres = true → LetFree e) {g tx r : List Char} (h0 : Lex.Skip g)
    (ht : Lay false x tx) (hr : SepX false x r) (hc : Arith arith reals c) (hG : SigOk G) (hl : LetsOk G e) (hf : Fits G arith reals e)
    (he : Evals G reals true e) (o : Opt) (ho : ∀ i, o.arity (.uf i) = none) (hm : ∃ ρ v, Means ρ G [] e v) :
    ∃ (t : T Sorts.Srt) (q : P) (n : SMT.Term) (fuel : Nat), (∀ m, fuel ≤ m → mkExpr pres m p (g ++ (tx ++ r)) = .ok (t, q)) ∧
      node (declared c G.vars G.funs) rest rlit (t.map sortOf) = .ok n ∧ NodeEvaluates reals G c o e n := by
  obtain ⟨t, q, fuel, h1, h2⟩ := mkExpr_reads_partial pres hg p hk hx hl.once hb h0 ht hr
  obtain ⟨n, h3, h4⟩ := node_means_all (rest := rest) (rlit := rlit) hc hG hl hf hm
  exact ⟨t, q, n, fuel, h2, by rw [h1]; exact h3, node_evaluates hc hG hl hf he o ho h3⟩

/-- **C81, the assertions of a script**: the same for the node of every assertion of a script that is read (from a text, with lets
expanded). -/
theorem script_evaluates_partial {text : List Char} {cs : List Script.Cmd} (hne : text ≠ []) (h : Script.Script false [] text cs) (o : Opt)
    (ho : ∀ i, o.arity (.uf i) = none) :
    ∃ (s : Script.S) (k : Nat), (∀ m, k ≤ m → Script.parseStr ⟨false, false⟩ m Script.fresh text = .ok s) ∧
      s.asserts.length = (Script.assertions cs).length ∧
      ∀ ds e g a es, cs = ds ++ .assert e g a :: es → NoDefs ds → Arith arith reals (forLogic c (Script.logicOf ds)) → SigOk (sigOf ds) →
        LetsOk (sigOf ds) e → Fits (sigOf ds) arith reals e → Evals (sigOf ds) reals true e → (∃ ρ v, Means ρ (sigOf ds) [] e v) →
        ∃ (t : T Sorts.Srt) (n : SMT.Term), s.asserts[(Script.assertions ds).length]? = some t ∧
          (∀ s0, Script.Represents ds s0 → node (ctxOf c s0) rest rlit (t.map sortOf) = .ok n) ∧
          NodeEvaluates reals (sigOf ds) (forLogic c (Script.logicOf ds)) o e n := by
  obtain ⟨s, k, h1, h2⟩ := Script.str_recorded_partial false hne h
  have hlen : s.asserts.length = (Script.assertions cs).length := by
    have := congrArg List.length h1.asserts
    simpa using this
  refine ⟨s, k, h2, hlen, ?_⟩
  rintro ds e g a es rfl hd hc hG hl hf he hm
  obtain ⟨n, h3, h4⟩ := node_means_all (rest := rest) (rlit := rlit) hc hG hl hf hm
  have ha : (Script.assertions (ds ++ .assert e g a :: es))[(Script.assertions ds).length]? = some (e, g, a) := by
    simp [Script.assertions, Script.Cmd.assertion]
  have hi := congrArg (fun (l : List (T (Option D))) => l[(Script.assertions ds).length]?) h1.asserts
  simp only [List.getElem?_map, ha, Option.map_some] at hi
  cases ht : s.asserts[(Script.assertions ds).length]? with
  | none => rw [ht] at hi; cases hi
  | some t =>
    rw [ht] at hi
    simp only [Option.map_some, Option.some.injEq] at hi
    exact ⟨t, n, rfl, fun s0 h0 => by rw [ctx_represents h0 hd, hi]; exact h3, node_evaluates hc hG hl hf he o ho h3⟩
end
end SMT.Mean
