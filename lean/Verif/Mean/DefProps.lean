import Verif.Mean.DefProof
import Verif.Mean.EvalProps

/-! # C82: a call of a defined function means its definition -/

namespace SMT.Mean
open SMT SMT.Text SMT.Kinds SMT.Sorts SMT.Parse SMT.Leaf SMT.Term SMT.Eval

set_option linter.unusedSimpArgs false
set_option linter.unusedVariables false

section
variable {arith reals : Bool} {vars : List (List Char × D)} {fs : Functions} {F : Funs} {c : SMT.Cfg} {rest : Ctors SMT.Term}
  {rlit : Leaf.Lit → Res SMT.Term}

/-! ## The definitions can be read -/

theorem defsOk_take (hd : DefsOk arith reals fs) (n : Nat) : DefsOk arith reals (fs.take n) := by
  have key : ∀ {i : Nat} {f}, (fs.take n)[i]? = some f → fs[i]? = some f ∧ (fs.take n).take i = fs.take i := by
    intro i f h
    rw [List.getElem?_take] at h
    split at h
    · exact ⟨h, by rw [List.take_take, Nat.min_eq_left (by omega)]⟩
    · cases h
  refine ⟨fun f ps o b h => hd.noRec f ps o b ((List.take_sublist n fs).subset h),
    fun f ps o b h => hd.once f ps o b ((List.take_sublist n fs).subset h), ?_, ?_, ?_, ?_⟩
  · intro i f ps o b h; obtain ⟨h1, h2⟩ := key h; rw [h2]; exact hd.apart i f ps o b h1
  · intro i f ps o b h; obtain ⟨h1, h2⟩ := key h; rw [h2]; exact hd.lets i f ps o b h1
  · intro i f ps o b h; obtain ⟨h1, h2⟩ := key h; rw [h2]; exact hd.fits i f ps o b h1
  · intro i f ps o b h; obtain ⟨h1, h2⟩ := key h; rw [h2]; exact hd.evals i f ps o b h1

theorem sigOk_take (hG : SigOk ⟨vars, fs.map sigFn⟩) (n : Nat) : SigOk ⟨vars, (fs.take n).map sigFn⟩ where
  funs := by
    have h : ((fs.map sigFn).map fun f => f.1).Nodup := hG.funs
    show (((fs.take n).map sigFn).map fun f => f.1).Nodup
    rw [sigs_names] at h ⊢
    rw [List.map_take]
    exact h.sublist (List.take_sublist _ _)
  apart := fun g hg => hG.apart g (List.map_subset _ (List.take_sublist n fs).subset hg)
  notOp := fun g hg => hG.notOp g (List.map_subset _ (List.take_sublist n fs).subset hg)
  notConstant := fun g hg => hG.notConstant g (List.map_subset _ (List.take_sublist n fs).subset hg)

theorem addFuns_snoc {vm : List (List Char × SMT.Srt)} {l : List (List Char × Script.Fn (Option D))} {f : List Char × Script.Fn (Option D)} :
    ∀ {F0 F1 F2 : Funs}, addFuns c vm rest rlit F0 l = .ok F1 → addFun c vm rest rlit F1 f = .ok F2 →
      addFuns c vm rest rlit F0 (l ++ [f]) = .ok F2 := by
  induction l with
  | nil =>
    intro F0 F1 F2 h1 h2
    cases h1
    simp only [List.nil_append, addFuns, h2, Res.bind]
  | cons a l ih =>
    intro F0 F1 F2 h1 h2
    obtain ⟨F', h3, h4⟩ := bind_ok h1
    simp only [List.cons_append, addFuns, h3, Res.bind]
    exact ih h4 h2

/-- the node of a body -/
theorem body_node {ρB : Env} (hc : Arith arith reals c) (hG : SigOk ⟨vars, fs.map sigFn⟩) (hv : VarsOk vars) (hd : DefsOk arith reals fs)
    (hF : addFuns c (nodesOf vars) rest rlit [] (fs.map fun f => (f.1, f.2.map some)) = .ok F) (hdef : Defines ρB fs)
    {ps : List (List Char × D)} {b : T D} {vs : List Val} {v : Val} (hG' : SigOk ⟨ps, fs.map sigFn⟩) (hl : LetsOk ⟨ps, fs.map sigFn⟩ b)
    (hf : Fits ⟨ps, fs.map sigFn⟩ arith reals b) (he : Evals ⟨ps, fs.map sigFn⟩ reals true b) (hlen : vs.length = ps.length)
    (hM : Means (withArgs ρB ps vs) ⟨ps, fs.map sigFn⟩ [] b v) :
    ∃ t, build (dctors ⟨c, nodesOf vars, F, ps.map fun v => (v.1, some v.2)⟩ rest rlit) [] (b.map some) = .ok t := by
  have hlF := (entries hF).1
  have hnm : ∀ f ∈ F, ∃ g ∈ fs.map sigFn, g.1 = f.1 := by
    have := names_sub hF (i := F.length)
    rw [List.take_length, hlF, List.take_length] at this
    exact this
  have L := lawful_body (c := c) (rest := rest) (rlit := rlit) (ρB := ρB) (ρ := ρB) (reals := reals) (vs := vs) hG' hv hnm (by simpa using hlen) (by
    intro f2 k ds2 d2 σ2 us2 vs2 v2 g1 g2 g3 g4 g5 g6 g7 g8
    have hk : k < F.length := by
      have := (List.getElem?_eq_some_iff.1 g1).1
      rw [List.length_map] at this
      omega
    have := call_def hc hG hv hd hF hdef k (i := F.length) (params := ps.map fun v => (v.1, some v.2)) (ρ := withTemps ρB (ps.map fun p => String.ofList p.1) vs) g1 g2 hk (fun _ _ _ _ _ => rfl) g3 g4 g5 g6 g7 g8
    rw [List.take_length] at this
    exact this)
  obtain ⟨t, a1, -⟩ := goodN_means L hc (fun _ => .inr rfl) hG' hM [] ⟨rfl, (by intro n v h; simp at h), (by intro n t h; simp [letsOf] at h)⟩
    (by intro n t h; simp [letsOf] at h) hf he hl.once fun n hn => ⟨rfl, hl.notDeclared n hn, hl.notConstant n hn⟩
  exact ⟨t, a1⟩

/-- every body has a value for some arguments -/
theorem addFuns_ok (hc : Arith arith reals c) (hG : SigOk ⟨vars, fs.map sigFn⟩) (hv : VarsOk vars) (hd : DefsOk arith reals fs) (hm : Meaningful fs) :
    ∃ F, addFuns c (nodesOf vars) rest rlit [] (fs.map fun f => (f.1, f.2.map some)) = .ok F := by
  have key : ∀ n, n ≤ fs.length → ∃ F, addFuns c (nodesOf vars) rest rlit [] ((fs.take n).map fun f => (f.1, f.2.map some)) = .ok F := by
    intro n
    induction n with
    | zero => intro _; exact ⟨[], rfl⟩
    | succ n ih =>
      intro hn
      obtain ⟨F, hF⟩ := ih (by omega)
      obtain ⟨f, hf⟩ : ∃ f, fs[n]? = some f := ⟨_, List.getElem?_eq_getElem (by omega)⟩
      have e : fs.take (n + 1) = fs.take n ++ [f] := by rw [List.take_add_one, hf]; rfl
      rw [e, List.map_append]
      have hadd : ∃ F', addFun c (nodesOf vars) rest rlit F (f.1, f.2.map some) = .ok F' := by
        obtain ⟨name, fn⟩ := f
        cases fn with
        | dec ps o => exact ⟨_, rfl⟩
        | recu ps o b => exact absurd (List.mem_of_getElem? hf) (hd.noRec _ _ _ _)
        | defn ps o b =>
          obtain ⟨ρB, vs, v, h1, h2, h3⟩ := hm n name ps o b hf
          obtain ⟨t, ht⟩ := body_node hc (sigOk_take hG n) hv (defsOk_take hd n) hF h1 (sigOk_body hG hd hf) (hd.lets n _ _ _ _ hf) (hd.fits n _ _ _ _ hf)
            (hd.evals n _ _ _ _ hf) h2 h3
          simp only [addFun, Script.Fn.map, ht, Res.bind]
          exact ⟨_, rfl⟩
      obtain ⟨F', hF'⟩ := hadd
      exact ⟨F', addFuns_snoc hF hF'⟩
  have := key fs.length (Nat.le_refl _)
  rwa [List.take_length] at this

/-! ## Terms -/

/-- under any assignment of functions that agrees on the declared ones -/
theorem def_neat {ρ : Env} (hc : Arith arith reals c) (hG : SigOk ⟨vars, fs.map sigFn⟩) (hv : VarsOk vars) (hd : DefsOk arith reals fs)
    (hF : addFuns c (nodesOf vars) rest rlit [] (fs.map fun f => (f.1, f.2.map some)) = .ok F) (hdef : Defines ρ fs) {e : T D} {v : Val}
    (hl : LetsOk ⟨vars, fs.map sigFn⟩ e) (hf : Fits ⟨vars, fs.map sigFn⟩ arith reals e) (he : Evals ⟨vars, fs.map sigFn⟩ reals true e)
    (h : Means ρ ⟨vars, fs.map sigFn⟩ [] e v) {ρ' : Env} (hvar : ρ'.var = ρ.var)
    (hfn : ∀ i f ps o, fs[i]? = some (f, .dec ps o) → ρ'.fn (.uf i) = ρ.fn (.uf i)) :
    ∃ n, dnode ⟨c, nodesOf vars, F, []⟩ rest rlit (e.map some) = .ok n ∧ eval ρ' n = some v ∧ Std reals n = true ∧
      Neat reals true (IsDeclared ⟨vars, fs.map sigFn⟩) n := by
  have hlF := (entries hF).1
  have hnm : ∀ f ∈ F, ∃ g ∈ fs.map sigFn, g.1 = f.1 := by
    have := names_sub hF (i := F.length)
    rw [List.take_length, hlF, List.take_length] at this
    exact this
  have L : Lawful (dctors ⟨c, nodesOf vars, F, []⟩ rest rlit) reals true ρ ρ' ⟨vars, fs.map sigFn⟩ c rest rlit (IsDeclared ⟨vars, fs.map sigFn⟩) := by
    refine lawful_def rfl hG hnm (fun _ _ => rfl) ?_ ?_ ?_
    · intro s h
      show (nodesOf vars).lookup s = none ∧ (nodesOf vars).lookup _ = none
      rw [nodes_lookup, nodes_lookup, (hv s h).1, (hv s h).2]
      exact ⟨rfl, rfl⟩
    · intro sc s ph d σ w h1 h2 hl hq h4 h5 h6 h7
      refine ⟨_, dleaf_var (d := toSrt d) ph h1 h2 hl hq ?_ rfl ?_, ?_, ?_, ?_⟩
      · intro g hg e
        obtain ⟨g', hg', e'⟩ := hnm g hg
        have := hG.apart g' hg'
        rw [e', e, h4] at this
        cases this
      · show (nodesOf vars).lookup s = some (toSrt d)
        rw [nodes_lookup, show vars.lookup s = some d from h4]
        rfl
      · rw [sortIs_toSrt h5]
        simp only [eval, hvar, h6]
        exact guardSort_some.2 ⟨rfl, h7⟩
      · rw [sortIs_toSrt h5]; cases h5 <;> simp [Std, leafOk]
      · rw [sortIs_toSrt h5]; exact ⟨rfl, s, d, rfl, h4, h5⟩
    · intro f2 k ds2 d2 σ2 us2 vs2 v2 g1 g2 g3 g4 g5 g6 g7 g8 _
      have g1' : (fs.map sigFn)[k]? = some (f2, ds2, d2) := g1
      have hk : k < F.length := by
        have := (List.getElem?_eq_some_iff.1 g1').1
        rw [List.length_map] at this
        omega
      have := call_def hc hG hv hd hF hdef k (i := F.length) (params := []) (ρ := ρ') g1' g2 hk hfn g3 g4 g5 g6 g7 g8
      rw [List.take_length] at this
      exact this
  exact goodN_means L hc (fun _ => .inr rfl) hG h [] ⟨rfl, (by intro n v h; simp at h), (by intro n t h; simp [letsOf] at h)⟩
    (by intro n t h; simp [letsOf] at h) hf he hl.once fun n hn => ⟨rfl, hl.notDeclared n hn, hl.notConstant n hn⟩

/-- the node of the term, and its value in models -/
theorem def_node (hc : Arith arith reals c) (hG : SigOk ⟨vars, fs.map sigFn⟩) (hv : VarsOk vars) (hd : DefsOk arith reals fs)
    (hF : addFuns c (nodesOf vars) rest rlit [] (fs.map fun f => (f.1, f.2.map some)) = .ok F) {e : T D} (hl : LetsOk ⟨vars, fs.map sigFn⟩ e)
    (hf : Fits ⟨vars, fs.map sigFn⟩ arith reals e) (he : Evals ⟨vars, fs.map sigFn⟩ reals true e)
    (hm : ∃ ρ v, Defines ρ fs ∧ Means ρ ⟨vars, fs.map sigFn⟩ [] e v) (o : Opt) (ho : ∀ i, o.arity (.uf i) = none) :
    ∃ n, dnode ⟨c, nodesOf vars, F, []⟩ rest rlit (e.map some) = .ok n ∧ DefNode reals ⟨vars, fs.map sigFn⟩ fs c o e n := by
  obtain ⟨ρ0, v0, k1, k2⟩ := hm
  obtain ⟨n, h1, -⟩ := def_neat hc hG hv hd hF k1 hl hf he k2 (ρ' := ρ0) rfl (fun _ _ _ _ _ => rfl)
  refine ⟨n, h1, fun ρ v hdef h => ⟨?_, ?_⟩⟩
  · obtain ⟨n', h1', h2, -⟩ := def_neat hc hG hv hd hF hdef hl hf he h (ρ' := forget fs ρ) rfl
      (fun i f ps o hi => by funext σ vs; simp only [forget, hi])
    rw [h1] at h1'
    cases h1'
    exact h2
  · intro m hm hfol
    obtain ⟨n', h1', h2, h3, h4⟩ := def_neat hc hG hv hd hF hdef hl hf he h (ρ' := ρ) rfl (fun _ _ _ _ _ => rfl)
    rw [h1] at h1'
    cases h1'
    exact evaluate_sound_partial reals c o m ρ n v hc.num hm (neat_in o ho n h3 h4) (follows_extends h4 h2 hfol) h2

/-! ## Scripts -/

theorem dctx_represents {ds : List Script.Cmd} {s : Script.S} (h : Script.Represents ds s) :
    dctxOf c rest rlit s = (addFuns (forLogic c (Script.logicOf ds)) (nodesOf (Script.vars ds)) rest rlit []
      ((Script.functions ds).map fun f => (f.1, f.2.map some))).bind fun F => .ok ⟨forLogic c (Script.logicOf ds), nodesOf (Script.vars ds), F, []⟩ := by
  unfold dctxOf
  have h1 := congrArg (List.map fun (v : List Char × Option D) => (v.1, (v.2.map toSrt).getD .unk)) h.vars
  simp only [List.map_map, Function.comp_def, Option.map_some, Option.getD_some] at h1
  simp only [h.logic, h.funs]
  rw [h1]
  rfl

/-- **C82, the assertions of a script**: when a script with `define-fun` is read (from a text, with lets expanded), the tables can be made, and the
node of every assertion, made from the tables of the parser after the commands before it, has the meaning that is written, where the assignment
follows the definitions (`DefNode`: in the node no defined function is left, and evaluating it in a model keeps the meaning).
Missing, besides what is missing in `script_evaluates_partial`: bodies with declared constants (`applyFun_global_violated`), recursive
definitions (`applyFun_rec_violated`) and definitions without parameters (`define_const_violated`). -/
theorem script_defs_partial {text : List Char} {cs : List Script.Cmd} (hne : text ≠ []) (h : Script.Script false [] text cs) (o : Opt)
    (ho : ∀ i, o.arity (.uf i) = none) :
    ∃ (s : Script.S) (k : Nat), (∀ m, k ≤ m → Script.parseStr ⟨false, false⟩ m Script.fresh text = .ok s) ∧
      s.asserts.length = (Script.assertions cs).length ∧
      ∀ ds e g a es, cs = ds ++ .assert e g a :: es → Arith arith reals (forLogic c (Script.logicOf ds)) → SigOk (sigAll ds) →
        VarsOk (Script.vars ds) → DefsOk arith reals (Script.functions ds) → Meaningful (Script.functions ds) →
        LetsOk (sigAll ds) e → Fits (sigAll ds) arith reals e → Evals (sigAll ds) reals true e →
        (∃ ρ v, Defines ρ (Script.functions ds) ∧ Means ρ (sigAll ds) [] e v) →
        ∃ (t : T Sorts.Srt) (X : DCtx) (n : SMT.Term), s.asserts[(Script.assertions ds).length]? = some t ∧
          (∀ s0, Script.Represents ds s0 → dctxOf c rest rlit s0 = .ok X) ∧ dnode X rest rlit (t.map sortOf) = .ok n ∧
          DefNode reals (sigAll ds) (Script.functions ds) (forLogic c (Script.logicOf ds)) o e n := by
  obtain ⟨s, k, h1, h2⟩ := Script.str_recorded_partial false hne h
  have hlen : s.asserts.length = (Script.assertions cs).length := by
    have := congrArg List.length h1.asserts
    simpa using this
  refine ⟨s, k, h2, hlen, ?_⟩
  rintro ds e g a es rfl hc hG hv hd hm hl hf he hme
  obtain ⟨F, hF⟩ := addFuns_ok (rest := rest) (rlit := rlit) hc hG hv hd hm
  obtain ⟨n, h3, h4⟩ := def_node hc hG hv hd hF hl hf he hme o ho
  have ha : (Script.assertions (ds ++ .assert e g a :: es))[(Script.assertions ds).length]? = some (e, g, a) := by
    simp [Script.assertions, Script.Cmd.assertion]
  have hi := congrArg (fun (l : List (T (Option D))) => l[(Script.assertions ds).length]?) h1.asserts
  simp only [List.getElem?_map, ha, Option.map_some] at hi
  cases ht : s.asserts[(Script.assertions ds).length]? with
  | none => rw [ht] at hi; cases hi
  | some t =>
    rw [ht] at hi
    simp only [Option.map_some, Option.some.injEq] at hi
    exact ⟨t, _, n, rfl, fun s0 h0 => by rw [dctx_represents h0, hF]; rfl, by rw [hi]; exact h3, h4⟩

end
end SMT.Mean
