import Verif.Mean.BvCall
import Verif.Mean.ArCall
import Verif.Mean.StrRight

/-! # C84: the call for an operator on strings, and string literals -/

namespace SMT.Mean
open SMT SMT.Text SMT.Kinds SMT.Sorts SMT.Parse SMT.Leaf SMT.Term SMT.Eval

set_option linter.unusedSimpArgs false
set_option linter.unusedVariables false

theorem sel3 {I : Ctors SMT.Term} {us : List SMT.Term} {k : K} {t u v : SMT.Term} (h : us = [t, u, v]) :
    runCase I [] us (.sel k [.p 0, .p 1, .p 2]) = I.op k [t, u, v] := by
  subst h; rfl

section
variable {r : Bool} {ρ : Env} {G : Sig} {v : Val} {c : SMT.Cfg} {rest : Ctors SMT.Term} {rlit : Leaf.Lit → Res SMT.Term}

/-- a term with a string as its value is of sort `String` -/
theorem str_sort {t : SMT.Term} {s : List Char} (he : eval ρ t = some (strVal s)) : t.sort = .str := by
  have key : ∀ σ : SMT.Srt, (strVal s).hasSort σ = true → σ = .str := by
    intro σ h; cases σ <;> simp [strVal, Val.hasSort, Srt.isNum] at h ⊢
  cases t with
  | tt => simp [eval, strVal] at he
  | ff => simp [eval, strVal] at he
  | cint i => simp [eval, strVal] at he
  | creal n q => simp [eval, strVal] at he
  | clit σ x => simp only [eval] at he; exact key _ (guardSort_some.1 he).2
  | var vk σ x => simp only [eval] at he; exact key _ (guardSort_some.1 he).2
  | app k σ ts => rw [eval_app] at he; exact key _ (guardSort_some.1 he).2
  | unknown => simp [eval] at he
  | err => simp [eval] at he

theorem str_param {t : SMT.Term} {s : List Char} (he : eval ρ t = some (strVal s)) : isStrParam t = true := by
  simp [isStrParam, str_sort he]

theorem strText_none {t : SMT.Term} (h : t.isCStr = false) : strText t = none := by
  cases t with
  | clit σ x => cases σ <;> simp_all [isCStr, strText]
  | _ => rfl

theorem intText_none {t : SMT.Term} (h : t.isCReal = false) : intText t = none := by cases t <;> simp_all [isCReal, intText]

theorem strText_lit {t : SMT.Term} {s : List Char} (he : eval ρ t = some (strVal s)) (h : t.isCStr = true) : strText t = some (Str.quote s) := by
  obtain ⟨x, rfl⟩ := isCStr_cases h
  simp only [eval] at he
  have := (guardSort_some.1 he).1
  simp only [strVal, Option.some.injEq, Val.u.injEq, true_and] at this
  simp [strText, this]

/-- no constant of bit-vectors, numbers or strings -/
def NoLit (t : SMT.Term) : Prop := t.isCBV = false ∧ t.isCReal = false ∧ t.isCStr = false

/-- the kinds of these nodes -/
def IsStrKind (k : Kind) : Prop := (∃ i, k = .strOp i) ∨ (∃ i, k = .atom i) ∨ ∃ i, k = .misc i

theorem eval_strapp {k : Kind} (hk : IsStrKind k) {s : SMT.Srt} {ts : List SMT.Term} {vs : List Val}
    (h : evalL ρ ts = some vs) (hf : ρ.fn k s vs = some v) (hs : v.hasSort s = true) : eval ρ (.app k s ts) = some v := by
  rw [eval_app]
  refine guardSort_some.2 ⟨?_, hs⟩
  unfold evalApp
  rw [h]
  rcases hk with ⟨i, rfl⟩ | ⟨i, rfl⟩ | ⟨i, rfl⟩ <;> exact hf

theorem std_strapp {k : Kind} (hk : IsStrKind k) {s : SMT.Srt} {ts : List SMT.Term} (h : ∀ t ∈ ts, Std r t = true) :
    Std r (.app k s ts) = true := by
  rw [std_app]
  refine ⟨?_, h⟩
  rcases hk with ⟨i, rfl⟩ | ⟨i, rfl⟩ | ⟨i, rfl⟩ <;> rfl

/-- the result of a constructor: the value, the shape, that it is not a constant if an operand is none, and its sort -/
def MadeStr (ρ : Env) (r : Bool) (o : List Char) (us : List SMT.Term) (v : Val) (m : Res SMT.Term) : Prop :=
  ∃ t, m = .ok t ∧ eval ρ t = some v ∧ Std r t = true ∧ ((∃ u ∈ us, NoLit u) → NoLit t) ∧ ∀ d, (o, d) ∈ resTable → t.sort = toSrt d

theorem made_str {o : List Char} {k : K} (hk : IsStrKind (strKind k)) (hmem : (o, strKind k) ∈ strTable) {σ : SMT.Srt} {us : List SMT.Term} {vs : List Val}
    (hu : evalL ρ us = some vs) (hI : InterpretsStr ρ) (happ : StrApp o vs v) (hv : v.hasSort σ = true) (hst : ∀ t ∈ us, Std r t = true)
    (hd : ∀ d, (o, d) ∈ resTable → toSrt d = σ) {x : Res SMT.Term} (hx : x = .ok .unknown) : MadeStr ρ r o us v (strNode σ k us x) := by
  subst hx
  exact ⟨.app (strKind k) σ us, rfl, eval_strapp hk hu (hI _ _ _ _ _ hmem happ hv) hv, std_strapp hk hst, fun _ => ⟨rfl, rfl, rfl⟩, fun d h => (hd d h).symm⟩

theorem simpStr1_none {k : K} {t : SMT.Term} (h : t.isCStr = false) : simpStr1 k t = .ok .unknown := by
  simp only [simpStr1, strText_none h]

theorem simpInt1_none {k : K} {t : SMT.Term} (h : t.isCReal = false) : simpInt1 k t = .ok .unknown := by
  simp only [simpInt1, intText_none h]

theorem simpStr2_none {k : K} {a b : SMT.Term} (h : a.isCStr = false ∨ b.isCStr = false) : simpStr2 k a b = .ok .unknown := by
  rcases h with h | h
  · simp only [simpStr2, strText_none h]
  · simp only [simpStr2, strText_none h]
    split <;> first | rfl | simp_all

theorem strText_some {t : SMT.Term} (h : t.isCStr = true) : ∃ s, strText t = some s := by
  obtain ⟨x, rfl⟩ := isCStr_cases h
  exact ⟨_, rfl⟩

/-- an operand that is no literal: nothing is computed -/
theorem catFold_none : ∀ {ts : List SMT.Term} {a : SMT.Term}, ts ≠ [] → (∃ u ∈ a :: ts, u.isCStr = false) → catFold a ts = .ok .unknown
  | [], _, h, _ => absurd rfl h
  | t :: ts, a, _, h => by
    unfold catFold
    cases ha : a.isCStr with
    | false => rw [simpStr2_none (.inl ha)]; rfl
    | true =>
      cases ht : t.isCStr with
      | false => rw [simpStr2_none (.inr ht)]; rfl
      | true =>
        obtain ⟨s, hs⟩ := strText_some ha
        obtain ⟨s', hs'⟩ := strText_some ht
        have hx : ∃ y, simpStr2 .STR_CONCAT a t = .ok (.clit .str y) := by
          simp only [simpStr2, hs, hs', Str.simp2]
          split <;> exact ⟨_, rfl⟩
        obtain ⟨y, hy⟩ := hx
        rw [hy]
        show catFold (.clit .str y) ts = .ok .unknown
        have h' : ∃ u ∈ ts, u.isCStr = false := by
          obtain ⟨u, hu, h⟩ := h
          simp only [List.mem_cons] at hu
          rcases hu with rfl | rfl | hu
          · rw [ha] at h; cases h
          · rw [ht] at h; cases h
          · exact ⟨u, hu, h⟩
        obtain ⟨u, hu, h⟩ := h'
        exact catFold_none (List.ne_nil_of_mem hu) ⟨u, List.mem_cons_of_mem _ hu, h⟩

theorem catScan_none {us : List SMT.Term} (h : ∀ u ∈ us, ∃ s, eval ρ u = some (strVal s)) : catScan us = none := by
  induction us with
  | nil => rfl
  | cons u us ih =>
    obtain ⟨s, hs⟩ := h u (by simp)
    have he : u.isErr = false := by cases u <;> simp_all [eval, SMT.Term.isErr]
    simp only [catScan, he, str_param hs, Bool.not_true, Bool.false_eq_true, if_false]
    exact ih fun u hu => h u (List.mem_cons_of_mem _ hu)

theorem eval_notErr {t : SMT.Term} (he : eval ρ t = some v) : t.isErr = false := by cases t <;> simp_all [eval, SMT.Term.isErr]

theorem evalL_all {us : List SMT.Term} {vs : List Val} (h : evalL ρ us = some vs) : ∀ u ∈ us, ∃ x ∈ vs, eval ρ u = some x := by
  induction us generalizing vs with
  | nil => simp
  | cons u us ih =>
    simp only [evalL] at h
    cases h1 : eval ρ u with
    | none => rw [h1] at h; simp at h
    | some a =>
      cases h2 : evalL ρ us with
      | none => rw [h1, h2] at h; simp at h
      | some l =>
        rw [h1, h2] at h
        cases h
        intro x hx
        rcases List.mem_cons.1 hx with rfl | hx
        · exact ⟨a, by simp, h1⟩
        · obtain ⟨y, hy, e⟩ := ih h2 x hx
          exact ⟨y, List.mem_cons_of_mem _ hy, e⟩

/-- the three tests on two strings; on two literals they are computed -/
theorem made_test {o : List Char} {k : K} {b : Str.B} (hk : IsStrKind (strKind k)) (hmem : (o, strKind k) ∈ strTable) {x y : SMT.Term} {s t : List Char} {z : Bool}
    (hx : eval ρ x = some (strVal s)) (hy : eval ρ y = some (strVal t)) (hI : InterpretsStr ρ) (happ : StrApp o [strVal s, strVal t] (.b z))
    (hst : ∀ u ∈ [x, y], Std r u = true) (hd : ∀ d, (o, d) ∉ resTable)
    (hb : ∀ s t, ∃ z, Str.simp2 b s t = .ok (.bool z)) (hz : Str.simp2 b (Str.quote s) (Str.quote t) = .ok (.bool true) ↔ z = true)
    (hs : ∀ l m, strText l = some (Str.quote s) → strText m = some (Str.quote t) → simpStr2 k l m = outRes (Str.simp2 b (Str.quote s) (Str.quote t))) :
    MadeStr ρ r o [x, y] (.b z) (mkStr2 k x y) := by
  unfold mkStr2
  rw [str_param hx, str_param hy]
  have hu : evalL ρ [x, y] = some [strVal s, strVal t] := by simp [evalL, hx, hy]
  simp only [Bool.not_true, Bool.or_self, Bool.false_eq_true, if_false]
  cases h1 : x.isCStr with
  | false => exact made_str hk hmem hu hI happ rfl hst (fun d h => absurd h (hd d)) (simpStr2_none (.inl h1))
  | true =>
    cases h2 : y.isCStr with
    | false => exact made_str hk hmem hu hI happ rfl hst (fun d h => absurd h (hd d)) (simpStr2_none (.inr h2))
    | true =>
      rw [hs x y (strText_lit hx h1) (strText_lit hy h2)]
      obtain ⟨z', hz'⟩ := hb (Str.quote s) (Str.quote t)
      have e : z' = z := by
        rw [hz'] at hz
        cases z <;> cases z' <;> simp_all
      subst e
      rw [hz']
      refine ⟨ofBool z', by cases z' <;> rfl, by cases z' <;> simp [ofBool, eval], by cases z' <;> simp [ofBool, Std, leafOk], ?_, fun d h => absurd h (hd d)⟩
      rintro ⟨u, hu, hn⟩
      simp only [List.mem_cons, List.not_mem_nil, or_false] at hu
      rcases hu with rfl | rfl
      · rw [hn.2.2] at h1; cases h1
      · rw [hn.2.2] at h2; cases h2

theorem mkStrConcat_eq (x y : SMT.Term) (ys : List SMT.Term) : mkStrConcat (x :: y :: ys) = match catScan (x :: y :: ys) with
    | some r => r
    | none => strNode .str .STR_CONCAT (x :: y :: ys) (catFold x (y :: ys)) := rfl

theorem tests_iff {b : Bool} {P : Prop} (h : b = true ↔ P) {Q : Prop} (h' : Q ↔ P) : Q ↔ b = true := h'.trans h.symm

/-- the literal with the value -/
theorem made_lit {o : List Char} {us : List SMT.Term} {s : List Char} (ho : ∀ d, (o, d) ∉ resTable) (hn : ∀ u ∈ us, ¬ NoLit u) {m : Res SMT.Term}
    (hm : m = .ok (.clit .str (String.ofList (Str.quote s)))) : MadeStr ρ r o us (strVal s) m :=
  ⟨_, hm, by simp only [eval, strVal]; exact guardSort_some.2 ⟨rfl, rfl⟩, by simp [Std, leafOk], fun ⟨u, hu, h⟩ => absurd h (hn u hu), fun d h => absurd h (ho d)⟩

theorem lit_node (s : List Char) : outTerm (.str (Str.quote s)) = .clit .str (String.ofList (Str.quote s)) := rfl

theorem strText_value {t : SMT.Term} {s : List Char} (he : eval ρ t = some (strVal s)) : (t.isCStr = false ∧ strText t = none) ∨
    (¬ NoLit t ∧ strText t = some (Str.quote s)) := by
  cases h : t.isCStr with
  | false => exact .inl ⟨rfl, strText_none h⟩
  | true => exact .inr ⟨fun h' => Bool.noConfusion (h'.2.2.symm.trans h), strText_lit he h⟩

theorem intText_value {t : SMT.Term} {i : Int} (he : eval ρ t = some (.n (i : Rat))) : intText t = none ∨ (¬ NoLit t ∧ intText t = some i) := by
  cases t with
  | cint j =>
    simp only [eval, Option.some.injEq] at he
    exact .inr ⟨fun h => by simp [NoLit, isCReal] at h, by rw [← num_inj he]; rfl⟩
  | _ => exact .inl rfl

/-- literals are concatenated rightly -/
theorem catFold_right : ∀ {ts : List SMT.Term} {ss : List (List Char)} {a : SMT.Term} {s : List Char}, strText a = some (Str.quote s) →
    (∀ c ∈ s, Str.Plain c) → All2 (fun t s => strText t = some (Str.quote s) ∧ ∀ c ∈ s, Str.Plain c) ts ss →
    ∃ t, catFold a ts = .ok t ∧ strText t = some (Str.quote (s ++ ss.flatten)) := by
  intro ts ss a s ha hs h
  induction h generalizing a s with
  | nil => exact ⟨a, rfl, by simpa using ha⟩
  | @cons t s' ts ss h1 _ ih =>
    have e : simpStr2 .STR_CONCAT a t = .ok (.clit .str (String.ofList (Str.quote (s ++ s')))) := by
      simp only [simpStr2, ha, h1.1, (Str.rev_concat_case_exact_partial s s' hs h1.2).2.1]
      rfl
    obtain ⟨u, h2, h3⟩ := ih (a := .clit .str (String.ofList (Str.quote (s ++ s')))) (s := s ++ s') (by simp [strText])
      (fun c hc => (List.mem_append.1 hc).elim (hs c) (h1.2 c))
    refine ⟨u, ?_, by simpa [List.append_assoc] using h3⟩
    show (simpStr2 .STR_CONCAT a t).bind _ = _
    rw [e]
    exact h2

theorem strText_eq {t : SMT.Term} {s : List Char} (h : strText t = some s) : t = .clit .str (String.ofList s) := by
  unfold strText at h
  split at h
  · cases h; simp
  · cases h

theorem replaceAll_right {s t u q : List Char} (hs : ∀ c ∈ s, Str.Plain c) (hu : ∀ c ∈ u, Str.Plain c) (ht : t ≠ []) (h : Str.IsReplaceAll t u s q) :
    replaceAllText (Str.quote s) (Str.quote t) (Str.quote u) = .ok (Str.quote q) := by
  obtain ⟨q', h1, h2⟩ := Str.replLoop_spec t u ht ((Str.quote s).length + 2) s [] (by simp [Str.quote]; omega)
  have : Str.findFrom ([] ++ s) t ([] : List Char).length = Str.find t s := by rw [Str.find_append_drop]; simp
  rw [this] at h1
  simp only [List.nil_append] at h1
  unfold replaceAllText
  simp only [Str.strip_quote, h1, replaceAll_unique h h2]

theorem call_str (hG : SigOk G) (hI : InterpretsStr ρ) {o : List Char} {vs : List Val} {v : Val} (happ : StrApp o vs v)
    {us : List SMT.Term} (hu : evalL ρ us = some vs) (hst : ∀ t ∈ us, Std r t = true)
    (hvar : o ∈ strFolds → (∃ u ∈ us, NoLit u) ∨ FoldsVal o vs) (hint : ∀ n, (o, n) ∈ strInts → ∀ u ∈ us.drop n, u.sort = .int ∨ u.sort = .ior) :
    MadeStr ρ r o us v (callOper (ctors (declared c G.vars G.funs) rest rlit) o [] us) := by
  have pint : ∀ {u : SMT.Term}, (u.sort = .int ∨ u.sort = .ior) → isIntParam u = true := by
    rintro u (h | h) <;> simp [isIntParam, h]
  have lone : ∀ {a : SMT.Term}, (∃ u ∈ [a], NoLit u) → NoLit a := by
    rintro a ⟨u, hu, h⟩
    simp at hu; subst hu; exact h
  -- operators on one string
  have one : ∀ {s : List Char} {k : K} {σ : SMT.Srt}, vs = [strVal s] → o ∈ strFolds ∧ o ∉ strRight → IsStrKind (strKind k) → (o, strKind k) ∈ strTable → v.hasSort σ = true →
      (∀ d, (o, d) ∈ resTable → toSrt d = σ) →
      (∀ x : SMT.Term, callOper (ctors (declared c G.vars G.funs) rest rlit) o [] [x] = mkStr1 k σ x) →
      MadeStr ρ r o us v (callOper (ctors (declared c G.vars G.funs) rest rlit) o [] us) := by
    rintro s k σ rfl ho hk hm hv hd hcall
    obtain ⟨x, rfl, hx⟩ := evalL_inv1 hu
    rw [hcall, mkStr1, str_param hx]
    exact made_str hk hm hu hI happ hv hst hd (simpStr1_none (lone ((hvar ho.1).resolve_right fun h => ho.2 h.1)).2.2)
  have oneI : ∀ {i : Rat} {k : K}, vs = [.n i] → o ∈ strFolds ∧ o ∉ strRight → (o, 0) ∈ strInts → IsStrKind (strKind k) → (o, strKind k) ∈ strTable → v.hasSort .str = true →
      (∀ d, (o, d) ∉ resTable) →
      (∀ x : SMT.Term, callOper (ctors (declared c G.vars G.funs) rest rlit) o [] [x] = mkInt1 k x) →
      MadeStr ρ r o us v (callOper (ctors (declared c G.vars G.funs) rest rlit) o [] us) := by
    rintro i k rfl ho hi hk hm hv hd hcall
    obtain ⟨x, rfl, hx⟩ := evalL_inv1 hu
    rw [hcall, mkInt1, pint (hint 0 hi x (by simp))]
    exact made_str hk hm hu hI happ hv hst (fun d h => absurd h (hd d)) (simpInt1_none (lone ((hvar ho.1).resolve_right fun h => ho.2 h.1)).2.1)
  have three : ∀ {k : K} {x y z : SMT.Term} {σ : SMT.Srt}, us = [x, y, z] → IsStrKind (strKind k) → (o, strKind k) ∈ strTable → v.hasSort σ = true →
      (∀ d, (o, d) ∈ resTable → toSrt d = σ) → simpStr3 k x y z = .ok .unknown → MadeStr ρ r o us v (strNode σ k [x, y, z] (simpStr3 k x y z)) := by
    rintro k x y z σ rfl hk hm hv hd hx
    exact made_str hk hm hu hI happ hv hst hd hx
  have happ' := happ
  cases happ with
  | len s =>
    exact one (k := .STR_LEN) (σ := .int) rfl (by decide) (.inl ⟨0, rfl⟩) (by decide) rfl (by intro d h; simp [resTable] at h; subst h; rfl) (fun x => by
      rw [call_slow (k := .strOp 0) hG (by decide) (by decide) (by decide) (d := .sel .STR_LEN [.p 0]) (by decide +kernel), sel1 rfl]; rfl)
  | cat s t ss =>
    have hlen : us.length = ss.length + 2 := by
      have := congrArg List.length ((evalL_iff ρ us _).1 hu).2
      simpa using this.symm
    match us, hlen with
    | x :: y :: ys, _ =>
      rw [call_slow (k := .strOp 1) hG (by decide) (by decide) (by decide) (d := .all .STR_CONCAT) (by decide +kernel)]
      show MadeStr ρ r cs!"str.++" (x :: y :: ys) _ (mkStrConcat (x :: y :: ys))
      rw [mkStrConcat_eq, catScan_none (ρ := ρ) (fun u h => by
        obtain ⟨w, hw, e⟩ := evalL_all hu u h
        simp only [List.mem_map] at hw
        obtain ⟨s', _, rfl⟩ := hw
        exact ⟨s', e⟩)]
      by_cases hl : ∃ u ∈ x :: y :: ys, u.isCStr = false
      · exact made_str (k := .STR_CONCAT) (.inl ⟨1, rfl⟩) (by decide) hu hI happ' rfl hst (by intro d h; simp [resTable] at h) (catFold_none (by simp) hl)
      · have hl' : ∀ u ∈ x :: y :: ys, u.isCStr = true := fun u h => by
          cases e : u.isCStr with
          | true => rfl
          | false => exact absurd ⟨u, h, e⟩ hl
        have hn : ∀ u ∈ x :: y :: ys, ¬ NoLit u := fun u h e => Bool.noConfusion (e.2.2.symm.trans (hl' u h))
        have hf : FoldsVal cs!"str.++" ((s :: t :: ss).map strVal) := (hvar (by decide)).resolve_left fun ⟨u, h, e⟩ => hn u h e
        have hp : ∀ s' ∈ s :: t :: ss, ∀ c ∈ s', Str.Plain c := fun s' h => (hf.in_ (List.mem_map_of_mem h)).plain
        have key : ∀ (us : List SMT.Term) (ss : List (List Char)), evalL ρ us = some (ss.map strVal) → (∀ u ∈ us, u.isCStr = true) →
            (∀ s ∈ ss, ∀ c ∈ s, Str.Plain c) → All2 (fun t s => strText t = some (Str.quote s) ∧ ∀ c ∈ s, Str.Plain c) us ss := by
          intro us
          induction us with
          | nil =>
            intro ss h _ _
            cases ss with
            | nil => exact .nil
            | cons => simp [evalL] at h
          | cons u us ih =>
            intro ss h h1 h2
            simp only [evalL] at h
            cases e1 : eval ρ u with
            | none => rw [e1] at h; simp at h
            | some a =>
              cases e2 : evalL ρ us with
              | none => rw [e1, e2] at h; simp at h
              | some l =>
                rw [e1, e2] at h
                cases ss with
                | nil => simp at h
                | cons s ss =>
                  simp only [Option.some.injEq, List.map_cons] at h
                  obtain ⟨rfl, rfl⟩ := List.cons.inj h
                  exact .cons ⟨strText_lit e1 (h1 u (by simp)), h2 s (by simp)⟩ (ih ss e2 (fun u h => h1 u (by simp [h])) fun s h => h2 s (by simp [h]))
        have ha := key _ _ hu hl' hp
        cases ha with
        | cons h1 h2 =>
          obtain ⟨w, e1, e2⟩ := catFold_right h1.1 h1.2 h2
          refine made_lit (by simp [resTable]) hn ?_
          dsimp only
          rw [e1, strText_eq e2]
          rfl
  | «at» s i =>
    obtain ⟨x, y, rfl, hx, hy⟩ := evalL_inv2 hu
    rw [call_slow (k := .strOp 6) hG (by decide) (by decide) (by decide) (d := .sel .STR_CHARAT [.p 0, .p 1]) (by decide +kernel), sel2 rfl]
    show MadeStr ρ r cs!"str.at" [x, y] _ (mkStrCharat x y)
    unfold mkStrCharat
    rw [str_param hx, pint (hint 1 (by decide) y (by simp))]
    rcases strText_value hx with ⟨_, e1⟩ | ⟨n1, e1⟩
    · exact made_str (k := .STR_CHARAT) (.inl ⟨6, rfl⟩) (by decide) hu hI happ' rfl hst (by intro d h; simp [resTable] at h) (by unfold simpAt; rw [e1])
    rcases intText_value hy with e2 | ⟨n2, e2⟩
    · exact made_str (k := .STR_CHARAT) (.inl ⟨6, rfl⟩) (by decide) hu hI happ' rfl hst (by intro d h; simp [resTable] at h)
        (by unfold simpAt; rw [e1, e2])
    have hn : ∀ u ∈ [x, y], ¬ NoLit u := by simp [n1, n2]
    have hf : FoldsVal cs!"str.at" [strVal s, .n (i : Rat)] := (hvar (by decide)).resolve_left fun ⟨u, h, e⟩ => hn u h e
    have hi := (hf.in_ (x := .n (i : Rat)) (by simp)).small
    refine made_lit (by simp [resTable]) hn ?_
    unfold simpAt
    rw [e1, e2]
    dsimp only
    rw [Str.at_exact_partial s (hf.in_ (x := strVal s) (by simp)).plain i hi.1 hi.2 (hf.2.2.1 rfl s i rfl)]
    rfl
  | substr s i n =>
    obtain ⟨x, y, z, rfl, hx, hy, hz⟩ := evalL_inv3 hu
    rw [call_slow (k := .strOp 2) hG (by decide) (by decide) (by decide) (d := .sel .STR_SUBSTR [.p 0, .p 1, .p 2]) (by decide +kernel), sel3 rfl]
    show MadeStr ρ r cs!"str.substr" [x, y, z] _ (mkStrSubstr x y z)
    unfold mkStrSubstr err3
    rw [eval_notErr hx, eval_notErr hy, eval_notErr hz, str_param hx, pint (hint 1 (by decide) y (by simp)), pint (hint 1 (by decide) z (by simp)), str_sort hx]
    rcases strText_value hx with ⟨_, e1⟩ | ⟨n1, e1⟩
    · exact three (k := .STR_SUBSTR) rfl (.inl ⟨2, rfl⟩) (by decide) rfl (by intro d h; simp [resTable] at h) (by simp only [simpStr3, e1])
    rcases intText_value hy with e2 | ⟨n2, e2⟩
    · exact three (k := .STR_SUBSTR) rfl (.inl ⟨2, rfl⟩) (by decide) rfl (by intro d h; simp [resTable] at h) (by simp only [simpStr3, e1, e2])
    rcases intText_value hz with e3 | ⟨n3, e3⟩
    · exact three (k := .STR_SUBSTR) rfl (.inl ⟨2, rfl⟩) (by decide) rfl (by intro d h; simp [resTable] at h) (by simp only [simpStr3, e1, e2, e3])
    have hn : ∀ u ∈ [x, y, z], ¬ NoLit u := by simp [n1, n2, n3]
    have hf : FoldsVal cs!"str.substr" [strVal s, .n (i : Rat), .n (n : Rat)] := (hvar (by decide)).resolve_left fun ⟨u, h, e⟩ => hn u h e
    have hi := (hf.in_ (x := .n (i : Rat)) (by simp)).small
    have hi' := (hf.in_ (x := .n (n : Rat)) (by simp)).small
    refine made_lit (by simp [resTable]) hn ?_
    simp only [simpStr3, e1, e2, e3, Str.substr_exact_partial s (hf.in_ (x := strVal s) (by simp)).plain i n hi.1 hi.2 hi'.1 hi'.2]
    rfl
  | prefixof s t b h =>
    obtain ⟨x, y, rfl, hx, hy⟩ := evalL_inv2 hu
    rw [call_slow (k := .strOp 3) hG (by decide) (by decide) (by decide) (d := .sel .STR_PREFIXOF [.p 0, .p 1]) (by decide +kernel), sel2 rfl]
    exact made_test (k := .STR_PREFIXOF) (b := .prefixof) (.inl ⟨3, rfl⟩) (by decide) hx hy hI happ' hst (by simp [resTable]) (fun s t => ⟨_, rfl⟩)
      (tests_iff h (Str.tests_exact s t).1) (fun l m h1 h2 => by simp only [simpStr2, h1, h2])
  | suffixof s t b h =>
    obtain ⟨x, y, rfl, hx, hy⟩ := evalL_inv2 hu
    rw [call_slow (k := .strOp 4) hG (by decide) (by decide) (by decide) (d := .sel .STR_SUFFIXOF [.p 0, .p 1]) (by decide +kernel), sel2 rfl]
    exact made_test (k := .STR_SUFFIXOF) (b := .suffixof) (.inl ⟨4, rfl⟩) (by decide) hx hy hI happ' hst (by simp [resTable]) (fun s t => ⟨_, rfl⟩)
      (tests_iff h (Str.tests_exact s t).2.1) (fun l m h1 h2 => by simp only [simpStr2, h1, h2])
  | contains s t b h =>
    obtain ⟨x, y, rfl, hx, hy⟩ := evalL_inv2 hu
    rw [call_slow (k := .atom 9) hG (by decide) (by decide) (by decide) (d := .sel .STR_CONTAINS [.p 0, .p 1]) (by decide +kernel), sel2 rfl]
    exact made_test (k := .STR_CONTAINS) (b := .contains) (.inr (.inl ⟨9, rfl⟩)) (by decide) hx hy hI happ' hst (by simp [resTable]) (fun s t => ⟨_, rfl⟩)
      (tests_iff h (Str.tests_exact s t).2.2) (fun l m h1 h2 => by simp only [simpStr2, h1, h2])
  | indexof s t i q h =>
    obtain ⟨x, y, z, rfl, hx, hy, hz⟩ := evalL_inv3 hu
    rw [call_slow (k := .strOp 5) hG (by decide) (by decide) (by decide) (d := .sel .STR_INDEXOF [.p 0, .p 1, .p 2]) (by decide +kernel), sel3 rfl]
    show MadeStr ρ r cs!"str.indexof" [x, y, z] _ (mkStrIndexof x y z)
    unfold mkStrIndexof err3
    rw [eval_notErr hx, eval_notErr hy, eval_notErr hz, str_param hx, str_param hy, pint (hint 2 (by decide) z (by simp))]
    refine three (k := .STR_INDEXOF) rfl (.inl ⟨5, rfl⟩) (by decide) rfl (by intro d h; simp [resTable] at h; subst h; rfl) ?_
    obtain ⟨u, hu', h⟩ := (hvar (by decide)).resolve_right fun h => absurd h.1 (by decide)
    simp only [List.mem_cons, List.not_mem_nil, or_false] at hu'
    simp only [simpStr3]
    rcases hu' with rfl | rfl | rfl
    · rw [strText_none h.2.2]
    · rw [strText_none h.2.2]; split <;> first | rfl | simp_all
    · rw [intText_none h.2.1]; split <;> first | rfl | simp_all
  | replace s t u' q h =>
    obtain ⟨x, y, z, rfl, hx, hy, hz⟩ := evalL_inv3 hu
    rw [call_slow (k := .strOp 7) hG (by decide) (by decide) (by decide) (d := .sel .STR_REPLACE [.p 0, .p 1, .p 2]) (by decide +kernel), sel3 rfl]
    show MadeStr ρ r cs!"str.replace" [x, y, z] _ (mkStrReplace x y z)
    unfold mkStrReplace err3
    rw [eval_notErr hx, eval_notErr hy, eval_notErr hz, str_param hx, str_param hy, str_param hz, str_sort hx]
    rcases strText_value hx with ⟨_, e1⟩ | ⟨n1, e1⟩
    · exact three (k := .STR_REPLACE) rfl (.inl ⟨7, rfl⟩) (by decide) rfl (by intro d h; simp [resTable] at h) (by simp only [simpStr3, e1])
    rcases strText_value hy with ⟨_, e2⟩ | ⟨n2, e2⟩
    · exact three (k := .STR_REPLACE) rfl (.inl ⟨7, rfl⟩) (by decide) rfl (by intro d h; simp [resTable] at h) (by simp only [simpStr3, e1, e2])
    rcases strText_value hz with ⟨_, e3⟩ | ⟨n3, e3⟩
    · exact three (k := .STR_REPLACE) rfl (.inl ⟨7, rfl⟩) (by decide) rfl (by intro d h; simp [resTable] at h) (by simp only [simpStr3, e1, e2, e3])
    have hn : ∀ u ∈ [x, y, z], ¬ NoLit u := by simp [n1, n2, n3]
    have hf : FoldsVal cs!"str.replace" [strVal s, strVal t, strVal u'] := (hvar (by decide)).resolve_left fun ⟨u, h, e⟩ => hn u h e
    refine made_lit (by simp [resTable]) hn ?_
    obtain ⟨q', h1, h2⟩ := Str.replace_exact_partial s t u' (hf.in_ (x := strVal s) (by simp)).plain (hf.in_ (x := strVal u') (by simp)).plain
    simp only [simpStr3, e1, e2, e3, h1, replace_unique h h2]
    rfl
  | replaceAll s t u' q h =>
    obtain ⟨x, y, z, rfl, hx, hy, hz⟩ := evalL_inv3 hu
    rw [call_slow (k := .strOp 8) hG (by decide) (by decide) (by decide) (d := .sel .STR_REPLACE_ALL [.p 0, .p 1, .p 2]) (by decide +kernel), sel3 rfl]
    show MadeStr ρ r cs!"str.replace_all" [x, y, z] _ (mkStrReplaceAll x y z)
    unfold mkStrReplaceAll
    rw [str_param hx, str_param hy, str_param hz, str_sort hx]
    rcases strText_value hx with ⟨_, e1⟩ | ⟨n1, e1⟩
    · exact three (k := .STR_REPLACE_ALL) rfl (.inl ⟨8, rfl⟩) (by decide) rfl (by intro d h; simp [resTable] at h) (by simp only [simpStr3, e1])
    rcases strText_value hy with ⟨_, e2⟩ | ⟨n2, e2⟩
    · exact three (k := .STR_REPLACE_ALL) rfl (.inl ⟨8, rfl⟩) (by decide) rfl (by intro d h; simp [resTable] at h) (by simp only [simpStr3, e1, e2])
    rcases strText_value hz with ⟨_, e3⟩ | ⟨n3, e3⟩
    · exact three (k := .STR_REPLACE_ALL) rfl (.inl ⟨8, rfl⟩) (by decide) rfl (by intro d h; simp [resTable] at h) (by simp only [simpStr3, e1, e2, e3])
    have hn : ∀ u ∈ [x, y, z], ¬ NoLit u := by simp [n1, n2, n3]
    have hf : FoldsVal cs!"str.replace_all" [strVal s, strVal t, strVal u'] := (hvar (by decide)).resolve_left fun ⟨u, h, e⟩ => hn u h e
    refine made_lit (by simp [resTable]) hn ?_
    have hs := (hf.in_ (x := strVal s) (by simp)).plain
    have hu' := (hf.in_ (x := strVal u') (by simp)).plain
    have ht : t ≠ [] := fun e => hf.2.2.2 rfl s u' (by rw [e])
    simp only [simpStr3, e1, e2, e3, replaceAll_right hs hu' ht h, Res.bind, Str.mkConstStr_plain (Str.replaceAll_plain hu' h hs)]
    rfl
  | isDigit s b h =>
    exact one (k := .STR_IS_DIGIT) (σ := .bool) rfl (by decide) (.inr (.inl ⟨10, rfl⟩)) (by decide) rfl (by intro d h; simp [resTable] at h) (fun x => by
      rw [call_slow (k := .atom 10) hG (by decide) (by decide) (by decide) (d := .sel .STR_IS_DIGIT [.p 0]) (by decide +kernel), sel1 rfl]; rfl)
  | toCode a =>
    exact one (k := .STR_TO_CODE) (σ := .int) rfl (by decide) (.inr (.inr ⟨12, rfl⟩)) (by decide) rfl (by intro d h; simp [resTable] at h; subst h; rfl) (fun x => by
      rw [call_slow (k := .misc 12) hG (by decide) (by decide) (by decide) (d := .sel .STR_TO_CODE [.p 0]) (by decide +kernel), sel1 rfl]; rfl)
  | noCode s h =>
    exact one (k := .STR_TO_CODE) (σ := .int) rfl (by decide) (.inr (.inr ⟨12, rfl⟩)) (by decide) rfl (by intro d h; simp [resTable] at h; subst h; rfl) (fun x => by
      rw [call_slow (k := .misc 12) hG (by decide) (by decide) (by decide) (d := .sel .STR_TO_CODE [.p 0]) (by decide +kernel), sel1 rfl]; rfl)
  | fromCode a h =>
    exact oneI (i := a.toNat) (k := .STR_FROM_CODE) rfl (by decide) (by decide) (.inr (.inr ⟨13, rfl⟩)) (by decide) rfl (by simp [resTable]) (fun x => by
      rw [call_slow (k := .misc 13) hG (by decide) (by decide) (by decide) (d := .sel .STR_FROM_CODE [.p 0]) (by decide +kernel), sel1 rfl]; rfl)
  | noChar i h =>
    exact oneI (i := i) (k := .STR_FROM_CODE) rfl (by decide) (by decide) (.inr (.inr ⟨13, rfl⟩)) (by decide) rfl (by simp [resTable]) (fun x => by
      rw [call_slow (k := .misc 13) hG (by decide) (by decide) (by decide) (d := .sel .STR_FROM_CODE [.p 0]) (by decide +kernel), sel1 rfl]; rfl)
  | toInt s h =>
    exact one (k := .STR_TO_INT) (σ := .int) rfl (by decide) (.inr (.inr ⟨11, rfl⟩)) (by decide) rfl (by intro d h; simp [resTable] at h; subst h; rfl) (fun x => by
      rw [call_slow (k := .misc 11) hG (by decide) (by decide) (by decide) (d := .sel .STR_TO_INT [.p 0]) (by decide +kernel), sel1 rfl]; rfl)
  | noInt s h =>
    exact one (k := .STR_TO_INT) (σ := .int) rfl (by decide) (.inr (.inr ⟨11, rfl⟩)) (by decide) rfl (by intro d h; simp [resTable] at h; subst h; rfl) (fun x => by
      rw [call_slow (k := .misc 11) hG (by decide) (by decide) (by decide) (d := .sel .STR_TO_INT [.p 0]) (by decide +kernel), sel1 rfl]; rfl)
  | fromInt n =>
    exact oneI (i := n) (k := .STR_FROM_INT) rfl (by decide) (by decide) (.inr (.inr ⟨10, rfl⟩)) (by decide) rfl (by simp [resTable]) (fun x => by
      rw [call_slow (k := .misc 10) hG (by decide) (by decide) (by decide) (d := .sel .STR_FROM_INT [.p 0]) (by decide +kernel), sel1 rfl]; rfl)
  | noNat i h =>
    exact oneI (i := i) (k := .STR_FROM_INT) rfl (by decide) (by decide) (.inr (.inr ⟨10, rfl⟩)) (by decide) rfl (by simp [resTable]) (fun x => by
      rw [call_slow (k := .misc 10) hG (by decide) (by decide) (by decide) (d := .sel .STR_FROM_INT [.p 0]) (by decide +kernel), sel1 rfl]; rfl)

theorem quote_writes (s : List Char) : Leaf.Writes (Str.quote s) (.str (Str.quote s)) := Leaf.Writes.str

/-- a string literal is a leaf with its text -/
theorem leaf_string (hG : SigOk G) {sc : Names SMT.Term} {s : List Char} (ph : Bool) (hs : ∀ c ∈ s, Str.Plain c)
    (hl : (letsOf sc).lookup (Str.quote s) = none) (hq : quantsOf sc = []) (h : G.vars.lookup (Str.quote s) = none)
    (h' : G.vars.lookup ('|' :: Str.quote s ++ ['|']) = none) :
    (ctors (declared c G.vars G.funs) rest rlit).leaf sc (Str.quote s) ph = .ok (.clit .str (String.ofList (Str.quote s))) := by
  have e1 : (tables (declared c G.vars G.funs) sc).holders.lookup (Str.quote s) = none := rfl
  have e2 : (tables (declared c G.vars G.funs) sc).lets.lookup (Str.quote s) = none := hl
  have e3 := table_funs (c := c) hG sc (s := Str.quote s) (by rintro f hf e; exact hG.notConstant f hf (e ▸ .str s))
  have e4 : (tables (declared c G.vars G.funs) sc).funVars.lookup (Str.quote s) = none := rfl
  have e5 : (tables (declared c G.vars G.funs) sc).quants.lookup (Str.quote s) = none := by
    show (quantsOf sc).lookup _ = none
    rw [hq]; rfl
  have e6 := table_vars (c := c) (G := G) sc (Str.quote s)
  rw [h] at e6
  have e7 := table_vars (c := c) (G := G) sc ('|' :: Str.quote s ++ ['|'])
  rw [h'] at e7
  have eb : inBars (Str.quote s) = false := by simp [inBars, Str.quote]
  have hn : named (tables (declared c G.vars G.funs) sc) ph (Str.quote s) = none := by
    unfold named globalVar
    rw [e1, ite_self]
    simp only [e2, e3, e4, e5, e6, e7, eb, Option.map_none, Bool.false_eq_true, if_false, ite_self]
  have hleaf : (ctors (declared c G.vars G.funs) rest rlit).leaf sc (Str.quote s) ph = match constOf (Str.quote s) with
      | some l => lit rlit l
      | none => if ph && !isNumber (Str.quote s) then .ok (.var .placeholder .unk (String.ofList (Str.quote s))) else .abort := by
    rw [leaf_eq]
    unfold parseConstFunc
    rw [if_neg (by simp [Str.quote]), if_neg (by simp [Str.quote]), hn]
    rfl
  rw [hleaf, writes_constOf (quote_writes s) (by simp [Str.quote]) (by simp [Str.quote])]
  simp only [lit, Str.mkConstStr_plain hs]

end

end SMT.Mean
