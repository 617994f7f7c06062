import Verif.Subst.Spec

/-! # C37: function application and substitution -/

namespace SMT.Subst
open SMT SMT.Term

set_option linter.unusedSimpArgs false
set_option linter.unusedVariables false

/-- what a result must give -/
def Gives (c : Cfg) (ρ : Env) (v : Val) (r : Res Term) : Prop := ∃ t, r = .ok t ∧ eval ρ t = some v ∧ Fit c t
/-- for lists -/
def GivesL (c : Cfg) (ρ : Env) (vs : List Val) (r : Res (List Term)) : Prop :=
  ∃ ts, r = .ok ts ∧ evalL ρ ts = some vs ∧ ∀ t ∈ ts, Fit c t

theorem fit_app {c : Cfg} (hI : IntOK c) (k : Kind) (s : Srt) (ts : List Term) : Fit c (.app k s ts) := .inr ⟨trivial, hI⟩

theorem evalL_length {ρ : Env} {ts : List Term} {vs : List Val} (h : evalL ρ ts = some vs) : vs.length = ts.length := by
  rw [((evalL_iff ρ ts vs).1 h).2]; simp

theorem lookup_zip {ρ : Env} {xs : List String} : ∀ {ts : List Term} {vs : List Val}, evalL ρ ts = some vs →
    ∀ x v, (xs.zip vs).lookup x = some v → ∃ t ∈ ts, (xs.zip ts).lookup x = some t ∧ eval ρ t = some v := by
  induction xs with
  | nil => intro ts vs _ x v h; simp at h
  | cons y xs ih =>
    intro ts vs hts x v h
    cases ts with
    | nil => simp only [evalL, Option.some.injEq] at hts; subst hts; simp at h
    | cons t ts =>
      simp only [evalL] at hts
      cases h1 : eval ρ t with
      | none => rw [h1] at hts; cases hts
      | some w =>
        cases h2 : evalL ρ ts with
        | none => rw [h1, h2] at hts; cases hts
        | some ws =>
          rw [h1, h2] at hts
          simp only [Option.some.injEq] at hts
          subst hts
          simp only [List.zip_cons_cons, List.lookup_cons] at h ⊢
          cases hq : (x == y) with
          | true =>
            rw [hq] at h
            simp only [Option.some.injEq] at h
            subst h
            exact ⟨t, by simp, rfl, h1⟩
          | false =>
            rw [hq] at h
            obtain ⟨u, hu, h3, h4⟩ := ih h2 x v h
            exact ⟨u, by simp [hu], h3, h4⟩

theorem oper_gives {c : Cfg} {ρ : Env} (hI : IntOK c) {k : Kind} {s : Srt} {us : List Term} {vs : List Val} {v : Val}
    (hu : evalL ρ us = some vs) (hf : ∀ t ∈ us, Fit c t) (h : guardSort s (apply ρ k s vs) = some v)
    (h3 : k = .implies → us.length ≠ 3) (hne : us = [] → ∃ i, k = .uf i) :
    Gives c ρ v (build c k s us) := by
  obtain ⟨ha, hs⟩ := guardSort_some.1 h
  have hev : evalApp ρ k us s = some v := by unfold evalApp; rw [hu]; exact ha
  by_cases hk : ∃ i, k = .uf i
  · obtain ⟨i, rfl⟩ := hk
    exact ⟨_, rfl, by rw [eval_app]; exact guardSort_some.2 ⟨hev, hs⟩, fit_app hI _ _ _⟩
  · have hne' : us ≠ [] := fun h0 => hk (hne h0)
    have key := mkOper_sound3 c ρ k us s v hf hne' (fun h1 h2 => absurd h2 (h3 h1)) hs hev
    have he : us.isEmpty = false := by simpa using hne'
    have : Gives c ρ v (if us.isEmpty then .abort else .ok (mkOper c s k us)) := by
      rw [he]; exact ⟨_, rfl, key.1, key.2⟩
    unfold build
    cases k <;> first | exact this | (exact absurd ⟨_, rfl⟩ hk)

mutual
theorem post_gives (c : Cfg) (ρ : Env) (hI : IntOK c) (call : Nat → List Term → Res Term) (callV : Nat → List Val → Option Val)
    (hcall : ∀ i us vs v, evalL ρ us = some vs → (∀ t ∈ us, Fit c t) → callV i vs = some v → Gives c ρ v (call i us))
    (xs : List String) (args : List Term) (vs : List Val) (ha : evalL ρ args = some vs) (hfa : ∀ t ∈ args, Fit c t) :
    (b : Body) → Ok c b → ∀ v, evalB ρ callV (xs.zip vs) b = some v → Gives c ρ v (post c call (xs.zip args) b)
  | .param s x, _, v, h => by
    simp only [evalB] at h
    obtain ⟨h1, h2⟩ := guardSort_some.1 h
    obtain ⟨t, ht, h3, h4⟩ := lookup_zip ha x v h1
    exact ⟨t, by simp [post, h3], h4, hfa t ht⟩
  | .lit t, hb, v, h => ⟨t, rfl, by simpa [evalB] using h, hb.2⟩
  | .glob _ _ _, hb, _, _ => hb.elim
  | .app k s ts, hb, v, h => by
    simp only [Ok] at hb
    simp only [evalB] at h
    cases h1 : evalBL ρ callV (xs.zip vs) ts with
    | none => rw [h1] at h; cases h
    | some ws =>
      rw [h1] at h
      obtain ⟨us, hus, h2, h3⟩ := postL_gives c ρ hI call callV hcall xs args vs ha hfa ts hb.2.2 ws h1
      have hlen : us.length = ts.length := by rw [← evalL_length h2]; exact evalBL_length h1
      simp only [post, hus, Res.bind]
      exact oper_gives hI h2 h3 h (fun hk => by rw [hlen]; exact hb.1 hk)
        (fun h0 => hb.2.1 (by rw [← List.length_eq_zero_iff, ← hlen, h0]; rfl))
  | .call i s ts, hb, v, h => by
    simp only [Ok] at hb
    simp only [evalB] at h
    cases h1 : evalBL ρ callV (xs.zip vs) ts with
    | none => rw [h1] at h; cases h
    | some ws =>
      rw [h1] at h
      obtain ⟨us, hus, h2, h3⟩ := postL_gives c ρ hI call callV hcall xs args vs ha hfa ts hb ws h1
      simp only [post, hus, Res.bind]
      exact hcall i us ws v h2 h3 (guardSort_some.1 h).1
theorem postL_gives (c : Cfg) (ρ : Env) (hI : IntOK c) (call : Nat → List Term → Res Term) (callV : Nat → List Val → Option Val)
    (hcall : ∀ i us vs v, evalL ρ us = some vs → (∀ t ∈ us, Fit c t) → callV i vs = some v → Gives c ρ v (call i us))
    (xs : List String) (args : List Term) (vs : List Val) (ha : evalL ρ args = some vs) (hfa : ∀ t ∈ args, Fit c t) :
    (bs : List Body) → OkL c bs → ∀ ws, evalBL ρ callV (xs.zip vs) bs = some ws → GivesL c ρ ws (postL c call (xs.zip args) bs)
  | [], _, ws, h => ⟨[], rfl, by simpa [evalBL, evalL] using h, by simp⟩
  | b :: bs, hb, ws, h => by
    simp only [OkL] at hb
    simp only [evalBL] at h
    cases h1 : evalB ρ callV (xs.zip vs) b with
    | none => rw [h1] at h; cases h
    | some w =>
      cases h2 : evalBL ρ callV (xs.zip vs) bs with
      | none => rw [h1, h2] at h; cases h
      | some ws' =>
        rw [h1, h2] at h
        simp only [Option.some.injEq] at h
        subst h
        obtain ⟨u, hu, h3, h4⟩ := post_gives c ρ hI call callV hcall xs args vs ha hfa b hb.1 w h1
        obtain ⟨us, hus, h5, h6⟩ := postL_gives c ρ hI call callV hcall xs args vs ha hfa bs hb.2 ws' h2
        refine ⟨u :: us, by simp [postL, hu, hus, Res.bind], by simp [evalL, h3, h5], ?_⟩
        intro t ht
        rcases List.mem_cons.mp ht with rfl | ht
        · exact h4
        · exact h6 t ht
theorem evalBL_length {ρ : Env} {call : Nat → List Val → Option Val} {σ : List (String × Val)} :
    {bs : List Body} → {ws : List Val} → evalBL ρ call σ bs = some ws → ws.length = bs.length
  | [], ws, h => by simp only [evalBL, Option.some.injEq] at h; subst h; rfl
  | b :: bs, ws, h => by
    simp only [evalBL] at h
    cases h1 : evalB ρ call σ b with
    | none => rw [h1] at h; cases h
    | some w =>
      cases h2 : evalBL ρ call σ bs with
      | none => rw [h1, h2] at h; cases h
      | some ws' =>
        rw [h1, h2] at h
        simp only [Option.some.injEq] at h
        subst h
        simp [evalBL_length h2]
end

/-- **C37.**  Applying a defined function to arguments gives a term with the value of the body in the environment where the
parameters have the values of the arguments: for every function table, any nesting of calls, any arguments, every assignment, if
functions are expanded and no body mentions a variable besides its parameters. -/
theorem applyFun_sound_partial (c : Cfg) (o : Opts) (F : Table) (ρ : Env) (hI : IntOK c) (ho : o.expand = true)
    (hr : o.expandRec = true ∨ ∀ f ∈ F, f.isRec = false) (hb : ∀ f ∈ F, ∀ b, f.body = some b → Ok c b) :
    ∀ (n m : Nat) (i : Nat) (args : List Term) (vs : List Val) (v : Val), 2 * n ≤ m → evalL ρ args = some vs →
      (∀ t ∈ args, Fit c t) → callV F ρ n i vs = some v →
      ∃ t, applyFun c o F m i args = .ok t ∧ eval ρ t = some v ∧ Fit c t := by
  intro n
  induction n with
  | zero => intro m i args vs v _ _ _ h; simp [callV] at h
  | succ n ih =>
    intro m i args vs v hm ha hfa h
    obtain ⟨m, rfl⟩ : ∃ k, m = k + 2 := ⟨m - 2, by omega⟩
    simp only [callV] at h
    cases hi : F[i]? with
    | none => rw [hi] at h; cases h
    | some f =>
      rw [hi] at h
      simp only at h
      have hmem : f ∈ F := List.mem_of_getElem? hi
      have hlen := evalL_length ha
      rw [hlen] at h
      split at h
      · cases h
      · rename_i hp
        simp only [applyFun, hi, if_neg hp]
        cases hbody : f.body with
        | none =>
          rw [hbody] at h
          simp only at h ⊢
          obtain ⟨h1, h2⟩ := guardSort_some.1 h
          refine ⟨_, rfl, ?_, fit_app hI _ _ _⟩
          rw [eval_app]
          refine guardSort_some.2 ⟨?_, h2⟩
          unfold evalApp
          rw [ha]
          exact h1
        | some b =>
          rw [hbody] at h
          simp only at h ⊢
          have e1 : (f.isRec && !o.expandRec) = false := by
            rcases hr with hr | hr
            · rw [hr]; simp
            · rw [hr f hmem]; rfl
          rw [e1, ho]
          simp only [Bool.not_true, Bool.and_false, Bool.false_eq_true, if_false]
          have hfind : args.find? (fun a => a.isErr) = none := by
            rw [List.find?_eq_none]
            intro t ht he
            obtain ⟨w, hw⟩ := ((evalL_iff ρ args vs).1 ha).1 t ht
            cases t <;> simp [isErr] at he
            simp [eval] at hw
          rw [hfind]
          simp only
          refine post_gives c ρ hI _ (callV F ρ n) ?_ _ args vs ha hfa b (hb f hmem b hbody) v h
          intro j us ws w h1 h2 h3
          simp only [inner]
          cases hj : F[j]? with
          | none =>
            cases n with
            | zero => simp [callV] at h3
            | succ n => simp [callV, hj] at h3
          | some g =>
            have hg : g ∈ F := List.mem_of_getElem? hj
            have e2 : (g.isRec && !o.expandRec) = false := by
              rcases hr with hr | hr
              · rw [hr]; simp
              · rw [hr g hg]; rfl
            simp only [e2, Bool.false_eq_true, if_false]
            exact ih m j us ws w (by omega) h1 h2 h3

/-! ## Substitution -/

mutual
theorem subst_gives (c : Cfg) (ρ : Env) (hI : IntOK c) (arr : Srt → Bool) (σ : List (String × Term))
    (hσ : ∀ x t, σ.lookup x = some t → Ev ρ t ∧ Fit c t) :
    (e : Term) → OkT c e → ∀ v, eval (upd ρ σ) e = some v → Gives c ρ v (subst c arr σ e)
  | .unknown, _, v, h => by simp [eval] at h
  | .err, _, v, h => by simp [eval] at h
  | .tt, he, v, h => ⟨_, rfl, by simpa [eval] using h, he⟩
  | .ff, he, v, h => ⟨_, rfl, by simpa [eval] using h, he⟩
  | .cint i, he, v, h => ⟨_, rfl, by simpa [eval] using h, he⟩
  | .creal n q, he, v, h => ⟨_, rfl, by simpa [eval] using h, he⟩
  | .clit s x, he, v, h => ⟨_, rfl, by simpa [eval, upd] using h, he⟩
  | .var vk s x, he, v, h => by
    simp only [eval, upd] at h
    simp only [subst]
    cases hx : σ.lookup x with
    | none =>
      rw [hx] at h
      exact ⟨_, rfl, by simpa [eval] using h, he⟩
    | some t =>
      rw [hx] at h
      obtain ⟨h1, h2⟩ := guardSort_some.1 h
      simp only [Option.some.injEq] at h1
      obtain ⟨h3, h4⟩ := hσ x t hx
      exact ⟨t, rfl, by rw [h3.eval, h1], h4⟩
  | .app k s ts, he, v, h => by
    simp only [OkT] at he
    simp only [eval] at h
    cases h1 : evalL (upd ρ σ) ts with
    | none => rw [h1] at h; cases h
    | some vs =>
      rw [h1] at h
      obtain ⟨us, hus, h2, h3⟩ := substL_gives c ρ hI arr σ hσ ts he.2.2 vs h1
      have hlen : us.length = ts.length := by rw [← evalL_length h2]; exact evalL_length h1
      have h' : guardSort s (apply ρ k s vs) = some v := h
      simp only [subst, hus, Res.bind]
      split
      · obtain ⟨ha, hs⟩ := guardSort_some.1 h'
        refine ⟨_, rfl, ?_, fit_app hI _ _ _⟩
        rw [eval_app]
        refine guardSort_some.2 ⟨?_, hs⟩
        unfold evalApp
        rw [h2]
        exact ha
      · exact oper_gives hI h2 h3 h' (fun hk => by rw [hlen]; exact he.1 hk)
          (fun h0 => he.2.1 (by rw [← List.length_eq_zero_iff, ← hlen, h0]; rfl))
theorem substL_gives (c : Cfg) (ρ : Env) (hI : IntOK c) (arr : Srt → Bool) (σ : List (String × Term))
    (hσ : ∀ x t, σ.lookup x = some t → Ev ρ t ∧ Fit c t) :
    (es : List Term) → OkTL c es → ∀ vs, evalL (upd ρ σ) es = some vs → GivesL c ρ vs (substL c arr σ es)
  | [], _, vs, h => ⟨[], rfl, by simpa [evalL] using h, by simp⟩
  | t :: ts, he, vs, h => by
    simp only [OkTL] at he
    simp only [evalL] at h
    cases h1 : eval (upd ρ σ) t with
    | none => rw [h1] at h; cases h
    | some w =>
      cases h2 : evalL (upd ρ σ) ts with
      | none => rw [h1, h2] at h; cases h
      | some ws =>
        rw [h1, h2] at h
        simp only [Option.some.injEq] at h
        subst h
        obtain ⟨u, hu, h3, h4⟩ := subst_gives c ρ hI arr σ hσ t he.1 w h1
        obtain ⟨us, hus, h5, h6⟩ := substL_gives c ρ hI arr σ hσ ts he.2 ws h2
        refine ⟨u :: us, by simp [substL, hu, hus, Res.bind], by simp [evalL, h3, h5], ?_⟩
        intro t ht
        rcases List.mem_cons.mp ht with rfl | ht
        · exact h4
        · exact h6 t ht
end

/-- **C37.**  Substituting terms for variables in an expression without binders gives a term whose value is that of the expression
under the assignment where these variables have the values of the terms. -/
theorem substitute_sound_partial (c : Cfg) (ρ : Env) (hI : IntOK c) (arr : Srt → Bool) (σ : List (String × Term))
    (hσ : ∀ x t, σ.lookup x = some t → Ev ρ t ∧ Fit c t) (e : Term) (he : OkT c e) (v : Val)
    (h : eval (upd ρ σ) e = some v) : ∃ t, subst c arr σ e = .ok t ∧ eval ρ t = some v := by
  obtain ⟨t, h1, h2, -⟩ := subst_gives c ρ hI arr σ hσ e he v h
  exact ⟨t, h1, h2⟩

/-! ## A case that meets the hypotheses -/

theorem intOK_c0 : IntOK c0 := by
  intro i; simp only [c0, id]; exact ⟨by simp, by rw [← Rat.intCast_one, Rat.intCast_inj]⟩
theorem exact_c0 : Exact c0 := fun _ => rfl

/-- `(define-fun sq ((x Int)) Int (* x x))`, `(define-fun f ((x Int) (y Int)) Int (+ (sq y) x 1))` -/
def exF : Table := [⟨0, .int, [(.int, "x")], some (.app .mul .int [.param .int "x", .param .int "x"]), false⟩,
  ⟨1, .int, [(.int, "x"), (.int, "y")], some (.app .add .int [.call 0 .int [.param .int "y"], .param .int "x", .lit (.cint 1)]), false⟩]

example : (∀ f ∈ exF, f.isRec = false) ∧ (∀ f ∈ exF, ∀ b, f.body = some b → Ok c0 b) ∧
    evalL (env (fun _ => false) fun _ => 3) [.app .neg .int [iv "y"], iv "x"] = some [.n (-3), .n 3] ∧
    callV exF (env (fun _ => false) fun _ => 3) 2 1 [.n (-3), .n 3] = some (.n 7) := by
  refine ⟨by simp [exF], ?_, by decide +kernel, by decide +kernel⟩
  intro f hf b hb
  simp only [exF, List.mem_cons, List.not_mem_nil, or_false] at hf
  rcases hf with rfl | rfl <;> simp only [Option.some.injEq] at hb <;> subst hb <;> simp [Ok, OkL, isConst, Fit, exact_c0]

/-- the result of that application: the argument's `x`, `y` are not confused with the parameters `x`, `y` -/
example : applyFun c0 {} exF 4 1 [.app .neg .int [iv "y"], iv "x"] =
    .ok (.app .add .int [.app .mul .int [iv "x", iv "x"], .app .neg .int [iv "y"], .cint 1]) := by decide +kernel

example : (∀ x t, [("x", iv "y"), ("y", .cint 2)].lookup x = some t → Ev (env (fun _ => false) fun _ => 3) t ∧ Fit c0 t) ∧
    OkT c0 (.app .lt .bool [iv "x", iv "y"]) ∧
    eval (upd (env (fun _ => false) fun _ => 3) [("x", iv "y"), ("y", .cint 2)]) (.app .lt .bool [iv "x", iv "y"]) = some (.b false) := by
  refine ⟨?_, by simp [OkT, OkTL, Fit, exact_c0, iv], by decide +kernel⟩
  intro x t h
  have : t = iv "y" ∨ t = .cint 2 := by
    simp only [List.lookup_cons] at h
    split at h
    · simp at h; exact .inl h.symm
    · split at h
      · simp at h; exact .inr h.symm
      · simp at h
  rcases this with rfl | rfl
  · exact ⟨⟨_, rfl⟩, .inl exact_c0⟩
  · exact ⟨⟨_, rfl⟩, .inl exact_c0⟩

/-! ## What goes wrong -/

/-- Applying a function whose body mentions any variable that is not a parameter ends the process: a declared constant, or the
variable of a quantifier inside the body. -/
theorem applyFun_global_violated (c : Cfg) (o : Opts) (ho : o.expand = true) (k : Kind) (s s' : Srt) (x y : String) (vk : VK)
    (n : Nat) (a : Term) (ha : a.isErr = false) (F : Table)
    (hF : F[0]? = some ⟨0, s, [(s', x)], some (.app k s [.param s' x, .glob vk s' y]), false⟩) :
    applyFun c o F (n + 1) 0 [a] = .abort := by
  simp [applyFun, hF, ho, List.find?, ha, post, postL, Res.bind]

/-- A defined function that calls a recursive one (`define-fun-rec`, not expanded by default): expanding it gives the inner call
one operand too many, the function node itself. -/
theorem applyFun_rec_violated (c : Cfg) (a : Term) (ha : a.isErr = false) (x y : String) (hxy : x ≠ y) (b : Body)
    (hb : b = .param .int y) :
    applyFun c {} [⟨0, .int, [(.int, y)], some b, true⟩, ⟨1, .int, [(.int, x)], some (.call 0 .int [.param .int x]), false⟩] 3 1 [a] =
      .ok (.app (.misc 0) .int [.app (.misc 0) .int [.err, .err], a]) := by
  have hq : (y == x) = false := by simp; exact fun h => hxy h.symm
  subst hb
  simp [applyFun, List.find?, ha, post, postL, Res.bind, inner, junkCall, List.lookup_cons, hq, mkOper, simp, simp2, isUnknown, isComm]

/-- An application of a function that is not expanded, or only declared, keeps the arguments as they are. -/
theorem applyFun_kept (c : Cfg) (o : Opts) (F : Table) (n i : Nat) (f : Fn) (args : List Term) (hi : F[i]? = some f)
    (hl : f.params.length = args.length) :
    (f.body = none → applyFun c o F (n + 1) i args = .ok (.app (.uf f.uf) f.sort args)) ∧
    (f.body ≠ none → (if f.isRec then o.expandRec else o.expand) = false → applyFun c o F (n + 1) i args = .ok (.app (.misc i) f.sort args)) := by
  constructor
  · intro h; simp [applyFun, hi, hl, h]
  · intro h h'
    obtain ⟨b, hb⟩ := Option.ne_none_iff_exists'.1 h
    cases hr : f.isRec <;> simp_all [applyFun]

/-- The wrong number of arguments gives the error node. -/
theorem applyFun_arity (c : Cfg) (o : Opts) (F : Table) (n i : Nat) (f : Fn) (args : List Term) (hi : F[i]? = some f)
    (hl : f.params.length ≠ args.length) : applyFun c o F (n + 1) i args = .ok .err := by
  simp [applyFun, hi, hl]

/-- Substituting for a name replaces the bound variable of a quantifier as well: `(forall ((x Int)) (= x y))` with 5 for `x` is a
quantifier over the literal 5.  (`.misc q` is `forall`: body first, then the bound variables.) -/
theorem substitute_bound_violated (c : Cfg) (hs : ∀ l, c.sort l = l) (arr : Srt → Bool) (ha : arr .bool = false) (q : Nat) :
    subst c arr [("x", .cint 5)] (.app (.misc q) .bool [.app .eq .bool [.var .quant .int "x", iv "y"], .var .quant .int "x"]) =
      .ok (.app (.misc q) .bool [.app .eq .bool [.cint 5, iv "y"], .cint 5]) := by
  simp [subst, substL, ha, build, Res.bind, mkOper, simp, simp2, iv, isCInt, isCReal, isCBV, isCStr, isUnknown, isComm, hs, List.lookup_cons]

/-- A substituted term is captured: `(forall ((x Int)) (= x y))` with the declared constant `x` for `y` prints as
`(forall ((x Int)) (= x x))`. -/
theorem substitute_capture_violated (c : Cfg) (hs : ∀ l, c.sort l = l) (arr : Srt → Bool) (ha : arr .bool = false) (q : Nat) :
    subst c arr [("y", iv "x")] (.app (.misc q) .bool [.app .eq .bool [.var .quant .int "x", iv "y"], .var .quant .int "x"]) =
      .ok (.app (.misc q) .bool [.app .eq .bool [.var .quant .int "x", .var .var .int "x"], .var .quant .int "x"]) := by
  simp [subst, substL, ha, build, Res.bind, mkOper, simp, simp2, iv, isCInt, isCReal, isCBV, isCStr, isUnknown, isComm, hs, List.lookup_cons]

end SMT.Subst
