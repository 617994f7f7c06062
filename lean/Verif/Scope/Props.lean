import Verif.Scope.Proof

/-!
# C38 and C49: names, `let` and quantifiers

`scoping_sound_partial` : whatever was parsed before, an expression whose `let` names are pairwise different and different from
the other names in play, and whose quantifiers do not rebind a name that is in scope, is parsed into a node with the value
SMT-LIB gives to the text, in every structure and under every assignment.  Without these conditions the statement is false; the
theorems ending in `_violated` give an input for each way in which it fails.
-/

namespace SMT.Scope

set_option linter.unusedSimpArgs false

/-- Parsing several expressions, one after the other, with the same parser; the nodes are returned in order. -/
def parseSeq (c : Ctx) (st : S) : List E → Res (List R × S)
  | [] => .ok ([], st)
  | e :: es => (parse c st false e).bind fun p => (parseSeq c p.2 es).bind fun q => .ok (p.1.2 :: q.1, q.2)

/-- The conditions on one expression: symbols are declared or bound; `let` names occur in one binding only and are neither
declared nor quantified; quantified names are not declared (quantifiers that are not nested may share names). -/
structure Good (c : Ctx) (e : E) : Prop where
  wf : Scoped c [] e
  lets : (lnames e).Nodup
  letc : ∀ x ∈ lnames e, x ∉ c.names ∧ x ∉ qnames e
  quantc : ∀ x ∈ qnames e, x ∉ c.names

/-- between expressions -/
structure Idle (c : Ctx) (st : S) : Prop where
  z : Z c st
  depth : st.depth = 0
  qdepth : st.qdepth = 0
  quants : st.quants = []

theorem idle_start (c : Ctx) : Idle c start :=
  ⟨⟨fun _ k r h => by simp [start] at h, fun _ _ x => by simp [start]⟩, rfl, rfl, rfl⟩

theorem Idle.stat {c : Ctx} {st : S} (h : Idle c st) : Stat c st [] := by
  refine ⟨fun x hx => (by cases hx), fun x hx => (by cases hx), fun x _ => ?_, fun x v hv => ?_⟩
  · simp [letLookup, h.depth]
  · rw [h.quants] at hv; cases hv

theorem Idle.agree {c : Ctx} {st : S} (h : Idle c st) (hd : ∀ x ∈ c.params, x ∉ c.funs) {V : Type} (I : Interp V) (g : Glob V)
    (σ : String → Nat → V) : Agree c st [] I g (g.env c) σ := by
  intro x hx r hr
  have hl : letLookup c st x = none := by simp [letLookup, h.depth]
  unfold Scope.resolve at hr
  simp only [hl, h.qdepth, if_true] at hr
  by_cases h1 : x ∈ c.funs
  · have h2 : x ∉ c.params := fun q => hd x q h1
    rw [if_pos h1] at hr; cases hr
    simp [evalR, Glob.env, h1, h2]
  · rw [if_neg h1] at hr
    by_cases h2 : x ∈ c.params
    · rw [if_pos h2] at hr; cases hr
      simp [evalR, Glob.env, h2]
    · rw [if_neg h2] at hr
      by_cases h3 : x ∈ c.vars
      · rw [if_pos h3] at hr; cases hr
        simp [evalR, Glob.env, h1, h2]
      · rw [if_neg h3] at hr; cases hr

theorem parse_one {c : Ctx} {st : S} {e : E} (h : Idle c st) (hd : ∀ x ∈ c.params, x ∉ c.funs) (ok : Good c e) :
    ∃ l r st', parse c st false e = .ok ((l, r), st') ∧ Idle c st' ∧
      ∀ (V : Type) (I : Interp V) (g : Glob V) (σ : String → Nat → V), evalR I g σ r = evalE I (g.env c) e := by
  have nm : Nm c st [] (lnames e) (qnames e) := by
    refine ⟨ok.lets, fun x hx => ⟨(ok.letc x hx).1, by simp, (ok.letc x hx).2⟩, fun x _ hp => ?_,
      fun x hx => ⟨ok.quantc x hx, fun hp => ?_⟩⟩ <;> exact absurd h.depth (by omega)
  obtain ⟨l, r, st', hp, po⟩ := parse_ok c e st false [] (by simp) h.z h.stat nm ok.wf
  refine ⟨l, r, st', hp, ⟨po.z, po.same.depth.trans h.depth, po.same.qdepth.trans h.qdepth, po.same.quants.trans h.quants⟩, ?_⟩
  intro V I g σ
  exact po.val V I g _ σ (h.agree hd I g σ)

theorem parseSeq_idle {c : Ctx} (hd : ∀ x ∈ c.params, x ∉ c.funs) : ∀ (es : List E) (st : S), Idle c st → (∀ e ∈ es, Good c e) →
    ∃ rs st', parseSeq c st es = .ok (rs, st') ∧ Idle c st' ∧
      ∀ (V : Type) (I : Interp V) (g : Glob V) (σ : String → Nat → V), rs.map (evalR I g σ) = es.map (evalE I (g.env c)) := by
  intro es
  induction es with
  | nil => intro st h _; exact ⟨[], st, rfl, h, fun _ _ _ _ => rfl⟩
  | cons e es ih =>
    intro st h hg
    obtain ⟨l, r, st1, hp, h1, hv⟩ := parse_one h hd (hg e List.mem_cons_self)
    obtain ⟨rs, st2, hq, h2, hw⟩ := ih st1 h1 fun e' he => hg e' (List.mem_cons_of_mem _ he)
    refine ⟨r :: rs, st2, by simp only [parseSeq, hp, hq, Res.bind], h2, fun V I g σ => ?_⟩
    simp only [List.map_cons, hv V I g σ, hw V I g σ]

/-- **C38, C49.**  A new parser reads any number of expressions, in either `let` mode.  If each of them satisfies the naming
conditions, every parse succeeds and every node has, in every structure, the value of its text under SMT-LIB scoping.
(Missing for the full properties: shadowing, see below.) -/
theorem scoping_sound_partial (c : Ctx) (hd : ∀ x ∈ c.params, x ∉ c.funs) (es : List E) (hg : ∀ e ∈ es, Good c e) :
    ∃ rs st', parseSeq c start es = .ok (rs, st') ∧
      ∀ (V : Type) (I : Interp V) (g : Glob V) (σ : String → Nat → V), rs.map (evalR I g σ) = es.map (evalE I (g.env c)) := by
  obtain ⟨rs, st', h, _, hv⟩ := parseSeq_idle hd es start (idle_start c) hg
  exact ⟨rs, st', h, hv⟩

/-! ## A case that meets the hypotheses -/

def a1 (op : String) (x : E) : E := .app op (.cons x .nil)
def a2 (op : String) (x y : E) : E := .app op (.cons x (.cons y .nil))
def k (s : String) : E := .app s .nil

/-- `(forall ((q S0)) (let ((a (f q g)) (b g)) (let ((d (f a b))) (exists ((r S1)) (f d r)))))` -/
def sample : E :=
  .quant true [("q", 0)] (.letE (.cons "a" (a2 "f" (.sym "q") (.sym "g")) (.cons "b" (.sym "g") .nil))
    (.letE (.cons "d" (a2 "f" (.sym "a") (.sym "b")) .nil) (.quant false [("r", 1)] (a2 "f" (.sym "d") (.sym "r")))))

def ctx0 (keep : Bool) : Ctx := ⟨["h"], ["p"], ["g", "b0"], keep⟩

example (keep : Bool) : Good (ctx0 keep) sample ∧ Good (ctx0 keep) (.letE (.cons "a" (.sym "g") .nil) (a2 "f" (.sym "a") (.sym "p"))) := by
  constructor <;> refine ⟨?_, ?_, ?_, ?_⟩ <;>
    simp [Scoped, ScopedL, ScopedB, sample, a2, lnames, lnamesL, lnamesB, qnames, qnamesL, qnamesB, bnames, ctx0, Ctx.names]

/-! ## Where the full properties fail -/

theorem pair_beq (a b : String) (m n : Nat) : ((a, m) == (b, n)) = (a == b && m == n) := rfl

/-- numbers as a structure: constants, addition; quantifiers apply to (7, 7, …) -/
def num : Interp Nat where
  op s vs := if s = "1" then 1 else if s = "2" then 2 else if s = "fst" then vs.headD 0
    else if s = "snd" then (vs.drop 1).headD 0 else vs.foldl (· + ·) 0
  quant _ ss f := f (ss.map (· + 100))
  dflt := 0

/-- globals are 50, parameters 60, functions 70 -/
def gn : Glob Nat := ⟨fun _ => 70, fun _ => 60, fun _ => 50⟩

def cg (keep : Bool) : Ctx := ⟨[], [], ["x", "b"], keep⟩

/-- `(let ((x 1) (y x)) y)` with a declared `x`: SMT-LIB means the declared `x` -/
def seqE : E := .letE (.cons "x" (k "1") (.cons "y" (.sym "x") .nil)) (.sym "y")

/-- **C38, false in general (1).**  Bindings are sequential: a later binding of the same `let` sees the earlier ones. -/
theorem sequential_violated (keep : Bool) : ∃ r st', parse (cg keep) start false seqE = .ok ((.nil, r), st') ∧
    evalE num (gn.env (cg keep)) seqE = 50 ∧ ∀ σ, evalR num gn σ r = 1 := by
  cases keep <;>
    simp [parse, parseBinds, parseArgs, seqE, k, cg, start, enterLet, key, bind, Res.bind, resolve, letLookup, eraseL, Rs.append,
      List.lookup, pair_beq, evalR, evalRs, evalE, evalEs, evalB, set1, num, gn, Glob.env]

/-- `(let ((a (let ((b 1)) b))) (snd a b))` with a declared `b` -/
def leakE : E := .letE (.cons "a" (.letE (.cons "b" (k "1") .nil) (.sym "b")) .nil) (a2 "snd" (.sym "a") (.sym "b"))

/-- **C38, false in general (2).**  With the default options a name bound inside the value of a binding stays visible in the
body of the outer `let`. -/
theorem leak_violated : ∃ r st', parse (cg true) start false leakE = .ok ((.nil, r), st') ∧
    evalE num (gn.env (cg true)) leakE = 50 ∧ ∀ σ, evalR num gn σ r = 1 := by
  simp [parse, parseBinds, parseArgs, leakE, a2, k, cg, start, enterLet, key, bind, Res.bind, resolve, letLookup, Rs.append,
    List.lookup, pair_beq, evalR, evalRs, evalE, evalEs, evalB, set1, num, gn, Glob.env]

/-- `(let ((x (snd (let ((x 1)) x) 2))) x)` -/
def innerE : E :=
  .letE (.cons "x" (a2 "snd" (.letE (.cons "x" (k "1") .nil) (.sym "x")) (k "2")) .nil) (.sym "x")

/-- **C38, false in general (3).**  With the default options a binding is dropped silently when its value binds the same
name. -/
theorem inner_violated : ∃ r st', parse (cg true) start false innerE = .ok ((.nil, r), st') ∧
    evalE num (gn.env (cg true)) innerE = 2 ∧ ∀ σ, evalR num gn σ r = 1 := by
  simp [parse, parseBinds, parseArgs, innerE, a2, k, cg, start, enterLet, key, bind, Res.bind, resolve, letLookup, Rs.append,
    List.lookup, pair_beq, evalR, evalRs, evalE, evalEs, evalB, set1, num]

/-- `(let ((x 1)) (let ((x 2)) x))` -/
def shadowE : E := .letE (.cons "x" (k "1") .nil) (.letE (.cons "x" (k "2") .nil) (.sym "x"))

/-- **C38, false in general (4).**  A `let` that shadows a `let` ends the process. -/
theorem shadow_violated (keep : Bool) : parse (cg keep) start false shadowE = .abort := by
  cases keep <;>
    simp [parse, parseBinds, parseArgs, shadowE, k, cg, start, enterLet, key, bind, Res.bind, List.lookup, pair_beq]

/-- **C49, false in general (1).**  `(forall ((x S0)) (exists ((x S1)) x))`: the inner quantifier binds the outer variable, with
the sort `S0`. -/
theorem rebind_violated : ∃ st', parse (cg true) start false (.quant true [("x", 0)] (.quant false [("x", 1)] (.sym "x"))) =
    .ok ((.nil, .quant true [("x", 0)] (.quant false [("x", 0)] (.qv "x" 0))), st') := by
  simp [parse, mkQuantVars, mkQuantVar, cg, start, Res.bind, resolve, letLookup, List.lookup, pair_beq]

/-- `(forall ((x S0)) (snd (exists ((x S0)) x) x))` -/
def lostE : E := .quant true [("x", 0)] (a2 "snd" (.quant false [("x", 0)] (.sym "x")) (.sym "x"))

/-- **C49, false in general (2).**  After an inner quantifier of the same name the outer binding is gone: the name refers to
the declared variable, or, if there is none, the process ends. -/
theorem lost_violated : (∃ r st', parse (cg true) start false lostE = .ok ((.nil, r), st') ∧
      evalE num (gn.env (cg true)) lostE = 100 ∧ ∀ σ, evalR num gn σ r = 50) ∧
    parse ⟨[], [], [], true⟩ start false lostE = .abort := by
  simp [parse, parseArgs, mkQuantVars, mkQuantVar, lostE, a2, cg, start, Res.bind, resolve, letLookup, List.lookup, pair_beq, eraseQ,
    evalE, evalEs, evalR, evalRs, num, gn, Glob.env, setN, setQ, set1]

/-- **C49, false in general (3).**  A function parameter or a function hides a quantified variable of the same name. -/
theorem param_violated : ∀ c, c ∈ [(⟨[], ["x"], [], true⟩ : Ctx), ⟨["x"], [], [], true⟩] →
    ∃ r st', parse c start false (.quant true [("x", 0)] (.sym "x")) = .ok ((.nil, r), st') ∧
      evalE num (gn.env c) (.quant true [("x", 0)] (.sym "x")) = 100 ∧ ∀ σ, evalR num gn σ r ≠ 100 := by
  intro c hc
  simp only [List.mem_cons, List.not_mem_nil, or_false] at hc
  rcases hc with rfl | rfl <;>
    simp [parse, mkQuantVars, mkQuantVar, start, Res.bind, resolve, letLookup, List.lookup, pair_beq, eraseQ, evalE, evalR, num, gn, setN,
      set1]

/-- `(forall ((x S0)) (let ((y x)) (exists ((x S0)) y)))` -/
def capE (s : Nat) : E := .quant true [("z", 1)] (.quant true [("x", 0)] (.letE (.cons "y" (.sym "x") .nil)
  (.quant true [("x", 0), ("w", s)] (.sym "y"))))

/-- picks the value of the variables by their number -/
def num2 : Interp Nat := { num with quant := fun _ ss f => f (ss.map fun s => s + 100 * ss.length) }

/-- **C38, C49, false in general (4).**  A quantifier in the body of a `let` captures a variable of the same name and sort in
the bound term. -/
theorem capture_violated : ∃ r st', parse (cg true) start false (capE 0) = .ok ((.nil, r), st') ∧
    evalE num2 (gn.env (cg true)) (capE 0) = 100 ∧ ∀ σ, evalR num2 gn σ r = 200 := by
  simp [parse, parseBinds, mkQuantVars, mkQuantVar, capE, cg, start, enterLet, key, bind, Res.bind, resolve, letLookup, Rs.append,
    List.lookup, pair_beq, eraseQ, evalE, evalB, evalR, num2, num, gn, Glob.env, setN, setQ, set1]

/-- **Functions and parameters.**  A declared function hides a parameter of the same name. -/
theorem fun_over_param_violated : ∃ r st', parse ⟨["p"], ["p"], [], true⟩ start false (.sym "p") = .ok ((.nil, r), st') ∧
    evalE num (gn.env ⟨["p"], ["p"], [], true⟩) (.sym "p") = 60 ∧ ∀ σ, evalR num gn σ r = 70 := by
  simp [parse, start, Res.bind, resolve, letLookup, evalE, evalR, gn, Glob.env]

end SMT.Scope
