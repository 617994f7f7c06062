import Verif.Basic
import Verif.Term.Model

/-! # `checkSat` (`src/base_parser.cpp:123-152`; C42) -/

namespace SMT.Check

/-- `enum class RESULT_TYPE` (`include/parser.h:103-109`) -/
inductive RT where | sat | unsat | deltaSat | unknown | error
  deriving DecidableEq

/-- The fields `checkSat` uses: `result_type` (`include/parser.h:235`; `none` = never written, an indeterminate value) and the
asserted formulas. -/
structure P where
  result : Option RT
  asserts : List Term

/-- `Parser::Parser()` (`src/base_parser.cpp:38-69`): `result_type` is not initialised. -/
def new : P := ⟨none, []⟩

/-- the loop of `checkSat` (`src/base_parser.cpp:123-152`): the answer and the new stored value -/
def loop : List Term → RT × RT
  | [] => (.sat, .sat)
  | a :: as =>
    if a.isErr then (.error, .error)
    else if a.isFalse then (.unsat, .unknown)
    else if a.isTrue then loop as
    else (.unknown, .unknown)

/-- `Parser::checkSat` (`src/base_parser.cpp:123-152`) -/
def checkSat (p : P) : Res (RT × P) :=
  match p.result with
  | none => .ub
  | some r =>
    if r ≠ .unknown then .ok (r, p)
    else .ok ((loop p.asserts).1, { p with result := some (loop p.asserts).2 })

/-- The commands of a script that concern the assertions. -/
inductive Cmd where
  | assert (t : Term)
  | check
  | push | pop | reset | resetAssertions

/-- Effect of a command: `assert` appends (`src/base_parser.cpp:686`, `765`); `push`, `pop`, `reset` and `reset-assertions`
are skipped (`1271-1297`). -/
def exec (p : P) : Cmd → Res P
  | .assert t => .ok { p with asserts := p.asserts ++ [t] }
  | .check => (checkSat p).bind fun r => .ok r.2
  | _ => .ok p

/-- a history of commands, oldest first -/
def run : P → List Cmd → Res P
  | p, [] => .ok p
  | p, c :: cs => (exec p c).bind fun p' => run p' cs

/-! ## Specification: the current assertions of a history (SMT-LIB), as a stack of levels -/

/-- assertion levels after a command -/
def lvlStep : List (List Term) → Cmd → List (List Term)
  | l :: ls, .assert t => (l ++ [t]) :: ls
  | [], .assert t => [[t]]
  | ls, .push => [] :: ls
  | _ :: ls, .pop => ls
  | [], .pop => []
  | _, .reset => [[]]
  | _, .resetAssertions => [[]]
  | ls, .check => ls

/-- the formulas asserted at the end of a history -/
def current (cs : List Cmd) : List Term := (cs.foldl lvlStep [[]]).flatten

/-- some assignment makes all formulas true -/
def Satisfiable (as : List Term) : Prop := ∃ ρ : Env, ∀ a ∈ as, eval ρ a = some (.b true)

/-! ## Theorems -/

/-- only assertions and checks -/
def plain : Cmd → Prop
  | .assert _ => True
  | .check => True
  | _ => False

theorem current_plain (cs : List Cmd) (h : ∀ c ∈ cs, plain c) :
    current cs = cs.filterMap (fun | .assert t => some t | _ => none) := by
  have key : ∀ (cs : List Cmd) (l : List Term), (∀ c ∈ cs, plain c) →
      cs.foldl lvlStep [l] = [l ++ cs.filterMap (fun | .assert t => some t | _ => none)] := by
    intro cs
    induction cs with
    | nil => intro l _; simp
    | cons c cs ih =>
      intro l h
      have hc := h c List.mem_cons_self
      have ih' := fun l => ih l (fun d hd => h d (List.mem_cons_of_mem _ hd))
      cases c with
      | assert t => simp only [List.foldl_cons, lvlStep, ih', List.filterMap_cons, List.append_assoc, List.singleton_append]
      | check => simp only [List.foldl_cons, lvlStep, ih', List.filterMap_cons]
      | _ => exact absurd hc (by simp [plain])
  unfold current
  rw [key cs [] h]; simp

theorem loop_sat (as : List Term) (h : (loop as).1 = .sat) : ∀ a ∈ as, a = .tt := by
  induction as with
  | nil => simp
  | cons a as ih =>
    unfold loop at h
    split at h
    · simp at h
    · split at h
      · simp at h
      · split at h
        · rename_i ht
          intro b hb
          rcases List.mem_cons.mp hb with rfl | hb
          · cases b <;> first | rfl | simp [Term.isTrue] at ht
          · exact ih h b hb
        · simp at h

theorem loop_unsat (as : List Term) (h : (loop as).1 = .unsat) : .ff ∈ as := by
  induction as with
  | nil => simp [loop] at h
  | cons a as ih =>
    unfold loop at h
    split at h
    · simp at h
    · split at h
      · rename_i hf
        cases a <;> first | exact List.mem_cons_self | simp [Term.isFalse] at hf
      · split at h
        · exact List.mem_cons_of_mem _ (ih h)
        · simp at h

theorem loop_store (as : List Term) : (loop as).2 ≠ .unsat ∧ ((loop as).2 = .sat ↔ (loop as).1 = .sat) ∧
    ((loop as).2 = .unknown → (loop as).1 = .unknown ∨ (loop as).1 = .unsat) ∧ (loop as).2 ≠ .deltaSat := by
  induction as with
  | nil => simp [loop]
  | cons a as ih =>
    unfold loop
    split
    · simp
    · split
      · simp
      · split
        · exact ih
        · simp

/-- stored result and assertions after a history of assertions and checks -/
theorem run_inv (cs : List Cmd) : ∀ (p p' : P), (∀ c ∈ cs, plain c) → p.result ≠ some .unsat → p.result ≠ some .deltaSat →
    p.result ≠ none → run p cs = .ok p' →
    p'.asserts = p.asserts ++ cs.filterMap (fun | .assert t => some t | _ => none) ∧ p'.result ≠ some .unsat ∧
    p'.result ≠ some .deltaSat ∧ p'.result ≠ none := by
  induction cs with
  | nil => intro p p' _ h1 h2 h3 h; simp only [run] at h; cases h; exact ⟨by simp, h1, h2, h3⟩
  | cons c cs ih =>
    intro p p' hp h1 h2 h3 h
    have hc := hp c List.mem_cons_self
    have hp' := fun d hd => hp d (List.mem_cons_of_mem _ hd)
    cases c with
    | assert t =>
      simp only [run, exec, Res.bind] at h
      obtain ⟨a, b⟩ := ih { p with asserts := p.asserts ++ [t] } p' hp' h1 h2 h3 h
      exact ⟨by rw [a]; simp, b⟩
    | check =>
      simp only [run, exec, checkSat] at h
      cases hr : p.result with
      | none => exact absurd hr h3
      | some r =>
        rw [hr] at h
        simp only at h
        by_cases hu : r = .unknown
        · simp only [hu, ne_eq, not_true, if_false, Res.bind] at h
          obtain ⟨s1, s2, s3, s4⟩ := loop_store p.asserts
          obtain ⟨a, b⟩ := ih _ p' hp' (by simp [s1]) (by simp [s4]) (by simp) h
          exact ⟨by rw [a]; simp, b⟩
        · simp only [hu, ne_eq, not_false_eq_true, if_true, Res.bind] at h
          obtain ⟨a, b⟩ := ih p p' hp' h1 h2 h3 h
          exact ⟨by rw [a]; simp, b⟩
    | _ => exact absurd hc (by simp [plain])

/-- **C42.**  On a parser whose `result_type` holds "unknown": after any history of assertions and checks, an unsat answer is
correct for the current assertions. -/
theorem unsat_sound_partial (cs : List Cmd) (hp : ∀ c ∈ cs, plain c) (p p' : P)
    (h : run ⟨some .unknown, []⟩ cs = .ok p) (hc : checkSat p = .ok (.unsat, p')) : ¬ Satisfiable (current cs) := by
  obtain ⟨a, b, c, d⟩ := run_inv cs _ p hp (by simp) (by simp) (by simp) h
  have hu : .ff ∈ p.asserts := by
    unfold checkSat at hc
    cases hr : p.result with
    | none => exact absurd hr d
    | some r =>
      rw [hr] at hc; simp only at hc
      by_cases hu : r = .unknown
      · simp only [hu, ne_eq, not_true, if_false, Res.ok.injEq, Prod.mk.injEq] at hc
        exact loop_unsat _ hc.1
      · simp only [hu, ne_eq, not_false_eq_true, if_true, Res.ok.injEq, Prod.mk.injEq] at hc
        rw [hc.1] at hr; exact absurd hr b
  rw [current_plain cs hp]
  rintro ⟨ρ, hρ⟩
  rw [a, List.nil_append] at hu
  have := hρ _ hu
  simp [eval] at this

/-- **C42.**  On a parser whose `result_type` holds "unknown", a sat answer is correct when the earlier checks (if any) gave no
sat answer, or no assertion was added after the first of them: stated as a history `cs`, a first sat answer after it, then
only further checks. -/
theorem sat_sound_partial (cs : List Cmd) (hp : ∀ c ∈ cs, plain c) (n : Nat) (p p1 p2 p' : P)
    (h : run ⟨some .unknown, []⟩ cs = .ok p) (hu : p.result = some .unknown) (h1 : checkSat p = .ok (.sat, p1))
    (h2 : run p1 (List.replicate n .check) = .ok p2) (hc : checkSat p2 = .ok (.sat, p')) :
    Satisfiable (current (cs ++ List.replicate (n + 1) .check)) ∧ p2.asserts = current (cs ++ List.replicate (n + 1) .check) := by
  obtain ⟨a, b, c, d⟩ := run_inv cs _ p hp (by simp) (by simp) (by simp) h
  have hpl : ∀ c ∈ cs ++ List.replicate (n + 1) Cmd.check, plain c := by
    intro c hc
    rcases List.mem_append.mp hc with hc | hc
    · exact hp c hc
    · rw [(List.mem_replicate.mp hc).2]; trivial
  have hcur : current (cs ++ List.replicate (n + 1) .check) = p.asserts := by
    have hrep : ∀ k, (List.replicate k Cmd.check).filterMap (fun | .assert t => some t | _ => none) = ([] : List Term) := by
      intro k
      induction k with
      | zero => rfl
      | succ k ih => rw [List.replicate_succ, List.filterMap_cons]; exact ih
    rw [current_plain _ hpl, a, List.filterMap_append, hrep]; simp
  have hl : (loop p.asserts).1 = .sat ∧ p1.asserts = p.asserts := by
    unfold checkSat at h1
    rw [hu] at h1
    simp only [ne_eq, not_true, if_false, Res.ok.injEq, Prod.mk.injEq] at h1
    exact ⟨h1.1, h1.2 ▸ rfl⟩
  have hp1 : p1.result = some .sat := by
    unfold checkSat at h1
    rw [hu] at h1
    simp only [ne_eq, not_true, if_false, Res.ok.injEq, Prod.mk.injEq] at h1
    rw [← h1.2]; simp only
    rw [(loop_store p.asserts).2.1.mpr hl.1]
  have hst : ∀ k p2, run p1 (List.replicate k .check) = .ok p2 → p2 = p1 := by
    intro k
    induction k with
    | zero => intro p2 h; simp only [List.replicate_zero, run] at h; cases h; rfl
    | succ k ih =>
      intro p2 h
      rw [List.replicate_succ] at h
      simp only [run, exec, checkSat, hp1, ne_eq, reduceCtorEq, not_false_eq_true, if_true, Res.bind] at h
      exact ih p2 h
  refine ⟨⟨⟨fun _ _ _ => .b true, fun _ _ => "", fun _ _ _ => none⟩, fun x hx => ?_⟩, ?_⟩
  · rw [hcur] at hx
    rw [loop_sat _ hl.1 x hx]; rfl
  · rw [hst n p2 h2, hl.2, hcur]

/-- Non-vacuous: two trivial assertions, a sat answer, and it is repeated. -/
example : (run ⟨some .unknown, []⟩ [.assert .tt, .assert .tt, .check] = .ok ⟨some .sat, [.tt, .tt]⟩) ∧
    checkSat ⟨some .sat, [.tt, .tt]⟩ = .ok (.sat, ⟨some .sat, [.tt, .tt]⟩) ∧
    checkSat ⟨some .unknown, [.tt, .ff]⟩ = .ok (.unsat, ⟨some .unknown, [.tt, .ff]⟩) := by
  simp [run, exec, checkSat, loop, Res.bind, Term.isErr, Term.isFalse, Term.isTrue]

/-- **C42, violated.**  The stored result is never initialised: the first `checkSat` of every parser, whatever was asserted,
reads an indeterminate value. -/
theorem first_check_violated (ts : List Term) : run new (ts.map .assert ++ [.check]) = .ub := by
  have key : ∀ (ts : List Term) (p : P), p.result = none → run p (ts.map .assert ++ [.check]) = .ub := by
    intro ts
    induction ts with
    | nil => intro p hp; simp [run, exec, checkSat, hp, Res.bind]
    | cons t ts ih => intro p hp; simp only [List.map_cons, List.cons_append, run, exec, Res.bind]; exact ih _ hp
  exact key ts new rfl

/-- **C42, violated.**  Even when the stored result starts as "unknown", a sat answer is kept after a contradiction has been
asserted. -/
theorem stale_sat_violated :
    ∃ p, run ⟨some .unknown, []⟩ [.assert .tt, .check, .assert .ff] = .ok p ∧ checkSat p = .ok (.sat, p) ∧
      ¬ Satisfiable (current [.assert .tt, .check, .assert .ff]) := by
  refine ⟨⟨some .sat, [.tt, .ff]⟩, ?_, rfl, ?_⟩
  · simp [run, exec, checkSat, loop, Res.bind, Term.isErr, Term.isFalse, Term.isTrue]
  · rintro ⟨ρ, h⟩
    have := h .ff (by simp [current, lvlStep])
    simp [eval] at this

/-- **C42, violated.**  `pop` is ignored: a contradiction asserted in a level that was left still makes the answer unsat. -/
theorem pop_ignored_violated :
    ∃ p p', run ⟨some .unknown, []⟩ [.push, .assert .ff, .pop] = .ok p ∧ checkSat p = .ok (.unsat, p') ∧
      Satisfiable (current [.push, .assert .ff, .pop]) := by
  refine ⟨⟨some .unknown, [.ff]⟩, ⟨some .unknown, [.ff]⟩, ?_, ?_, ?_⟩
  · simp [run, exec, Res.bind]
  · simp [checkSat, loop, Term.isErr, Term.isFalse]
  · exact ⟨⟨fun _ _ _ => .b true, fun _ _ => "", fun _ _ _ => none⟩, by simp [current, lvlStep]⟩

end SMT.Check
