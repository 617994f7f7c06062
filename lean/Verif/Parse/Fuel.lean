import Verif.Parse.Model

/-! # The fuel does not matter (C52, C53)

More fuel never changes an answer. -/

namespace SMT.Parse
open SMT SMT.Text SMT.Lex SMT.Sorts

/-- the second result is the first, if that is one -/
def Le {α : Type} (a b : Res α) : Prop := a = .diverge ∨ a = b

theorem Le.refl {α : Type} (a : Res α) : Le a a := .inr rfl
theorem Le.div {α : Type} (b : Res α) : Le .diverge b := .inl rfl
theorem Le.bind {α β : Type} {a b : Res α} {f g : α → Res β} (h : Le a b) (hf : ∀ x, Le (f x) (g x)) : Le (a >>= f) (b >>= g) := by
  rcases h with rfl | rfl
  · exact .inl rfl
  · cases a with
    | ok x => exact hf x
    | throw => exact .inr rfl
    | abort => exact .inr rfl
    | ub => exact .inr rfl
    | diverge => exact .inr rfl
theorem Le.ite {α : Type} {c : Prop} [Decidable c] {a b a' b' : Res α} (h1 : Le a a') (h2 : Le b b') :
    Le (if c then a else b) (if c then a' else b') := by
  split
  · exact h1
  · exact h2
theorem Le.ok {α : Type} {a b : Res α} {x : α} (h : Le a b) (ha : a = .ok x) : b = .ok x := by
  rcases h with rfl | rfl
  · cases ha
  · exact ha

/-- goals about `Le`, part by part; the induction hypotheses are tried first -/
syntax "le_auto" "[" term,* "]" : tactic
macro_rules
  | `(tactic| le_auto [$ts,*]) => do
    let alts ← ts.getElems.mapM fun t => `(tactic| apply $t)
    `(tactic| repeat' (first
      | exact Le.refl _
      $[| $alts:tactic]*
      | apply Le.ite
      | apply Le.bind
      | intro _
      | split))

theorem sort_le (cfg : Cfg) : ∀ n m : Nat, n ≤ m → (∀ p, Le (parseSort cfg n p) (parseSort cfg m p)) ∧
    (∀ s p, Le (sortTail cfg n s p) (sortTail cfg m s p)) ∧ ∀ k p, Le (sortArgs cfg n k p) (sortArgs cfg m k p)
  | 0, m, _ => ⟨fun _ => Le.div _, fun _ _ => Le.div _, fun _ _ => Le.div _⟩
  | n + 1, 0, h => by omega
  | n + 1, m + 1, h => by
    obtain ⟨h1, h2, h3⟩ := sort_le cfg n m (by omega)
    refine ⟨fun p => ?_, fun s p => ?_, fun k p => ?_⟩
    · rw [parseSort, parseSort]
      le_auto [h1, h2, h3]
    · rw [sortTail, sortTail]
      le_auto [h1, h2, h3]
    · cases k with
      | zero => rw [sortArgs, sortArgs]; exact Le.refl _
      | succ k =>
        rw [sortArgs, sortArgs]
        le_auto [h1, h2, h3]

/-- more fuel does not change an answer, for all functions that read expressions -/
structure ExprLe (cfg : Cfg) (n m : Nat) : Prop where
  expr : ∀ p, Le (expr cfg n p) (expr cfg m p)
  run : ∀ st p, Le (run cfg n st p) (run cfg m st p)
  start : ∀ f p, Le (start cfg n f p) (start cfg m f p)
  rootInt : ∀ p, Le (rootInt cfg n p) (rootInt cfg m p)
  coeffs : ∀ a p, Le (coeffs cfg n a p) (coeffs cfg m a p)
  algebraic : ∀ p, Le (algebraic cfg n p) (algebraic cfg m p)
  quantHead : ∀ p, Le (quantHead cfg n p) (quantHead cfg m p)
  quantVars : ∀ a p, Le (quantVars cfg n a p) (quantVars cfg m a p)
  letBinds : ∀ a b p, Le (letBinds cfg n a b p) (letBinds cfg m a b p)
  letLoop : ∀ a b p, Le (letLoop cfg n a b p) (letLoop cfg m a b p)
  letLevel : ∀ a b p, Le (letLevel cfg n a b p) (letLevel cfg m a b p)
  letBody : ∀ a p, Le (letBody cfg n a p) (letBody cfg m a p)

theorem expr_le (cfg : Cfg) : ∀ n m : Nat, n ≤ m → ExprLe cfg n m
  | 0, m, _ => ⟨fun _ => Le.div _, fun _ _ => Le.div _, fun _ _ => Le.div _, fun _ => Le.div _, fun _ _ => Le.div _, fun _ => Le.div _,
      fun _ => Le.div _, fun _ _ => Le.div _, fun _ _ _ => Le.div _, fun _ _ _ => Le.div _, fun _ _ _ => Le.div _, fun _ _ => Le.div _⟩
  | n + 1, 0, h => by omega
  | n + 1, m + 1, h => by
    obtain ⟨h1, h2, h3, h4, h5, h6, h7, h8, h9, h10, h11, h12⟩ := expr_le cfg n m (by omega)
    have s1 := (sort_le cfg n m (by omega)).1
    refine ⟨fun p => ?_, fun st p => ?_, fun f p => ?_, fun p => ?_, fun a p => ?_, fun p => ?_, fun p => ?_, fun a p => ?_,
      fun a b p => ?_, fun a b p => ?_, fun a b p => ?_, fun a p => ?_⟩
    · rw [SMT.Parse.expr, SMT.Parse.expr]; exact h2 _ _
    · cases st with
      | nil => rw [SMT.Parse.run, SMT.Parse.run]; exact Le.refl _
      | cons f st =>
        rw [SMT.Parse.run, SMT.Parse.run]
        le_auto [h2, h3]
    · rw [SMT.Parse.start, SMT.Parse.start]
      le_auto [h1, h4, h6, h7, h10, s1]
    · rw [SMT.Parse.rootInt, SMT.Parse.rootInt]
      le_auto [h1, h5]
    · rw [SMT.Parse.coeffs, SMT.Parse.coeffs]
      le_auto [h1, h5]
    · rw [SMT.Parse.algebraic, SMT.Parse.algebraic]
      le_auto [h1]
    · rw [SMT.Parse.quantHead, SMT.Parse.quantHead]
      le_auto [h8]
    · rw [SMT.Parse.quantVars, SMT.Parse.quantVars]
      le_auto [h8, s1]
    · rw [SMT.Parse.letBinds, SMT.Parse.letBinds]
      le_auto [h1, h9]
    · cases a with
      | nil => rw [SMT.Parse.letLoop, SMT.Parse.letLoop]; exact Le.refl _
      | cons c st =>
        rw [SMT.Parse.letLoop, SMT.Parse.letLoop]
        le_auto [h10, h11, h12]
    · rw [SMT.Parse.letLevel, SMT.Parse.letLevel]
      le_auto [h9]
    · rw [SMT.Parse.letBody, SMT.Parse.letBody]
      le_auto [h1]

/-- **C52, the fuel does not matter**: an answer stays the same with more fuel. -/
theorem expr_fuel {cfg : Cfg} {n m : Nat} (h : n ≤ m) {p : P} {r : Res (T Srt × P)} (hr : expr cfg n p = r) (hd : r ≠ .diverge) :
    expr cfg m p = r := by
  rcases (expr_le cfg n m h).expr p with h | h
  · exact absurd (hr.symm.trans h) hd
  · exact h.symm.trans hr

/-- **C53, the fuel does not matter** -/
theorem parseSort_fuel {cfg : Cfg} {n m : Nat} (h : n ≤ m) {p : P} {r : Res (Srt × P)} (hr : parseSort cfg n p = r) (hd : r ≠ .diverge) :
    parseSort cfg m p = r := by
  rcases (sort_le cfg n m h).1 p with h | h
  · exact absurd (hr.symm.trans h) hd
  · exact h.symm.trans hr

end SMT.Parse
