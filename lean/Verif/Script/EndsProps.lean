import Verif.Script.Ends
import Verif.Script.Fuel
import Verif.Script.Props

/-!
# Reading any text ends (C77)

The number in the functions of the model bounds the depth of their calls and the rounds of their loops; `Res.diverge` is what they give
when it is used up.  "Ends" means: there is an answer that is not `diverge`, and that is the answer for every number from some bound on.
The bound is stated.
-/

namespace SMT.Script
open SMT SMT.Text SMT.Lex SMT.Sorts SMT.Parse

set_option linter.unusedVariables false

/-- from the bound `N` on the answer is always the same, and it is one -/
def Answers {α : Type} (N : Nat) (f : Nat → Res α) : Prop := ∃ r, r ≠ .diverge ∧ ∀ m, N ≤ m → f m = r

theorem Answers.of {α : Type} {N : Nat} {f : Nat → Res α} (hd : f N ≠ .diverge) (hl : ∀ m, N ≤ m → Le (f N) (f m)) : Answers N f := by
  refine ⟨f N, hd, fun m hm => ?_⟩
  rcases hl m hm with h | h
  · exact absurd h hd
  · exact h.symm

theorem arity_of {M : Nat} {keys : List (List Char × Srt)} (h : ∀ x ∈ keys, x.2.arity ≤ M) : Arity M keys := by
  intro k s hl
  obtain ⟨k', hm⟩ := lookup_mem' hl
  exact h _ hm

theorem le_total (keys : List (List Char × Srt)) : ∀ x ∈ keys, x.2.arity ≤ (keys.map fun x => x.2.arity).sum := by
  induction keys with
  | nil => simp
  | cons y ys ih =>
    intro x hx
    simp only [List.map_cons, List.sum_cons]
    rcases List.mem_cons.mp hx with rfl | hx
    · omega
    · have := ih x hx
      omega

/-- **C77, sorts** -/
theorem sort_answers (cfg : Cfg) (p : P) (M : Nat) (hM : ∀ x ∈ p.keys, x.2.arity ≤ M) :
    Answers ((M + 20) * p.lex.rest.length + 1) fun m => parseSort cfg m p :=
  .of ((sort_ends cfg M _).sort p (arity_of hM) (Nat.le_refl _)).not_diverge fun m hm => (sort_le cfg _ m hm).1 p

/-- **C77, expressions**: reading an expression ends, whatever the text is.  Declared sorts have at most `M` arguments. -/
theorem expr_answers (cfg : Cfg) (p : P) (M : Nat) (hM : ∀ x ∈ p.keys, x.2.arity ≤ M) :
    Answers ((M + 20) * p.lex.rest.length + 4) fun m => expr cfg m p :=
  .of ((expr_ends cfg M _).expr p (arity_of hM) (Nat.le_refl _)).not_diverge fun m hm => (expr_le cfg _ m hm).expr p

/-- an expression that was read has used up some of the text -/
theorem expr_reads {cfg : Cfg} {n : Nat} {p q : P} {t : T Srt} (h : expr cfg n p = .ok (t, q)) :
    q.lex.rest.length < p.lex.rest.length := by
  obtain ⟨M, hM⟩ : ∃ M, ∀ x ∈ p.keys, x.2.arity ≤ M :=
    ⟨_, le_total p.keys⟩
  have := (expr_ends cfg M (n + ((M + 20) * p.lex.rest.length + 4))).expr p (arity_of hM) (Nat.le_add_left _ _)
  rw [expr_fuel (Nat.le_add_right n _) h (by simp)] at this
  exact this.1

/-- **C77, `mkExpr`** -/
theorem mkExpr_answers (pres : Bool) (p : P) (text : List Char) (M : Nat) (hM : ∀ x ∈ p.keys, x.2.arity ≤ M) :
    Answers ((M + 20) * text.length + 4) fun m => mkExpr pres m p text := by
  unfold mkExpr
  split
  · exact ⟨.abort, by simp, fun _ _ => rfl⟩
  · obtain ⟨r, hr, h⟩ := expr_answers ⟨false, pres⟩ { p with lex := scan 1 text } M hM
    refine ⟨r, hr, fun m hm => h m (Nat.le_trans (Nat.add_le_add_right (Nat.mul_le_mul_left _ (scan_len 1 text)) 4) hm)⟩

theorem loop_answers (cfg : Cfg) (s : S) (line : Nat) (text : List Char) (M : Nat) (hM : ∀ x ∈ s.p.keys, x.2.arity ≤ M)
    (h1 : 2 ^ 64 ≤ M + 1) (h2 : text.length ≤ M) :
    Answers ((M + 20) * text.length + 5) fun m => loop cfg m { s with p := { s.p with lex := scan line text } } := by
  have hl := scan_len line text
  exact .of ((loop_ends h1 _ { s with p := { s.p with lex := scan line text } } (arity_of hM) (Nat.le_trans hl h2)
    (Nat.add_le_add_right (Nat.mul_le_mul_left _ hl) 5)).not_diverge) fun m hm => loop_le hm _

/-- **C77, `parseStr`**: reading a script ends, whatever the text is and whatever was read before.  `M` is a bound on the arities of the
sorts declared before; it is at least `2 ^ 64 - 1`, because that is the largest arity the text itself can declare. -/
theorem parseStr_answers (cfg : Cfg) (s : S) (text : List Char) (M : Nat) (hM : ∀ x ∈ s.p.keys, x.2.arity ≤ M) (h1 : 2 ^ 64 ≤ M + 1)
    (h2 : text.length ≤ M) : Answers ((M + 20) * text.length + 5) fun m => parseStr cfg m s text := by
  unfold parseStr
  split
  · exact ⟨.ub, by simp, fun _ _ => rfl⟩
  · exact loop_answers cfg s 1 text M hM h1 h2

/-- **C77, `parseSmtlib2File`** -/
theorem parseFile_answers (pres : Bool) (s : S) (text : List Char) (M : Nat) (hM : ∀ x ∈ s.p.keys, x.2.arity ≤ M) (h1 : 2 ^ 64 ≤ M + 1)
    (h2 : text.length ≤ M) : Answers ((M + 20) * text.length + 5) fun m => parseFile pres m s text :=
  loop_answers _ s _ text M hM h1 h2

/-- **C77, no text hangs**: for every state of the parser and every text there is an answer. -/
theorem parseStr_ends (cfg : Cfg) (s : S) (text : List Char) : ∃ N, Answers N fun m => parseStr cfg m s text := by
  refine ⟨_, parseStr_answers cfg s text ((s.p.keys.map fun x => x.2.arity).sum + 2 ^ 64 + text.length) (fun x hx => ?_) (by omega) (by omega)⟩
  have : x.2.arity ≤ (s.p.keys.map fun x => x.2.arity).sum := le_total _ x hx
  omega

/-! ## The bound is not one in the length of the text -/

/-- arguments of a sort that are not there are read as often as the arity says -/
theorem sortArgs_slow (cfg : Cfg) (p : P) (h : p.cur = some ')') : ∀ k n, n ≤ k → sortArgs cfg n k p = .diverge
  | k, 0, _ => by rw [sortArgs]
  | 0, n + 1, h => by omega
  | k + 1, n + 1, hn => by
    rw [sortArgs]
    cases n with
    | zero => rw [parseSort]; rfl
    | succ n =>
      rw [parseSort, if_pos h]
      show sortArgs cfg (n + 1) k p = .diverge
      exact sortArgs_slow cfg p h k (n + 1) (by omega)

/-- a text of 40 characters -/
def slowText : List Char := cs!"(declare-sort A -1)(declare-const x (A))"

/-- the parser in front of `declare-const` -/
def slow1 : S := { p := ⟨scan 1 cs!"(declare-const x (A))", [(cs!"A", decSort cs!"A" (2 ^ 64 - 1))], [], 0, false⟩ }

/-- the parser in front of the sort -/
def slow2 : P := { slow1.p with lex := scan 1 cs!"(A))" }

/-- the parser behind the head of the sort -/
def slow3 : P := { slow1.p with lex := scan 1 cs!"))" }

theorem slow_first (cfg : Cfg) (n : Nat) : parseStr cfg (n + 1) fresh slowText = loop cfg n slow1 := rfl

theorem slow_sort (cfg : Cfg) (n : Nat) (h : sortArgs cfg n (2 ^ 64 - 1) slow3 = .diverge) : parseSort cfg (n + 2) slow2 = .diverge := by
  have e : parseSort cfg (n + 2) slow2 =
      ((sortArgs cfg n (2 ^ 64 - 1) slow3 >>= fun p => (.ok (decSort cs!"A" (2 ^ 64 - 1), p) : Res (Srt × P))) >>= fun r => rpar r.2 >>= fun p => .ok (r.1, p)) := rfl
  rw [e, h]
  rfl

theorem slow_second (cfg : Cfg) (n : Nat) (h : parseSort cfg n slow2 = .diverge) : loop cfg (n + 1) slow1 = .diverge := by
  have e : loop cfg (n + 1) slow1 = ((parseSort cfg n slow2 >>= fun r =>
      (.ok { slow1.var cs!"x" r.1 with p := skipTo r.2 } : Res S)) >>= fun s => (.ok (false, s) : Res (Bool × S))) >>= fun r =>
        if r.1 = true then .ok r.2 else rpar r.2.p >>= fun p => loop cfg n { r.2 with p := p } := rfl
  rw [e, h]
  rfl

theorem slow_run (cfg : Cfg) (n m : Nat) (hm : m ≤ 2 ^ 64 - 1) (hn : n ≤ m + 4) : parseStr cfg n fresh slowText = .diverge := by
  have h2 := slow_second cfg _ (slow_sort cfg m (sortArgs_slow cfg slow3 rfl (2 ^ 64 - 1) m hm))
  rw [← slow_first] at h2
  have h3 : Le (parseStr cfg n fresh slowText) (parseStr cfg (m + 2 + 1 + 1) fresh slowText) := by
    unfold parseStr
    rw [if_neg (by decide), if_neg (by decide)]
    exact loop_le (by omega) _
  rcases h3 with h | h
  · exact h
  · exact h.trans h2

/-- **C77 is false as "the time to read a text is bounded by its length"**: the arity of a declared sort is a `size_t` made from an `int`,
so `-1` is `2 ^ 64 - 1`, and as many arguments are then read from `(A)`, without any text to read them from.  (`src/base_parser.cpp:889-904`,
`1439-1460`, `1557-1563`.)  The text has 40 characters; it is read after more than `2 ^ 64` rounds, and not before. -/
theorem slow_sort_violated (cfg : Cfg) :
    slowText.length = 40 ∧ (∀ n, n ≤ 2 ^ 64 + 2 → parseStr cfg n fresh slowText = .diverge) ∧
      ∃ N, Answers N fun m => parseStr cfg m fresh slowText := by
  refine ⟨rfl, fun n hn => ?_, parseStr_ends _ _ _⟩
  exact slow_run cfg n (2 ^ 64 - 1) (Nat.le_refl _) (by omega)

/-! ## Concrete cases -/

/-- what kind of answer it is -/
def kindOf {α : Type} : Res α → Nat
  | .ok _ => 0
  | .throw => 1
  | .abort => 2
  | .ub => 3
  | .diverge => 4

/-- texts that are not well formed: an answer all the same -/
example : Answers ((5 + 20) * 9 + 4) fun m => mkExpr true m fresh.p cs!"(let ((x " :=
  mkExpr_answers true fresh.p cs!"(let ((x " 5 (by simp [fresh])
example : kindOf (mkExpr true 250 fresh.p cs!"(let ((x ") = 3 := by decide +kernel
example : kindOf (mkExpr true 300 fresh.p cs!"(let ((x 1) y)") = 2 := by decide +kernel
example : kindOf (mkExpr true 400 fresh.p cs!"(and p (or q r)") = 3 := by decide +kernel
example : kindOf (mkExpr true 400 fresh.p cs!"(not p)) )") = 0 := by decide +kernel

/-- a parser with a sort of two arguments -/
def two : P := { fresh.p with lex := scan 1 cs!"(Pair Int (Array Int Bool)) x", keys := [(cs!"Pair", decSort cs!"Pair" 2)] }

example : (∀ x ∈ two.keys, x.2.arity ≤ 2) ∧ two.lex.rest.length = 29 ∧ Answers ((2 + 20) * 29 + 1) (fun m => parseSort ⟨false, true⟩ m two) :=
  ⟨by decide, rfl, sort_answers _ two 2 (by decide)⟩

end SMT.Script
