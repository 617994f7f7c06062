import Verif.Opts.Model
/-!
# C72: the option in force is the last one asked for
-/
namespace SMT.Opts
open SMT.Text SMT.Parse SMT.Tok

/-! ## Specification -/

/-- the name of an option in the documentation (`include/options.h:240-300`) -/
def Flag.key : Flag → List Char
  | .keepLet => cs!"keep_let"
  | .keepDivision => cs!"keep_division"
  | .floatEvaluate => cs!"float_evaluate"
  | .expandFunctions => cs!"expand_functions"
  | .expandRecursive => cs!"expand_recursive_functions"

/-- the documented defaults -/
def Flag.default : Flag → Bool
  | .expandRecursive => false
  | _ => true

/-- the value that a caller asks for the Boolean option `f`: `some b` when the call is about `f` -/
def asksFlag (f : Flag) : Call → Option Bool
  | .str k v => if k = f.key then some (v = cs!"true") else none
  | .int k v => if k = f.key then some (v ≠ 0) else none
  | .dbl _ _ => none
  | .bool k v => if k = f.key then some v else none
  | .lit k v => if k = f.key then some (v = cs!"true") else none
  | .setFlag g b => if g = f then some b else none
  | .setPrecision _ => none

/-- the precision that a caller asks for; a text or a `double` asks for the number its decimal digits in front say -/
def asksPrec : Call → Option Int
  | .str k v => if k = cs!"precision" then some (undec (v.takeWhile Char.isDigit)) else none
  | .int k v => if k = cs!"precision" then some v else none
  | .dbl k t => if k = cs!"precision" then some (undec (t.takeWhile Char.isDigit)) else none
  | .setPrecision i => some i
  | _ => none

/-- a number of 31 bits in front of the text -/
def NumText (v : List Char) : Prop :=
  v.takeWhile Char.isDigit ≠ [] ∧ undec (v.takeWhile Char.isDigit) < 2 ^ 31

def isFlagKey (k : List Char) : Prop := ∃ f : Flag, k = f.key

/-- calls whose argument has the type of the option: texts `true` or `false`, or a `bool`, for a Boolean option; a number for the
precision -/
def Typed : Call → Prop
  | .str k v => (isFlagKey k → v = cs!"true" ∨ v = cs!"false") ∧ (k = cs!"precision" → NumText v)
  | .int k v => ¬ isFlagKey k ∧ (k = cs!"precision" → -(2 ^ 31 : Int) ≤ v ∧ v < 2 ^ 31)
  | .dbl k t => ¬ isFlagKey k ∧ (k = cs!"precision" → NumText t)
  | .bool k _ => k ≠ cs!"precision"
  | .lit k v => k ≠ cs!"precision" ∧ (isFlagKey k → v = cs!"true")
  | .setFlag _ _ => True
  | .setPrecision _ => True

/-- the last element of a list of requests, or a default -/
def lastOr {α : Type} (d : α) (l : List α) : α := l.getLast?.getD d

/-! ## Proofs -/

theorem key_inj {f g : Flag} (h : f.key = g.key) : f = g := by
  revert h; cases f <;> cases g <;> decide

theorem key_prec (f : Flag) : f.key ≠ cs!"precision" := by cases f <;> decide

theorem get_set (s : St) (f g : Flag) (b : Bool) : (s.set f b).get g = if f = g then b else s.get g := by
  cases f <;> cases g <;> rfl

theorem prec_set (s : St) (f : Flag) (b : Bool) : (s.set f b).precision = s.precision := by cases f <;> rfl

theorem map_set (s : St) (f : Flag) (b : Bool) : (s.set f b).map = s.map := by cases f <;> rfl

theorem setOption_flag (s : St) (f : Flag) (v : List Char) :
    setOption s f.key v =
      (({ s with map := fun k => if k = f.key then some v else s.map k } : St).set f (v = cs!"true"), false) := by
  cases f <;> rfl

theorem setOption_prec (s : St) (v : List Char) : setOption s cs!"precision" v =
    match stoi v with
    | .ok i => ({ s with map := fun k => if k = cs!"precision" then some v else s.map k, precision := i }, false)
    | _ => ({ s with map := fun k => if k = cs!"precision" then some v else s.map k }, true) := rfl

theorem setOption_other (s : St) {k : List Char} (v : List Char) (h : ¬ isFlagKey k) (hp : k ≠ cs!"precision") :
    setOption s k v = ({ s with map := fun k' => if k' = k then some v else s.map k' }, false) := by
  have n : ∀ f : Flag, k ≠ f.key := fun f e => h ⟨f, e⟩
  have a := n .keepLet; have b := n .keepDivision; have c := n .floatEvaluate
  have d := n .expandFunctions; have e := n .expandRecursive
  simp only [Flag.key] at a b c d e
  simp only [setOption, if_neg a, if_neg b, if_neg c, if_neg d, if_neg e, if_neg hp]

theorem setOption_get (s : St) (k v : List Char) (f : Flag) :
    (setOption s k v).1.get f = if k = f.key then decide (v = cs!"true") else s.get f := by
  by_cases hk : isFlagKey k
  · obtain ⟨g, rfl⟩ := hk
    rw [setOption_flag, get_set]
    by_cases e : g = f
    · subst e; simp
    · rw [if_neg e, if_neg (fun h => e (key_inj h))]; cases f <;> rfl
  · by_cases hp : k = cs!"precision"
    · subst hp
      rw [if_neg (fun h => key_prec f h.symm), setOption_prec]
      split <;> cases f <;> rfl
    · rw [setOption_other s v hk hp, if_neg (fun h => hk ⟨f, h⟩)]; cases f <;> rfl

theorem setOption_precision (s : St) (k v : List Char) :
    (setOption s k v).1.precision = if k = cs!"precision" then (match stoi v with | .ok i => i | _ => s.precision)
      else s.precision := by
  by_cases hp : k = cs!"precision"
  · subst hp
    rw [if_pos rfl, setOption_prec]
    split <;> rfl
  · rw [if_neg hp]
    by_cases hk : isFlagKey k
    · obtain ⟨g, rfl⟩ := hk
      rw [setOption_flag, prec_set]
    · rw [setOption_other s v hk hp]

theorem setOption_map (s : St) (k v k' : List Char) :
    (setOption s k v).1.map k' = if k' = k then some v else s.map k' := by
  by_cases hk : isFlagKey k
  · obtain ⟨g, rfl⟩ := hk
    rw [setOption_flag, map_set]
  · by_cases hp : k = cs!"precision"
    · subst hp; rw [setOption_prec]; split <;> rfl
    · rw [setOption_other s v hk hp]

theorem stoi_numText {v : List Char} (h : NumText v) : stoi v = .ok (undec (v.takeWhile Char.isDigit) : Int) := by
  obtain ⟨h1, h2⟩ := h
  have hs : strtol v = some (undec (v.takeWhile Char.isDigit) : Int) := by
    cases v with
    | nil => simp at h1
    | cons c w =>
      have hc : c.isDigit = true := by
        by_cases hc : c.isDigit = true
        · exact hc
        · simp [List.takeWhile_cons, hc] at h1
      have n1 : c ≠ '-' := by rintro rfl; exact absurd hc (by decide)
      have n2 : c ≠ '+' := by rintro rfl; exact absurd hc (by decide)
      unfold strtol
      split
      rename_i neg r e
      split at e
      · rename_i e'; injection e' with e' _; exact absurd e' n1
      · rename_i e'; injection e' with e' _; exact absurd e' n2
      · injection e with e1 e2
        subst e1 e2
        generalize (c :: w).takeWhile Char.isDigit = ds at h1
        cases ds with
        | nil => exact absurd rfl h1
        | cons _ _ => rfl
  unfold stoi
  rw [hs]
  simp only
  rw [if_pos (by omega)]

theorem takeWhile_all {p : Char → Bool} : ∀ {l : List Char}, (∀ c ∈ l, p c = true) → l.takeWhile p = l
  | [], _ => rfl
  | a :: l, h => by
    rw [List.takeWhile_cons, h a (by simp), takeWhile_all fun c hc => h c (by simp [hc])]; rfl

theorem stoi_showInt {i : Int} (h1 : -(2 ^ 31 : Int) ≤ i) (h2 : i < 2 ^ 31) : stoi (showInt i) = .ok i := by
  have td : ∀ n : Nat, (dec n).takeWhile Char.isDigit = dec n := fun n =>
    takeWhile_all (dec_isDigit n)
  by_cases hi : i < 0
  · have : strtol (showInt i) = some i := by
      unfold showInt
      rw [if_pos hi]
      unfold strtol
      simp only [td]
      have hd := dec_ne_nil i.natAbs
      have hu := undec_dec i.natAbs
      revert hd hu
      generalize dec i.natAbs = ds
      intro hd hu
      cases ds with
      | nil => exact absurd rfl hd
      | cons a l => simp only [hu]; simp; omega
    unfold stoi; rw [this]; simp only; rw [if_pos ⟨h1, h2⟩]
  · unfold showInt
    rw [if_neg hi]
    have hn : NumText (dec i.natAbs) := ⟨by rw [td]; exact dec_ne_nil _, by rw [td, undec_dec]; omega⟩
    rw [stoi_numText hn, td, undec_dec]
    congr 1; omega

theorem lastOr_append {α : Type} (d : α) (l m : List α) : lastOr d (l ++ m) = lastOr (lastOr d l) m := by
  unfold lastOr
  rw [List.getLast?_append]
  cases m.getLast? <;> simp

theorem run_snoc (h : List Call) (c : Call) : run (h ++ [c]) = (step (run h) c).1 := by
  simp [run, List.foldl_append]

theorem snoc_ind {α : Type} {P : List α → Prop} (h0 : P []) (h1 : ∀ l a, P l → P (l ++ [a])) : ∀ l, P l := by
  intro l
  have : ∀ r : List α, P r.reverse := by
    intro r
    induction r with
    | nil => exact h0
    | cons a r ih => rw [List.reverse_cons]; exact h1 _ _ ih
  have h := this l.reverse
  rwa [List.reverse_reverse] at h

theorem step_get {c : Call} (hc : Typed c) (s : St) (f : Flag) :
    (step s c).1.get f = lastOr (s.get f) ([c].filterMap (asksFlag f)) := by
  have nf : ∀ {k}, ¬ isFlagKey k → ¬ k = f.key := fun h e => h ⟨f, e⟩
  cases c with
  | str k v =>
    simp only [step, setOption_get, asksFlag, List.filterMap_cons, List.filterMap_nil]
    by_cases hk : k = f.key <;> simp [hk, lastOr]
  | int k v =>
    simp only [step, setOption_get, asksFlag, List.filterMap_cons, List.filterMap_nil]
    simp [nf hc.1, lastOr]
  | dbl k v =>
    simp only [step, setOption_get, asksFlag, List.filterMap_cons, List.filterMap_nil]
    simp [nf hc.1, lastOr]
  | bool k v =>
    simp only [step, setOption_get, asksFlag, List.filterMap_cons, List.filterMap_nil]
    by_cases hk : k = f.key
    · cases v <;> simp [hk, lastOr]
    · simp [hk, lastOr]
  | lit k v =>
    simp only [step, setOption_get, asksFlag, List.filterMap_cons, List.filterMap_nil]
    by_cases hk : k = f.key
    · have := hc.2 ⟨f, hk⟩
      simp [hk, lastOr, this]
    · simp [hk, lastOr]
  | setFlag g b =>
    simp only [step, get_set, asksFlag, List.filterMap_cons, List.filterMap_nil]
    by_cases hk : g = f <;> simp [hk, lastOr]
  | setPrecision i => cases f <;> rfl

theorem step_prec {c : Call} (hc : Typed c) (s : St) :
    (step s c).1.precision = lastOr s.precision ([c].filterMap asksPrec) := by
  cases c with
  | str k v =>
    simp only [step, setOption_precision, asksPrec, List.filterMap_cons, List.filterMap_nil]
    by_cases hk : k = cs!"precision"
    · rw [if_pos hk, if_pos hk, stoi_numText (hc.2 hk)]; rfl
    · simp [hk, lastOr]
  | int k v =>
    simp only [step, setOption_precision, asksPrec, List.filterMap_cons, List.filterMap_nil]
    by_cases hk : k = cs!"precision"
    · rw [if_pos hk, if_pos hk, stoi_showInt (hc.2 hk).1 (hc.2 hk).2]; rfl
    · simp [hk, lastOr]
  | dbl k v =>
    simp only [step, setOption_precision, asksPrec, List.filterMap_cons, List.filterMap_nil]
    by_cases hk : k = cs!"precision"
    · rw [if_pos hk, if_pos hk, stoi_numText (hc.2 hk)]; rfl
    · simp [hk, lastOr]
  | bool k v =>
    simp only [step, setOption_precision, if_neg (show k ≠ cs!"precision" from hc)]; rfl
  | lit k v =>
    simp only [step, setOption_precision, if_neg (show k ≠ cs!"precision" from hc.1)]; rfl
  | setFlag g b => simp only [step, prec_set]; rfl
  | setPrecision i => rfl

/-! ## C72 -/

/-- **C72.** After any history of calls whose arguments have the type of the option, every option has the value that was asked
for last, and its documented default when nobody asked; calls about other options change nothing. -/
theorem options_last_partial (h : List Call) (typed : ∀ c ∈ h, Typed c) :
    (∀ f : Flag, (run h).get f = lastOr f.default (h.filterMap (asksFlag f))) ∧
    (run h).precision = lastOr 128 (h.filterMap asksPrec) := by
  induction h using snoc_ind with
  | h0 => exact ⟨fun f => by cases f <;> rfl, rfl⟩
  | h1 h c ih =>
    have ih := ih (fun d hd => typed d (by simp [hd]))
    have hc := typed c (by simp)
    refine ⟨fun f => ?_, ?_⟩
    · rw [run_snoc, step_get hc, ih.1 f, List.filterMap_append, lastOr_append]
    · rw [run_snoc, step_prec hc, ih.2, List.filterMap_append, lastOr_append]

/-- no call of that kind throws -/
theorem options_no_throw {c : Call} (hc : Typed c) (s : St) : (step s c).2 = false := by
  have aux : ∀ k v, (k = cs!"precision" → ∃ i, stoi v = .ok i) → (setOption s k v).2 = false := by
    intro k v hp
    by_cases hk : isFlagKey k
    · obtain ⟨g, rfl⟩ := hk; rw [setOption_flag]
    · by_cases e : k = cs!"precision"
      · obtain ⟨i, hi⟩ := hp e
        subst e; rw [setOption_prec, hi]
      · rw [setOption_other s v hk e]
  cases c with
  | str k v => exact aux k v fun e => ⟨_, stoi_numText (hc.2 e)⟩
  | int k v => exact aux k _ fun e => ⟨_, stoi_showInt (hc.2 e).1 (hc.2 e).2⟩
  | dbl k v => exact aux k v fun e => ⟨_, stoi_numText (hc.2 e)⟩
  | bool k v => exact aux k _ fun e => absurd e hc
  | lit k v => exact aux k _ fun e => absurd e hc.1
  | setFlag g b => rfl
  | setPrecision i => rfl

/-- the text that a call hands to `GlobalOptions::setOption`, for its key -/
def text (k : List Char) : Call → Option (List Char)
  | .str k' v => if k' = k then some v else none
  | .int k' v => if k' = k then some (showInt v) else none
  | .dbl k' t => if k' = k then some t else none
  | .bool k' v => if k' = k then some (if v then cs!"true" else cs!"false") else none
  | .lit k' _ => if k' = k then some cs!"true" else none
  | _ => none

/-- The table `options` has the last text for each key, known or not, over every history, even where a call threw. -/
theorem options_table (h : List Call) (k : List Char) : (run h).map k = (h.filterMap (text k)).getLast? := by
  induction h using snoc_ind with
  | h0 => rfl
  | h1 h c ih =>
    rw [run_snoc, List.filterMap_append, List.getLast?_append, ← ih]
    cases c with
    | setFlag g b => simp only [step, map_set]; rfl
    | setPrecision i => rfl
    | _ =>
      simp only [step, setOption_map, text, List.filterMap_cons, List.filterMap_nil]
      rename_i k' v
      by_cases e : k = k'
      · simp [e]
      · simp [e, Ne.symm e]

/-- the hypotheses are met by a history with every kind of call -/
example : ∃ h : List Call, (∀ c ∈ h, Typed c) ∧ (run h).get .keepLet = true ∧ (run h).get .floatEvaluate = false ∧
    (run h).precision = -5 ∧ h.length = 7 := by
  refine ⟨[.str cs!"keep_let" cs!"false", .bool cs!"keep_let" true, .dbl cs!"precision" cs!"64.000000",
    .setFlag .floatEvaluate false, .str cs!"precision" cs!"256", .int cs!"precision" (-5), .lit cs!"x" cs!"y"], ?_, ?_⟩
  · intro c hc
    have notflag : ∀ k : List Char, (∀ f : Flag, k ≠ f.key) → ¬ isFlagKey k := fun k h ⟨f, e⟩ => h f e
    simp only [List.mem_cons, List.not_mem_nil, or_false] at hc
    rcases hc with rfl | rfl | rfl | rfl | rfl | rfl | rfl
    · exact ⟨fun _ => .inr rfl, fun h => absurd h (by decide)⟩
    · show _ ≠ _; decide
    · exact ⟨notflag _ (by intro f; cases f <;> decide), fun _ => ⟨by decide, by decide +kernel⟩⟩
    · trivial
    · exact ⟨fun ⟨f, e⟩ => absurd e.symm (key_prec f), fun _ => ⟨by decide, by decide +kernel⟩⟩
    · exact ⟨notflag _ (by intro f; cases f <;> decide), fun _ => by decide⟩
    · exact ⟨by decide, fun ⟨f, e⟩ => by revert e; cases f <;> decide⟩
  · decide +kernel

/-! ## Violations -/

/-- The property fails for string literals, after whatever history: `setOption("keep_let", "false")` turns the option on, and
it fails for integers: `setOption("keep_let", 1)` turns it off. -/
theorem options_violated (h : List Call) (f : Flag) :
    (run (h ++ [.lit f.key cs!"false"])).get f = true ∧ asksFlag f (.lit f.key cs!"false") = some false ∧
    (∀ v : Int, v ≠ 0 → (run (h ++ [.int f.key v])).get f = false ∧ asksFlag f (.int f.key v) = some true) := by
  refine ⟨?_, ?_, fun v hv => ⟨?_, ?_⟩⟩
  · rw [run_snoc]; simp [step, setOption_get]
  · simp [asksFlag]
  · rw [run_snoc]
    simp only [step, setOption_get, if_pos]
    have : showInt v ≠ cs!"true" := by
      intro e
      have hd : ∀ c ∈ showInt v, c = '-' ∨ c.isDigit = true := by
        intro c hc
        unfold showInt at hc
        split at hc
        · rcases List.mem_cons.1 hc with rfl | hc
          · exact .inl rfl
          · exact .inr (dec_isDigit _ c hc)
        · exact .inr (dec_isDigit _ c hc)
      have := hd 't' (by rw [e]; decide)
      revert this; decide
    simp [this]
  · simp [asksFlag, hv]

/-- A precision given by a literal throws, after the table was changed: the failed call is not without effect. -/
theorem options_throw_violated (h : List Call) :
    let s := run h
    let r := step s (.lit cs!"precision" cs!"256")
    r.2 = true ∧ r.1.precision = s.precision ∧ r.1.map cs!"precision" = some cs!"true" := by
  intro s r
  refine ⟨?_, ?_, ?_⟩
  · rfl
  · rfl
  · rfl

end SMT.Opts
