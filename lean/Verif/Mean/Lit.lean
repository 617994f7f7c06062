import Verif.Mean.Model
import Verif.Mean.Spec
import Verif.Mean.Std
import Verif.Parse.LeafProps
import Verif.Term.Props

/-! # C79: symbols, numerals and decimals -/

namespace SMT.Mean
open SMT SMT.Text SMT.Kinds SMT.Sorts SMT.Parse SMT.Leaf SMT.Term SMT.Eval

set_option linter.unusedSimpArgs false

/-! ## Numbers -/

theorem readReal_digits {ds : List Char} (h : ∀ c ∈ ds, c.isDigit = true) : ∀ (m k : Nat) (dot : Bool) (r : List Char),
    readReal m k dot (ds ++ r) = readReal (ds.foldl (fun a c => a * 10 + (c.toNat - 48)) m) (if dot then k + ds.length else k) dot r := by
  induction ds with
  | nil => intro m k dot r; cases dot <;> rfl
  | cons c ds ih =>
    intro m k dot r
    have hc : c ≠ '.' := by
      rintro rfl; exact absurd (h '.' (by simp)) (by decide)
    rw [List.cons_append, readReal, if_neg hc, ih (fun d hd => h d (List.mem_cons_of_mem _ hd))]
    cases dot
    · rfl
    · simp only [if_true, List.length_cons, List.foldl_cons]
      rw [show k + 1 + ds.length = k + (ds.length + 1) by omega]

theorem foldl_undec (es : List Char) : ∀ m, es.foldl (fun a c => a * 10 + (c.toNat - 48)) m = m * 10 ^ es.length + undec es := by
  induction es with
  | nil => intro m; simp [undec]
  | cons c es ih =>
    intro m
    have e : undec (c :: es) = (0 * 10 + (c.toNat - 48)) * 10 ^ es.length + undec es := ih _
    rw [List.foldl_cons, ih, e, List.length_cons, Nat.pow_succ, Nat.add_mul]
    simp only [Nat.zero_mul, Nat.zero_add, Nat.mul_assoc, Nat.mul_comm 10, Nat.add_assoc]

theorem readReal_value {ds es : List Char} (h1 : Tok.Digits ds) (h2 : Tok.Digits es) :
    readReal 0 0 false (ds ++ '.' :: es) = undec ds + undec es / ((10 ^ es.length : Nat) : Rat) := by
  have e := readReal_digits h2.2 (undec ds) 0 true []
  rw [List.append_nil] at e
  rw [readReal_digits h1.2, readReal, if_pos rfl]
  rw [show ds.foldl (fun a c => a * 10 + (c.toNat - 48)) 0 = undec ds from rfl]
  simp only [Bool.false_eq_true, if_false] at e ⊢
  rw [e, foldl_undec]
  simp only [if_true, Nat.zero_add, readReal]
  have hp : ((10 ^ es.length : Nat) : Rat) ≠ 0 := by
    have : 10 ^ es.length ≠ 0 := by exact Nat.pos_iff_ne_zero.mp (Nat.pow_pos (by decide))
    exact_mod_cast this
  generalize hN : 10 ^ es.length = N at hp ⊢
  rw [Rat.natCast_add, Rat.natCast_mul]
  grind

/-- what a constant is, as a token -/
theorem literal_const {s : List Char} {q : Rat} (h : Literal s q) : isNumber s = true ∧ inBars s = false ∧ s ≠ cs!"true" ∧ s ≠ cs!"false" ∧
    ((constOf s = some (.int s) ∧ ∃ z : Int, Tok.toInteger s = .ok z ∧ q = z ∧ '.' ∉ s) ∨
      (constOf s = some (.real s) ∧ readReal 0 0 false s = q ∧ '.' ∈ s)) := by
  have bars : ∀ {s : List Char} {c : Char} {r : List Char}, s = c :: r → c.isDigit = true →
      inBars s = false ∧ s ≠ cs!"true" ∧ s ≠ cs!"false" := by
    intro s c r e hc
    subst e
    have h1 : c ≠ '|' := by rintro rfl; exact absurd hc (by decide)
    have h2 : c ≠ 't' := by rintro rfl; exact absurd hc (by decide)
    have h3 : c ≠ 'f' := by rintro rfl; exact absurd hc (by decide)
    refine ⟨?_, ?_, ?_⟩
    · simp [inBars, h1]
    · simp only [ne_eq, List.cons.injEq, not_and]; exact fun e => absurd e h2
    · simp only [ne_eq, List.cons.injEq, not_and]; exact fun e => absurd e h3
  cases h with
  | num hd =>
    obtain ⟨hne, hall⟩ := hd
    obtain ⟨c, r, rfl⟩ := List.exists_cons_of_ne_nil hne
    have hi : Str.isIntTok (c :: r) = true := by
      refine (Tok.isInt_exact_partial _ ⟨?_, ?_⟩).mpr ⟨[], c :: r, rfl, .inl rfl, hne, hall⟩
      · intro e; rw [e] at hall; exact absurd (hall '+' (by simp)) (by decide)
      · intro e; rw [e] at hall; exact absurd (hall '-' (by simp)) (by decide)
    have hb := bars (s := c :: r) (r := r) rfl (hall c (by simp))
    refine ⟨by rw [isNumber, hi]; rfl, hb.1, hb.2.1, hb.2.2, .inl ⟨constOf_int hi, (undec (c :: r) : Nat), ?_, ?_, ?_⟩⟩
    · have hc : c ≠ '-' := by rintro rfl; exact absurd (hall '-' (by simp)) (by decide)
      have : Tok.toInteger (c :: r) = match Tok.digits (c :: r) with | some n => .ok n | none => .throw := by
        unfold Tok.toInteger
        split
        · rename_i h; simp only [List.cons.injEq] at h; exact absurd h.1 hc
        · rfl
      rw [this, Tok.digits_some ⟨hne, hall⟩]
    · exact_mod_cast rfl
    · intro hm; exact absurd (hall '.' hm) (by decide)
  | @dec ds es h1 h2 =>
    have hw : Leaf.Writes (ds ++ '.' :: es) (.real (ds ++ '.' :: es)) := .real (a := []) (.inl rfl) h1 h2
    have hc := writes_constOf hw (by simp) (by simp)
    obtain ⟨c, r, rfl⟩ := List.exists_cons_of_ne_nil h1.1
    have hb := bars (s := c :: r ++ '.' :: es) rfl (h1.2 c (by simp))
    have hn : isNumber (c :: r ++ '.' :: es) = true := by
      have hr : Tok.isReal (c :: r ++ '.' :: es) = true := by
        refine (Tok.isReal_exact_partial _ fun hm => ?_).mpr ⟨[], c :: r, es, .inl rfl, h1.2, h2.2, by simp, .inl rfl⟩
        have hcd := h1.2 c (by simp)
        rw [(Tok.isReal_violated _ hm).2 c (by simp)] at hcd
        cases hcd
      rw [isNumber, hr, Bool.or_true]
    exact ⟨hn, hb.1, hb.2.1, hb.2.2, .inr ⟨hc, readReal_value h1 h2, by simp⟩⟩

end SMT.Mean
