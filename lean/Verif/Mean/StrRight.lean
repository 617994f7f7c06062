import Verif.Mean.Spec

/-! # C84: literals on which the operators on strings are computed rightly -/

namespace SMT.Mean
open SMT SMT.Text SMT.Sorts SMT.Parse

set_option linter.unusedSimpArgs false
set_option linter.unusedVariables false

/-- the text of a value that is a string -/
def textOf : Val → Option (List Char)
  | .u .str x => some (x.toList.drop 1).dropLast
  | _ => none

theorem textOf_str (s : List Char) : textOf (strVal s) = some s := by
  simp [textOf, strVal, Str.quote]

/-- the texts of a list of values -/
def textsOf : List Val → Option (List (List Char))
  | [] => some []
  | v :: vs => (textOf v).bind fun s => (textsOf vs).map fun l => s :: l

theorem textsOf_map (ss : List (List Char)) : textsOf (ss.map strVal) = some ss := by
  induction ss with
  | nil => rfl
  | cons s ss ih => simp [textsOf, textOf_str, ih]

theorem at_first {t a b a' b' : List Char} (h : a ++ t ++ b = a' ++ t ++ b') (h1 : ∀ k, k < a.length → ¬ Str.At (a ++ t ++ b) t k)
    (h2 : ∀ k, k < a'.length → ¬ Str.At (a ++ t ++ b) t k) : a = a' ∧ b = b' := by
  have e : a.length = a'.length := by
    rcases Nat.lt_trichotomy a.length a'.length with g | g | g
    · exact absurd ⟨a, b, rfl, rfl⟩ (h2 _ g)
    · exact g
    · exact absurd ⟨a', b', h, rfl⟩ (h1 _ g)
  rw [List.append_assoc, List.append_assoc] at h
  have h3 := List.append_inj h e
  exact ⟨h3.1, (List.append_inj h3.2 rfl).2⟩

theorem indexof_unique {s t : List Char} {i r r' : Int} (h : Str.IsIndexof s t i r) (h' : Str.IsIndexof s t i r') : r = r' := by
  rcases h with ⟨j, rfl, h1, h2, h3, h4⟩ | ⟨rfl, h1⟩ <;> rcases h' with ⟨j', rfl, k1, k2, k3, k4⟩ | ⟨rfl, k1⟩
  · rcases Nat.lt_trichotomy j j' with g | g | g
    · exact absurd h3 (k4 j h1 g)
    · rw [g]
    · exact absurd k3 (h4 j' k1 g)
  · exact absurd h3 (k1 j h2 h1)
  · exact absurd k3 (h1 j' k2 k1)
  · rfl

theorem replace_unique {s t u r r' : List Char} (h : Str.IsReplace s t u r) (h' : Str.IsReplace s t u r') : r = r' := by
  rcases h with ⟨rfl, h1⟩ | ⟨a, b, rfl, rfl, h1⟩ <;> rcases h' with ⟨rfl, k1⟩ | ⟨a', b', e, rfl, k1⟩
  · rfl
  · exact absurd ⟨a', b', e, rfl⟩ (h1 _)
  · exact absurd ⟨a, b, rfl, rfl⟩ (k1 _)
  · obtain ⟨rfl, rfl⟩ := at_first e h1 k1
    rfl

theorem replaceAll_unique {s t u r r' : List Char} (h : Str.IsReplaceAll t u s r) (h' : Str.IsReplaceAll t u s r') : r = r' := by
  induction h generalizing r' with
  | empty s ht =>
    cases h' with
    | empty => rfl
    | none => rfl
    | step a b q hne => exact absurd ht hne
  | none s hn =>
    generalize hs : s = s' at h'
    cases h' with
    | empty => rfl
    | none => rfl
    | step a b q hne => subst hs; exact absurd ⟨a, b, rfl, rfl⟩ (hn _)
  | step a b q hne hk _ ih =>
    generalize hs : a ++ t ++ b = s' at h'
    cases h' with
    | empty _ ht => exact absurd ht hne
    | none _ hn => subst hs; exact absurd ⟨a, b, rfl, rfl⟩ (hn _)
    | step a' b' q' _ hk' h'' =>
      obtain ⟨rfl, rfl⟩ := at_first hs hk (hs ▸ hk')
      rw [ih h'']

theorem strVal_inj {s t : List Char} (h : strVal s = strVal t) : s = t := by
  have := congrArg textOf h
  rw [textOf_str, textOf_str] at this
  exact Option.some.inj this

theorem single_inj {s t : List Char} (h : [strVal s] = [strVal t]) : s = t := strVal_inj (List.cons.inj h).1

theorem num_inj {i j : Int} (h : Val.n (i : Rat) = .n (j : Rat)) : i = j := by
  have h := Val.n.inj h
  exact_mod_cast h

theorem nums_inj {i j : Int} (h : [Val.n (i : Rat)] = [Val.n (j : Rat)]) : i = j := num_inj (List.cons.inj h).1

/-- a string of plain characters or a number below 2^64 -/
def RightVal (v : Val) : Prop := (∃ s, v = strVal s ∧ ∀ c ∈ s, Str.Plain c) ∨ ∃ n : Nat, v = .n (n : Rat) ∧ n < 2 ^ 64

/-- the values of literals as `FoldsRight` has them -/
def FoldsVal (o : List Char) (vs : List Val) : Prop :=
  o ∈ strRight ∧ (∀ x ∈ vs, RightVal x) ∧ (o = cs!"str.at" → ∀ (s : List Char) (i : Int), vs = [strVal s, .n i] → i ≤ s.length) ∧
    (o = cs!"str.replace_all" → ∀ s u, vs ≠ [strVal s, strVal [], strVal u])

theorem RightVal.plain {s : List Char} (h : RightVal (strVal s)) : ∀ c ∈ s, Str.Plain c := by
  rcases h with ⟨s', e, h⟩ | ⟨n, e, _⟩
  · rw [strVal_inj e]; exact h
  · simp [strVal] at e

theorem RightVal.small {i : Int} (h : RightVal (.n (i : Rat))) : 0 ≤ i ∧ i < Str.ulongEnd := by
  rcases h with ⟨s', e, h⟩ | ⟨n, e, hn⟩
  · simp [strVal] at e
  · have e : i = (n : Int) := num_inj (by rw [e]; rfl)
    unfold Str.ulongEnd
    omega

theorem FoldsVal.in_ {o : List Char} {vs : List Val} (h : FoldsVal o vs) {x : Val} (hx : x ∈ vs) : RightVal x := h.2.1 x hx

end SMT.Mean
