import Verif.Conv.Replace
import Verif.Term.Props
/-!
# C32: replacing atoms and nodes

`substAll` (replace every occurrence) and `touched` (the occurrences that change) are specified in
`Verif.Conv.Replace`.
-/
set_option linter.unusedSimpArgs false

namespace SMT.Conv

open Term

/-- `replaceNodes` replaces every occurrence, provided no node that is replaced or lies above a
replaced one occurs twice. -/
theorem replaceNodes_all_partial (c : Cfg) (m : VMap) (t : Term) (h : (touched m.find t).Nodup) :
    replaceNodes c m t = substAll c m.find t := by
  obtain ⟨h1, h2, _⟩ := repl_full (c := c) (hit := m.find) _ t [] [] (Nat.le_refl _) (by simpa using h)
    ⟨by intro k v h; simp [VMap.find] at h, by intro k h; simp [VMap.find] at h⟩
  simp only [replaceNodes, h2, h1]
  split
  · rfl
  · rename_i hh; exact (substAll_noHit t (by simpa using hh)).symm

/-- the replacement asked for by `replaceAtoms` -/
def atomHit (m : VMap) (t : Term) : Option Term := if isAtom t then m.find t else none

/-- `replaceAtoms` replaces every occurrence of a mapped atom, under the same condition. -/
theorem replaceAtoms_all_partial (c : Cfg) (m : VMap) (t : Term) (h : (touched (atomHit m) t).Nodup) :
    replaceAtoms c m t = substAll c (atomHit m) t := by
  obtain ⟨h1, h2, _⟩ := repl_full (c := c) (hit := atomHit m) _ t [] [] (Nat.le_refl _)
    (by simpa using h)
    ⟨by intro k v h; simp [VMap.find] at h, by intro k h; simp [VMap.find] at h⟩
  have e : repl c (fun t => if isAtom t then m.find t else none) t [] = repl c (atomHit m) t [] := rfl
  simp only [replaceAtoms, e, h2, h1]
  split
  · rfl
  · rename_i hh; exact (substAll_noHit t (by simpa using hh)).symm

/-- `x < 3 and (b or y < 4)`, with both atoms mapped -/
def ex3 : Term := .app .and .bool [.app .lt .bool [iv "x", .cint 3],
  .app .or .bool [bv "b", .app .lt .bool [iv "y", .cint 4]]]
/-- the map of the example -/
def ex3m : VMap := [(.app .lt .bool [iv "x", .cint 3], bv "p"), (.app .lt .bool [iv "y", .cint 4], bv "q")]

example : (touched (atomHit ex3m) ex3).Nodup ∧ (touched ex3m.find ex3).length = 4 := by decide

/-- no `=>` node inside -/
def noImplies (t : Term) : Prop := ∀ u ∈ subs t, ∀ s ts, u ≠ .app .implies s ts

theorem noImplies_kid {k : Kind} {s : Srt} {ts : List Term} (h : noImplies (.app k s ts)) {t : Term}
    (ht : t ∈ ts) : noImplies t := by
  intro u hu; exact h u (by simp only [subs, List.mem_cons]; exact .inr (mem_subsL.2 ⟨t, ht, hu⟩))

/-- The relation kept by replacing equals with equals. -/
theorem repl_sound (c : Cfg) (ρ : Env) (hit : Term → Option Term) (t : Term)
    (h : ∀ u r, hit u = some r → eval ρ r = eval ρ u ∧ Fit c r)
    (ht : DFit c t) (hi : noImplies t) (hE : Ev ρ t) :
    eval ρ (repl c hit t []).1 = eval ρ t := by
  have := repl_rel (c := c) (hit := hit) (P := fun t => DFit c t ∧ noImplies t ∧ Ev ρ t)
    (R := fun t r => eval ρ r = eval ρ t ∧ Fit c r)
    (fun t h => ⟨rfl, h.1.fit⟩) (fun t r _ hr => h t r hr)
    (fun k s ts hP _ t ht => ⟨hP.1.child ht, noImplies_kid hP.2.1 ht, by
      obtain ⟨v, hv⟩ := hP.2.2
      rw [eval_app] at hv
      have hv := (guardSort_some.1 hv).1
      cases e : evalL ρ ts with
      | none => simp [evalApp, e] at hv
      | some vs => exact ((evalL_iff ρ ts vs).1 e).1 t ht⟩)
    (fun k s ts rs hP hno hne hall => by
      obtain ⟨v, hv⟩ := hP.2.2
      have h1 := guardSort_some.1 ((eval_app ρ k s ts).symm.trans hv)
      have hE : evalL ρ rs = evalL ρ ts ∧ (∀ r ∈ rs, Fit c r) ∧ rs.length = ts.length := by
        clear hne hv h1 hP hno
        induction hall with
        | nil => simp
        | cons hr _ ih =>
          simp only [evalL, hr.1, ih.1]
          refine ⟨trivial, ?_, by simp [ih.2.2]⟩
          intro r hr'; simp only [List.mem_cons] at hr'
          rcases hr' with rfl | hr'
          · exact hr.2
          · exact ih.2.1 r hr'
      have h2 : evalApp ρ k rs s = some v := by simp only [evalApp, hE.1]; exact h1.1
      have := mkOper_sound c ρ k rs s v hE.2.1
        (by rintro rfl; exact hne (List.length_eq_zero_iff.1 hE.2.2.symm))
        (by rintro rfl; exact absurd rfl (hP.2.1 _ (by simp only [subs, List.mem_cons, true_or]) s ts))
        h1.2 h2
      exact ⟨this.1.trans hv.symm, this.2⟩)
    _ t [] (Nat.le_refl _) ⟨ht, hi, hE⟩ VInv.nil
  exact this.1.1

/-- Replacing nodes by nodes of the same value keeps the value, whatever is shared. -/
theorem replaceNodes_sound_partial (c : Cfg) (ρ : Env) (m : VMap) (t : Term) (v : Val)
    (hm : ∀ u r, m.find u = some r → eval ρ r = eval ρ u ∧ Fit c r)
    (hf : DFit c t) (hi : noImplies t) (h : eval ρ t = some v) :
    eval ρ (replaceNodes c m t) = some v := by
  simp only [replaceNodes]
  split
  · rw [repl_sound c ρ m.find t hm hf hi ⟨v, h⟩, h]
  · exact h

/-- the same for atoms -/
theorem replaceAtoms_sound_partial (c : Cfg) (ρ : Env) (m : VMap) (t : Term) (v : Val)
    (hm : ∀ u r, m.find u = some r → eval ρ r = eval ρ u ∧ Fit c r)
    (hf : DFit c t) (hi : noImplies t) (h : eval ρ t = some v) :
    eval ρ (replaceAtoms c m t) = some v := by
  simp only [replaceAtoms]
  split
  · rw [repl_sound c ρ _ t (fun u r hr => by
      split at hr
      · exact hm u r hr
      · cases hr) hf hi ⟨v, h⟩, h]
  · exact h

example : DFit c0 ex3 ∧ noImplies ex3 ∧
    ∃ ρ, eval ρ ex3 = some (.b true) ∧ (∀ u r, ex3m.find u = some r → eval ρ r = eval ρ u ∧ Fit c0 r) := by
  refine ⟨.inl fun _ => rfl, ?_, env (fun v => v == "p" || v == "b") (fun v => if v == "x" then 1 else 5),
    by decide, ?_⟩
  · intro u hu s ts
    simp [ex3, iv, bv, subs, subsL] at hu
    rcases hu with h | h | h | h | h | h | h | h | h <;> subst h <;> simp
  · intro u r hr
    simp only [ex3m, VMap.find] at hr
    split at hr
    · rename_i e; cases hr; subst e; exact ⟨by decide, .inl fun _ => rfl⟩
    · split at hr
      · rename_i e; cases hr; subst e; exact ⟨by decide, .inl fun _ => rfl⟩
      · cases hr

/-- A node met again below an otherwise unchanged node is not replaced there, for all different
variables: in `a and (b or a)` with `a` mapped to `d`, the second `a` stays. -/
theorem replaceNodes_shared_violated (a b d : String) (hab : a ≠ b) (had : a ≠ d) (hbd : b ≠ d) :
    replaceNodes c0 [(bv a, bv d)] (.app .and .bool [bv a, .app .or .bool [bv b, bv a]])
      = .app .and .bool [bv d, .app .or .bool [bv b, bv a]] ∧
    substAll c0 (VMap.find [(bv a, bv d)]) (.app .and .bool [bv a, .app .or .bool [bv b, bv a]])
      = .app .and .bool [bv d, .app .or .bool [bv b, bv d]] := by
  constructor
  · simp [replaceNodes, repl, replL, VMap.find, bv, hab, hab.symm, had, hbd, mkOper, simp, simp2,
      Term.isTrue, Term.isFalse, isUnknown, isComm, c0]
  · simp [substAll, substAllL, hasHit, hasHitL, VMap.find, bv, hab, hab.symm, had, hbd, mkOper, simp, simp2,
      Term.isTrue, Term.isFalse, isUnknown, isComm, c0]

end SMT.Conv
