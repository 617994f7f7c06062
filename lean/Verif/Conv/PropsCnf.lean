import Verif.Conv.CnfShape
import Verif.Term.Props
/-!
# C30, C31: conjunctive normal form

`toCNF` introduces temporaries `temp_n, temp_(n+1), ...`: first one for every atom (their meaning is
`ties`, the parser's `cnf_atom_map`), then one for every subformula.  `Ext n ρ ρ'` (in
`Verif.Conv.CnfSpec`) says that `ρ'` differs from `ρ` only on such temporaries and makes them Boolean;
`Ties ρ l` that every pair of `l` has the same value under `ρ`.  `cnfIn` is the class of formulas.
-/
set_option linter.unusedSimpArgs false

namespace SMT.Conv

open Term

/-! ### whole conversion -/

/-- Every model of the formula extends to a model of its conjunctive normal form, with the temporaries
of the atoms tied to their atoms. -/
theorem toCNF_complete_partial (c : Cfg) (ord : List Term → List Term)
    (hord : ∀ l x, x ∈ ord l ↔ x ∈ l) (n : Nat) (ρ : Env) (t : Term) (hf : DFit c t)
    (hin : cnfIn t = true) (hfr : noFresh n t) (h : eval ρ t = some (.b true)) :
    ∃ ρ', Ext n ρ ρ' ∧ Ties ρ' (toCNF c ord n t).ties ∧
      eval ρ' (toCNF c ord n t).cnf = some (.b true) := by
  have hB : IsB ρ t := ⟨_, h⟩
  have hx : NX c ρ n (fun _ => true) (toNNF c t) := nnf_NX _ t false (Nat.le_refl _) hf hin hB hfr
  obtain ⟨ρ1, hE1, hT1⟩ := atomMap_exists c n ρ (ord (collectAtoms (toNNF c t))) ⟨n, [], []⟩
    (reset ρ n) (by
      intro a ha
      have := collect_NX _ _ (Nat.le_refl _) hx a ((hord _ _).1 ha)
      exact ⟨this.fr, this.isB, this.fit, dnfIn_negBin (xIn_dnfIn _ _ a (Nat.le_refl _) this.ok)⟩)
    (Nat.le_refl _) (ext_reset ρ n) (by intro p hp; cases hp) (by intro p hp; cases hp)
  have hT : Ties ρ1 (toCNF c ord n t).ties := by
    simp only [toCNF]; split <;> exact hT1
  have ht1 : eval ρ1 t = some (.b true) := by rw [hE1.eval hfr, h]
  obtain ⟨hle, ⟨ρ2, hE2, he⟩, _⟩ := toCNF_core c ord hord n ρ1 t hf hin ⟨_, ht1⟩ hfr hE1.bool hT
  rw [bval_of ht1] at he
  refine ⟨ρ2, ⟨hE2.fn.trans hE1.fn, hE2.lit.trans hE1.lit, ?_, ?_⟩, ?_, he⟩
  · intro vk s x hx
    rw [hE2.var vk s x, hE1.var vk s x hx]
    rintro ⟨e1, e2, i, hi, e3⟩
    exact hx ⟨e1, e2, i, by omega, e3⟩
  · intro i hi
    by_cases hi2 : (toCNF c ord n t).n ≤ i
    · exact hE2.bool i hi2
    · obtain ⟨b, hb⟩ := hE1.bool i hi
      refine ⟨b, ?_⟩
      rw [hE2.var, hb]
      rintro ⟨_, _, j, hj, e⟩
      have := tempName_inj e; omega
  · intro p hp
    obtain ⟨h1, h2⟩ := ties_noFresh c ord hord n ρ t hf hin hB hfr p hp
    rw [hE2.eval h1, hE2.eval h2]; exact hT p hp

/-- Every model of the conjunctive normal form in which the temporaries of the atoms are tied to their
atoms is a model of the formula. -/
theorem toCNF_sound_partial (c : Cfg) (ord : List Term → List Term)
    (hord : ∀ l x, x ∈ ord l ↔ x ∈ l) (n : Nat) (ρ : Env) (t : Term) (x : Bool) (hf : DFit c t)
    (hin : cnfIn t = true) (hfr : noFresh n t) (h : eval ρ t = some (.b x))
    (hb : ∀ i, n ≤ i → ∃ b, eval ρ (tempVar i) = some (.b b))
    (hT : Ties ρ (toCNF c ord n t).ties) (he : eval ρ (toCNF c ord n t).cnf = some (.b true)) :
    x = true := by
  have hb' : ∀ i, n ≤ i → ∃ b, ρ.var .temp .bool (tempName i) = .b b := by
    intro i hi
    obtain ⟨b, hb⟩ := hb i hi
    simp only [tempVar, eval, guardSort_some] at hb
    exact ⟨b, by simpa using hb.1⟩
  obtain ⟨hle, _, h2⟩ := toCNF_core c ord hord n ρ t hf hin ⟨x, h⟩ hfr hb' hT
  have := h2 ρ ⟨rfl, rfl, fun _ _ _ _ => rfl, fun i hi => hb' i (by omega)⟩ he
  rwa [bval_of h] at this

/-- `(x < 3 or (a xor b)) and (d => x < 3)`, for the examples -/
def ex4 : Term := .app .and .bool [.app .or .bool [.app .lt .bool [iv "x", .cint 3],
  .app .xor .bool [bv "a", bv "b"]], .app .implies .bool [bv "d", .app .lt .bool [iv "x", .cint 3]]]

/-- no temporary occurs in a formula over ordinary variables -/
theorem noFresh_ex4 : noFresh 0 ex4 := by
  intro i _ h
  simp [ex4, subs, subsL, tempVar, bv, iv] at h

example : DFit c0 ex4 ∧ cnfIn ex4 = true ∧ noFresh 0 ex4 ∧
    eval (env (fun v => v == "a") (fun _ => 7)) ex4 = some (.b true) ∧
    (toCNF c0 id 0 ex4).ties ≠ [] :=
  ⟨.inl fun _ => rfl, by decide, noFresh_ex4, by decide, by
    simp [ex4, iv, bv, toCNF, atomMap, toNNF, nnf, nnfL, mkAnd, mkOr, mkNot, scan, Term.sort, isErr,
      Term.isTrue, Term.isFalse, dedup, mkOper, simp, simp1, simp2, simp3, simpN, simpFold, isUnknown,
      isComm, c0, List.filter_cons, bne, collectAtoms, collectAtomsL, isAtom]
    split <;> simp⟩

/-! ### shape -/

/-- The result of `toCNF` is a conjunction of clauses of literals, for formulas without atoms (`posIn`):
Boolean skeletons in which `xor`, `=` and `distinct` are not negated and have only variables negated
inside. -/
theorem toCNF_shape_partial (c : Cfg) (ord : List Term → List Term)
    (hord : ∀ l x, x ∈ ord l ↔ x ∈ l) (n : Nat) (ρ : Env) (t : Term) (x : Bool) (hf : DFit c t)
    (hin : posIn false t = true) (hfr : noFresh n t) (h : eval ρ t = some (.b x)) :
    isCNFForm (toCNF c ord n t).cnf = true :=
  (toCNF_form c ord hord n ρ t hf hin ⟨x, h⟩ hfr).1

/-- `(ite d (a and b) (a xor b)) and not (a and d)`, for the examples -/
def ex5 : Term := .app .and .bool [
  .app .ite .bool [bv "d", .app .and .bool [bv "a", bv "b"], .app .xor .bool [bv "a", bv "b"]],
  .app .not .bool [.app .and .bool [bv "a", bv "d"]]]

example : DFit c0 ex5 ∧ posIn false ex5 = true ∧ noFresh 0 ex5 ∧
    eval (env (fun v => v == "a") (fun _ => 7)) ex5 = some (.b true) :=
  ⟨.inl fun _ => rfl, by decide, by
    intro i _ h
    simp [ex5, subs, subsL, tempVar, bv, iv] at h, by decide⟩

/-! ### where it fails -/

/-- an assignment for the examples: `f` on ordinary variables, `g` on temporaries -/
def envT (f g : String → Bool) : Env :=
  ⟨fun vk _ x => .b (if vk = .temp then g x else f x), fun _ x => x, fun _ _ _ => none⟩

/-- `=>` below `xor` is converted wrongly, for all different variables: with `a`, `b` false and `d`
true, `(a => b) xor d` is false, but the conversion is true with `temp_0` false and `temp_1` true. -/
theorem toCNF_implies_violated (a b d : String) (hab : a ≠ b) (had : a ≠ d) (hbd : b ≠ d) :
    ∃ ρ, (toCNF c0 id 0 (.app .xor .bool [.app .implies .bool [bv a, bv b], bv d])).ties = [] ∧
      eval ρ (.app .xor .bool [.app .implies .bool [bv a, bv b], bv d]) = some (.b false) ∧
      eval ρ (toCNF c0 id 0 (.app .xor .bool [.app .implies .bool [bv a, bv b], bv d])).cnf
        = some (.b true) := by
  have h0 : tempName 0 ≠ tempName 1 := by decide
  refine ⟨envT (fun x => x == d) (fun x => x == tempName 1), ?_, ?_, ?_⟩
  · simp [bv, toCNF, atomMap, toNNF, nnf, nnfL, isCNF, isLiteral, isVBool, isCBool, Term.isTrue, Term.isFalse,
      collectAtoms, collectAtomsL, isAtom]
  · simp [eval, evalL, envT, bv, guardSort, Val.hasSort, apply, boolsOf, impChain, had, hbd]
  · simp [bv, toCNF, atomMap, toNNF, nnf, nnfL, isCNF, isLiteral, isVBool, isCBool, Term.isTrue, Term.isFalse,
      collectAtoms, collectAtomsL, isAtom, tseitin, tseitinL, tsImplies, tsXorFold, tsXor, TSt.memo,
      VMap.find, mkAnd, mkOr, mkNot, scan, Term.sort, isErr, dedup, mkOper, simp, simp1, simp2, simp3,
      simpN, simpFold, isUnknown, isComm, c0, List.filter_cons, bne, tempVar, hab, had, hbd, hab.symm,
      had.symm, hbd.symm, h0, h0.symm]
    simp [eval, evalL, envT, guardSort, Val.hasSort, apply, boolsOf, hab, had, hbd, h0]

/-- A negated `xor` is left inside a clause, for all different variables. -/
theorem toCNF_notXor_violated (a b : String) (hab : a ≠ b) :
    isCNFForm (toCNF c0 id 0 (.app .not .bool [.app .xor .bool [bv a, bv b]])).cnf = false := by
  simp [bv, toCNF, atomMap, toNNF, nnf, nnfL, isCNF, isLiteral, isVBool, isCBool, Term.isTrue, Term.isFalse,
      collectAtoms, collectAtomsL, isAtom, tseitin, tseitinL, tsImplies, tsXorFold, tsXor, TSt.memo,
      VMap.find, mkAnd, mkOr, mkNot, scan, Term.sort, isErr, dedup, mkOper, simp, simp1, simp2, simp3,
      simpN, simpFold, isUnknown, isComm, c0, List.filter_cons, bne, tempVar, hab, hab.symm, isCNFForm,
      isClause, isLit]

/-- An atom that occurs twice, the second time negated inside a disjunction, is left inside a clause, for
every uninterpreted predicate and all variables. -/
theorem toCNF_sharedAtom_violated (i : Nat) (x b : String) :
    isCNFForm (toCNF c0 id 0 (.app .and .bool [.app (.uf i) .bool [iv x],
      .app .or .bool [bv b, .app .not .bool [.app (.uf i) .bool [iv x]]]])).cnf = false := by
  have h0 : tempName 0 ≠ tempName 1 := by decide
  have h1 : tempName 0 ≠ tempName 2 := by decide
  have h2 : tempName 1 ≠ tempName 2 := by decide
  have h3 : tempName 0 ≠ tempName 3 := by decide
  have h4 : tempName 1 ≠ tempName 3 := by decide
  have h5 : tempName 2 ≠ tempName 3 := by decide
  simp [bv, iv, toCNF, atomMap, toNNF, nnf, nnfL, isCNF, isCNFL, isLiteral, isVBool, isCBool, Term.isTrue, Term.isFalse,
      collectAtoms, collectAtomsL, isAtom, tseitin, tseitinL, tsAnd, tsOr, TSt.memo,
      VMap.find, mkAnd, mkOr, mkNot, scan, Term.sort, isErr, dedup, mkOper, simp, simp1, simp2, simp3,
      simpN, simpFold, isUnknown, isComm, c0, List.filter_cons, bne, tempVar, isCNFForm,
      isClause, isLit, replaceAtoms, repl, replL, h0, h1, h2, h3, h4, h5, h0.symm, h1.symm, h2.symm,
      h3.symm, h4.symm, h5.symm]

end SMT.Conv
