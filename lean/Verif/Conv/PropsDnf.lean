import Verif.Conv.Distrib
import Verif.Term.Props
/-!
# C28, C29: negation and disjunctive normal form

`isNNF`, `isDNF`, `isDNFTree` and `binary` are defined in `Verif.Conv.Spec`, `dnfIn` and `noCollapse`
in `Verif.Conv.DnfSpec`, `eval` in `Verif.Term.Spec`.
-/
set_option linter.unusedSimpArgs false

namespace SMT.Conv

open Term

/-! ### negation normal form (C28) -/

/-- `toNNF` keeps the value of every formula under every assignment. -/
theorem toNNF_sound_partial (c : Cfg) (ρ : Env) (t : Term) (x : Bool) (hf : DFit c t)
    (hb : binary t = true) (h : eval ρ t = some (.b x)) : eval ρ (toNNF c t) = some (.b x) := by
  have := nnf_val c ρ _ t false (Nat.le_refl _) hf hb ⟨x, h⟩
  rw [bval_of h] at this; simpa [toNNF] using this

/-- The result is in negation normal form: `and`/`or` over leaves that carry no connective, bare or
under a single `not`. -/
theorem toNNF_shape_partial (c : Cfg) (ρ : Env) (t : Term) (x : Bool)
    (hb : binary t = true) (h : eval ρ t = some (.b x)) : isNNF (toNNF c t) = true :=
  nnf_shape c ρ _ t false (Nat.le_refl _) hb ⟨x, h⟩

/-- The same for a list of assertions: the conjunction. -/
theorem toNNFL_sound_partial (c : Cfg) (ρ : Env) (ts : List Term) (x : Bool)
    (hf : ∀ t ∈ ts, DFit c t) (hb : ∀ t ∈ ts, binary t = true)
    (h : evalApp ρ .and ts .bool = some (.b x)) :
    eval ρ (toNNFL c ts) = some (.b x) ∧ isNNF (toNNFL c ts) = true := by
  have hv := mkAnd_sound c ρ ts _ h
  have hB : binary (mkAnd c ts) = true := by
    rcases mkAnd_cases c ts with h1 | h1 | h1 | h1 | ⟨l, h1, _, _, h3⟩
    · rw [h1]; rfl
    · rw [h1]; rfl
    · rw [h1]; rfl
    · exact hb _ h1
    · rw [h1]; simp only [binary, binaryL_iff]; exact fun t ht => hb t (h3 t ht).1
  refine ⟨?_, toNNF_shape_partial c ρ _ x hB hv⟩
  by_cases hne : ts = []
  · subst hne
    rw [toNNFL, show mkAnd c [] = .tt from rfl] at *
    simpa [toNNF, nnf] using hv
  · have hfit : DFit c (mkAnd c ts) := by
      obtain ⟨a, l, e⟩ := List.exists_cons_of_ne_nil hne
      have ha := hf a (by rw [e]; simp)
      rcases mkAnd_cases c ts with h1 | h1 | h1 | h1 | ⟨l, h1, h2, _, h3⟩
      · rw [h1]; exact ha.other rfl
      · rw [h1]; exact ha.other rfl
      · rw [h1]; exact ha.other rfl
      · exact hf _ h1
      · rw [h1]; exact dfit_app (by rintro rfl; simp at h2) fun t ht => hf t (h3 t ht).1
    exact toNNF_sound_partial c ρ _ x hfit hB hv

/-- `not ((a => b) and (ite d (x < 3) a))`, for the examples -/
def ex1 : Term := .app .not .bool [.app .and .bool [.app .implies .bool [bv "a", bv "b"],
  .app .ite .bool [bv "d", .app .lt .bool [iv "x", .cint 3], bv "a"]]]

example : DFit c0 ex1 ∧ binary ex1 = true ∧
    eval (env (fun v => v == "a") (fun _ => 7)) ex1 = some (.b true) :=
  ⟨.inl fun _ => rfl, by decide, by decide⟩

/-- A three-operand `=>` loses its last operand: with all of `p`, `q` true and `r` false,
`(=> p q r)` is false and its negation normal form is true. -/
theorem toNNF_implies3_violated (p q r : String) (hp : p ≠ r) (hq : q ≠ r) (hpq : p ≠ q) :
    ∃ ρ, eval ρ (.app .implies .bool [bv p, bv q, bv r]) = some (.b false) ∧
      eval ρ (toNNF c0 (.app .implies .bool [bv p, bv q, bv r])) = some (.b true) := by
  refine ⟨env (fun x => x != r) (fun _ => 0), ?_, ?_⟩
  · simp [eval, evalL, env, bv, guardSort, Val.hasSort, apply, boolsOf, impChain, hp, hq]
  · have : toNNF c0 (.app .implies .bool [bv p, bv q, bv r])
        = .app .or .bool [.app .not .bool [bv p], bv q] := by
      have hpq' : Term.bv p ≠ Term.bv q := by simp [bv, hpq]
      simp [toNNF, nnf, bv, mkNot, mkOr, scan, Term.sort, isErr, Term.isTrue, Term.isFalse, dedup,
        mkOper, simp, simp1, simp2, isUnknown, isComm, c0]
    rw [this]
    simp [eval, evalL, env, bv, guardSort, Val.hasSort, apply, boolsOf, hp, hq]

/-! ### disjunctive normal form (C29) -/

/-- the distribution inside `toDNF` never meets a product that stopped being a disjunction -/
def dnfOK (c : Cfg) (n : Nat) (t : Term) : Bool :=
  match elimLoop c n t [] with
  | some e => noCollapse c (toNNF c e)
  | none => true

theorem start {c : Cfg} {ρ : Env} {t : Term} {x : Bool} (hf : DFit c t) (hin : dnfIn t = true)
    (h : eval ρ t = some (.b x)) : Out c ρ (subs t) t :=
  ⟨hf, hin, ⟨x, h⟩, spIn_subs _ _ t (Nat.le_refl _) hin fun _ h => h⟩

theorem inv0 (c : Cfg) (ρ : Env) (S : List Term) : EInv c ρ S [] := by
  intro k v h; simp [VMap.find] at h

/-- `toDNF` always returns: at most one round of elimination per subformula, plus one. -/
theorem toDNF_total_partial (c : Cfg) (ρ : Env) (t : Term) (x : Bool) (hf : DFit c t)
    (hin : dnfIn t = true) (h : eval ρ t = some (.b x)) :
    ∀ n, (subs t).length < n → ∃ r, toDNF c n t = some r := by
  intro n hn
  obtain ⟨e, he, _⟩ := elimLoop_spec c ρ (subs t) n t [] (start hf hin h) (inv0 _ _ _) (by
    have := List.countP_le_length (p := fun s => (VMap.find [] s).isNone) (l := subs t)
    simp only [todo]; omega)
  exact ⟨flattenDNF c (distrib c (toNNF c e)), by simp only [toDNF, he, Option.map_some]⟩

/-- `toDNF` keeps the value of every formula under every assignment. -/
theorem toDNF_sound_partial (c : Cfg) (ρ : Env) (n : Nat) (t r : Term) (x : Bool) (hf : DFit c t)
    (hin : dnfIn t = true) (hc : dnfOK c n t = true) (h : eval ρ t = some (.b x))
    (hr : toDNF c n t = some r) : eval ρ r = some (.b x) := by
  simp only [toDNF, Option.map_eq_some_iff] at hr
  obtain ⟨e, he, rfl⟩ := hr
  simp only [dnfOK, he] at hc
  obtain ⟨h1, h2⟩ := elimLoop_sound c ρ (subs t) n t [] e (start hf hin h) (inv0 _ _ _) he
  have h3 := toNNF_sound_partial c ρ e _ h1.fit (dnfIn_binary _ e (Nat.le_refl _) h1.ok) h1.isB.eval
  obtain ⟨h4, h5⟩ := distrib_val c ρ _ _ (Nat.le_refl _) ⟨_, h3⟩ hc
  obtain ⟨h6, h7⟩ := flattenDNF_val c ρ _ _ (Nat.le_refl _) h4
  rw [h6.eval, h7, h5, bval_of h3, h2, bval_of h]

/-- The result of `toDNF` is in negation normal form and has no disjunction below a conjunction. -/
theorem toDNF_shape_partial (c : Cfg) (ρ : Env) (n : Nat) (t r : Term) (x : Bool) (hf : DFit c t)
    (hin : dnfIn t = true) (hc : dnfOK c n t = true) (h : eval ρ t = some (.b x))
    (hr : toDNF c n t = some r) : isNNF r = true ∧ isDNFTree r = true := by
  simp only [toDNF, Option.map_eq_some_iff] at hr
  obtain ⟨e, he, rfl⟩ := hr
  simp only [dnfOK, he] at hc
  obtain ⟨h1, h2⟩ := elimLoop_sound c ρ (subs t) n t [] e (start hf hin h) (inv0 _ _ _) he
  have h3 := toNNF_shape_partial c ρ e _ (dnfIn_binary _ e (Nat.le_refl _) h1.ok) h1.isB.eval
  exact flatten_shape c _ (distrib_shape c _ _ (Nat.le_refl _) h3 hc)

/-- `(a xor b) and ((d => b) or x < 3)`, for the examples -/
def ex2 : Term := .app .and .bool [.app .xor .bool [bv "a", bv "b"],
  .app .or .bool [.app .implies .bool [bv "d", bv "b"], .app .lt .bool [iv "x", .cint 3]]]

example : DFit c0 ex2 ∧ dnfIn ex2 = true ∧ dnfOK c0 20 ex2 = true ∧ (subs ex2).length < 20 ∧
    eval (env (fun v => v == "a") (fun _ => 7)) ex2 = some (.b true) :=
  ⟨.inl fun _ => rfl, by decide, by
    simp [ex2, iv, dnfOK, noCollapse, noCollapseL, prodOK, elimXor, elimXorR, toDNF, elimLoop, elim, elimL, isLiteral, isVBool, isCBool, isAtom, bv, VMap.find, toNNF,
      nnf, nnfL, mkAnd, mkOr, mkNot, scan, Term.sort, isErr, Term.isTrue, Term.isFalse, dedup, mkOper, simp,
      simp1, simp2, simp3, simpN, simpFold, isUnknown, isComm, c0, distrib, distribL, isOr, isAnd, distProd, distMerge, conj,
      children, flattenDNF, flatOr, flatAnd, flatEach, List.filter_cons, bne], by decide, by decide⟩

/-- Distribution is wrong when a product collapses: `(a or (a and b)) and (b or (b and a)) and d`
becomes `(a and d) or (b and d)`, for all variables `a`, `b`, `d`; with `a`, `d` true and `b` false
the formula is false and the result true. -/
theorem toDNF_collapse_violated (a b d : String) (hab : a ≠ b) (had : a ≠ d) (hbd : b ≠ d) :
    ∃ r, toDNF c0 2 (.app .and .bool [.app .or .bool [bv a, .app .and .bool [bv a, bv b]],
        .app .or .bool [bv b, .app .and .bool [bv b, bv a]], bv d]) = some r ∧
      ∃ ρ, eval ρ (.app .and .bool [.app .or .bool [bv a, .app .and .bool [bv a, bv b]],
        .app .or .bool [bv b, .app .and .bool [bv b, bv a]], bv d]) = some (.b false) ∧
        eval ρ r = some (.b true) := by
  refine ⟨.app .or .bool [.app .and .bool [bv a, bv d], .app .and .bool [bv b, bv d]], ?_,
    env (fun x => x != b) (fun _ => 0), ?_, ?_⟩
  · have h1 := hab.symm
    have h2 := had.symm
    have h3 := hbd.symm
    simp [toDNF, elimLoop, elim, elimL, isLiteral, isVBool, isCBool, isAtom, bv, VMap.find, toNNF,
      nnf, nnfL, mkAnd, mkOr, mkNot, scan, Term.sort, isErr, Term.isTrue, Term.isFalse, dedup, mkOper, simp,
      simp1, simp2, simp3, simpN, simpFold, isUnknown, isComm, c0, distrib, distribL, isOr, isAnd, distProd, distMerge, conj,
      children, flattenDNF, flatOr, flatAnd, flatEach, List.filter_cons, bne,
      hab, h1, h2, h3]
  · simp [eval, evalL, env, bv, guardSort, Val.hasSort, apply, boolsOf, hab]
  · simp [eval, evalL, env, bv, guardSort, Val.hasSort, apply, boolsOf, hab, hbd.symm]

/-- Conjunctions nested more than once stay nested, for all different variables: the result is not a
disjunction of flat conjunctions. -/
theorem toDNF_nested_violated (a b d e : String) (hab : a ≠ b) (had : a ≠ d) (hbd : b ≠ d)
    (hae : a ≠ e) (hbe : b ≠ e) (hde : d ≠ e) :
    ∃ r, toDNF c0 2 (.app .and .bool [bv a, .app .and .bool [bv b, .app .and .bool [bv d, bv e]]])
      = some r ∧ isDNF r = false := by
  refine ⟨.app .and .bool [bv a, bv b, .app .and .bool [bv d, bv e]], ?_, rfl⟩
  have h1 := hab.symm
  have h2 := had.symm
  have h3 := hbd.symm
  have h4 := hae.symm
  have h5 := hbe.symm
  have h6 := hde.symm
  simp [toDNF, elimLoop, elim, elimL, isLiteral, isVBool, isCBool, isAtom, bv, VMap.find, toNNF,
      nnf, nnfL, mkAnd, mkOr, mkNot, scan, Term.sort, isErr, Term.isTrue, Term.isFalse, dedup, mkOper, simp,
      simp1, simp2, simp3, simpN, simpFold, isUnknown, isComm, c0, distrib, distribL, isOr, isAnd, distProd, distMerge, conj,
      children, flattenDNF, flatOr, flatAnd, flatEach, List.filter_cons, bne,
    hab, hbd, hde, h1, h2, h3, h4, h5, h6]

/-- some `xor` node occurs -/
def hasXor (t : Term) : Bool := (subs t).any fun u => match u with | .app .xor _ _ => true | _ => false

/-- A shared `xor` is not eliminated the second time it is met, for all different variables. -/
theorem toDNF_shared_violated (a b d : String) (hab : a ≠ b) (had : a ≠ d) (hbd : b ≠ d) :
    ∃ r, toDNF c0 3 (.app .and .bool [.app .xor .bool [bv a, bv b],
      .app .or .bool [.app .xor .bool [bv a, bv b], bv d]]) = some r ∧ hasXor r = true := by
  have h1 := hab.symm
  have h2 := had.symm
  have h3 := hbd.symm
  refine ⟨.app .or .bool [
    .app .and .bool [bv a, .app .not .bool [bv b], .app .xor .bool [bv a, bv b]],
    .app .and .bool [bv a, .app .not .bool [bv b], bv d],
    .app .and .bool [.app .not .bool [bv a], bv b, .app .xor .bool [bv a, bv b]],
    .app .and .bool [.app .not .bool [bv a], bv b, bv d]], ?_, rfl⟩
  simp [elimXor, elimXorR, toDNF, elimLoop, elim, elimL, isLiteral, isVBool, isCBool, isAtom, bv, VMap.find, toNNF,
      nnf, nnfL, mkAnd, mkOr, mkNot, scan, Term.sort, isErr, Term.isTrue, Term.isFalse, dedup, mkOper, simp,
      simp1, simp2, simp3, simpN, simpFold, isUnknown, isComm, c0, distrib, distribL, isOr, isAnd, distProd, distMerge, conj,
      children, flattenDNF, flatOr, flatAnd, flatEach, List.filter_cons, bne,
    hab, hbd, had, h1, h2, h3]

/-- An equation between terms of an uninterpreted sort becomes `false`, for all variables. -/
theorem toDNF_sortEq_violated (i j : Nat) (hi : i ≠ 0) (s t : String) :
    ∃ r, toDNF c0 1 (.app .eq .bool [.var .var (.other i j) s, .var .var (.other i j) t]) = some r ∧
      ∃ ρ, eval ρ (.app .eq .bool [.var .var (.other i j) s, .var .var (.other i j) t])
        = some (.b true) ∧ eval ρ r = some (.b false) := by
  refine ⟨.ff, ?_, ⟨fun _ s _ => .u s "x", fun _ x => x, fun _ _ _ => none⟩, ?_, rfl⟩
  · have : isFPTerm (.var .var (.other i j) s) = false := by cases i <;> simp_all [isFPTerm]
    simp [isArithTerm, isStrTerm, isBVTerm, this, toDNF, elimLoop, elim, elimL, isLiteral, isVBool, isCBool, isAtom, bv, VMap.find, toNNF,
      nnf, nnfL, mkAnd, mkOr, mkNot, scan, Term.sort, isErr, Term.isTrue, Term.isFalse, dedup, mkOper, simp,
      simp1, simp2, simp3, simpN, simpFold, isUnknown, isComm, c0, distrib, distribL, isOr, isAnd, distProd, distMerge, conj,
      children, flattenDNF, flatOr, flatAnd, flatEach, List.filter_cons, bne]
  · simp [eval, evalL, guardSort, Val.hasSort, Srt.isNum, apply, homog, Val.sameSort, chain]

end SMT.Conv
