import Verif.Term.Cons3
/-!
# C22, C23, C24: the term constructors preserve meaning

`evalApp ρ k ts s` (in `Verif.Term.Spec`) is the SMT-LIB value of operator `k` applied to the terms
`ts` under the assignment `ρ`; `eval ρ t` is the value of the term `t`.  Every theorem has the shape

  if the application is well-typed with value `v`, the term the constructor returns has value `v`.

`Fit`/`DFit` is the only side condition about numbers: either reals are exact at the configured
precision, or no real literal is involved (and rounding an integer does not make it 0 or 1).
-/
namespace SMT.Term

/-- a configuration for the examples: no reordering, exact reals, integer logic -/
def c0 : Cfg where
  sort := id
  perm := fun _ => .refl _
  intTheory := true
  realTheory := false
  floating := false
  rnd := id
  realName := fun _ => "r"

/-- the same with `(set-logic ALL)`: neither theory flag -/
def cAll : Cfg := { c0 with intTheory := false }

/-- Boolean and integer variables for the examples -/
def bv (x : String) : Term := .var .var .bool x
/-- integer variable -/
def iv (x : String) : Term := .var .var .int x

/-- the assignment giving Boolean variables `f` and integer variables `g` -/
def env (f : String → Bool) (g : String → Rat) : Env where
  var := fun _ s x => if s = .bool then .b (f x) else .n (g x)
  lit := fun _ x => x
  fn := fun _ _ _ => none

theorem eval_bv (f : String → Bool) (g : String → Rat) (x : String) :
    eval (env f g) (bv x) = some (.b (f x)) := rfl
theorem eval_iv (f : String → Bool) (g : String → Rat) (x : String) :
    eval (env f g) (iv x) = some (.n (g x)) := rfl

/-! ### Boolean connectives (C22) -/

/-- `mkAnd` of any number of operands. -/
theorem mkAnd_sound (c : Cfg) (ρ : Env) (ts : List Term) (v : Val)
    (h : evalApp ρ .and ts .bool = some v) : eval ρ (mkAnd c ts) = some v := by
  obtain ⟨_, rfl⟩ := (evalApp_and ρ ts _ _).1 h; exact mkAnd_sound' c ρ ts _ _ h

example : evalApp (env (fun _ => true) (fun _ => 0)) .and [bv "a", .tt, bv "b", bv "a"] .bool =
    some (.b true) := by rfl

/-- `mkOr` of any number of operands. -/
theorem mkOr_sound (c : Cfg) (ρ : Env) (ts : List Term) (v : Val)
    (h : evalApp ρ .or ts .bool = some v) : eval ρ (mkOr c ts) = some v := by
  obtain ⟨_, rfl⟩ := (evalApp_or ρ ts _ _).1 h; exact mkOr_sound' c ρ ts _ _ h

example : evalApp (env (fun x => x == "a") (fun _ => 0)) .or [bv "b", .ff, bv "a"] .bool =
    some (.b true) := by decide

/-- `mkXor` of any number of operands. -/
theorem mkXor_sound (c : Cfg) (ρ : Env) (ts : List Term) (v : Val)
    (h : evalApp ρ .xor ts .bool = some v) : eval ρ (mkXor c ts) = some v := by
  obtain ⟨_, rfl⟩ := (evalApp_xor ρ ts _ _).1 h; exact mkXor_sound' c ρ ts _ _ h

example : evalApp (env (fun x => x == "a") (fun _ => 0)) .xor [bv "b", .ff, bv "a", .tt] .bool =
    some (.b false) := by decide

/-- `mkImplies` of two or more operands, right associative. -/
theorem mkImplies_sound (c : Cfg) (ρ : Env) (ts : List Term) (v : Val)
    (h : evalApp ρ .implies ts .bool = some v) : eval ρ (mkImplies c ts) = some v := by
  obtain ⟨_, _, rfl⟩ := (evalApp_implies ρ ts _ _).1 h; exact mkImplies_sound' c ρ ts _ _ h

example : evalApp (env (fun x => x == "a") (fun _ => 0)) .implies [bv "a", .tt, bv "b"] .bool =
    some (.b false) := by decide

/-- `mkIte`, branches of any sort. -/
theorem mkIte_sound (c : Cfg) (ρ : Env) (a x y : Term) (s : Srt) (v : Val)
    (h : evalApp ρ .ite [a, x, y] s = some v) : eval ρ (mkIte c a x y) = some v :=
  mkIte_sound' c ρ a x y s v h

example : evalApp (env (fun _ => false) (fun _ => 7)) .ite [bv "a", .cint 3, iv "x"] .int =
    some (.n 7) := by decide

/-- `mkNot` of a term whose top node, if it is a relation, is binary. -/
theorem mkNot_sound_partial (c : Cfg) (ρ : Env) (t : Term) (v : Val) (hf : DFit c t)
    (hb : binTop t = true) (h : evalApp ρ .not [t] .bool = some v) :
    eval ρ (mkNot c t) = some v := by
  obtain ⟨u, hu, hb', rfl⟩ := (evalApp_not ρ _ _ _).1 h
  simp at hu; subst hu
  exact mkNot_sound' c ρ t hf hb hb'

example : DFit c0 (.app .lt .bool [iv "x", .cint 3]) ∧ binTop (.app .lt .bool [iv "x", .cint 3]) ∧
    evalApp (env (fun _ => false) (fun _ => 7)) .not [.app .lt .bool [iv "x", .cint 3]] .bool =
      some (.b true) := ⟨.inl fun _ => rfl, rfl, by decide⟩

/-- `mkEq(l, r)` of operands of any common sort. -/
theorem mkEq2_sound (c : Cfg) (ρ : Env) (l r : Term) (v : Val) (fl : DFit c l) (fr : DFit c r)
    (bl : binRel l = true) (br : binRel r = true)
    (h : evalApp ρ .eq [l, r] .bool = some v) : eval ρ (mkEq2 c l r) = some v := by
  obtain ⟨_, hev, hs, rfl⟩ := (evalApp_eq ρ _ _ _).1 h
  rw [mkEq2_sound' c ρ _ l r (Nat.le_refl _) fl fr bl br (hev l (by simp)) (hev r (by simp))
    (hs l (by simp) r (by simp))]
  congr 2; rw [decide_eq_decide]; simp; grind

example : evalApp (env (fun x => x == "a") (fun _ => 7)) .eq
    [.app .not .bool [bv "a"], .app .not .bool [bv "b"]] .bool = some (.b false) := by decide

/-- `mkEq` of a list: exact for two operands, and for any number of operands none of which is the
literal `true`. -/
theorem mkEqV_sound_partial (c : Cfg) (ρ : Env) (ts : List Term) (v : Val)
    (hf : ∀ t ∈ ts, DFit c t) (hb : ∀ t ∈ ts, binRel t = true)
    (h2 : ts.length = 2 ∨ .tt ∉ ts)
    (h : evalApp ρ .eq ts .bool = some v) : eval ρ (mkEqV c ts) = some v :=
  mkEqV_sound' c ρ ts _ v hf hb h2 h

example : evalApp (env (fun x => x == "a") (fun _ => 7)) .eq [iv "x", .cint 7, iv "y"] .bool =
    some (.b true) := by decide

/-- `(= true p q)` becomes `(= p q)`: whatever the variables `p` and `q`, the assignment making both
false gives true instead of false. -/
theorem mkEqV_true_violated (p q : String) :
    ∃ ρ, evalApp ρ .eq [.tt, bv p, bv q] .bool = some (.b false) ∧
      eval ρ (mkEqV c0 [.tt, bv p, bv q]) = some (.b true) := by
  refine ⟨env (fun _ => false) (fun _ => 0), rfl, ?_⟩
  rw [show mkEqV c0 [.tt, bv p, bv q] = .app .eq .bool [bv p, bv q] by
    rw [mkEqV.eq_def]; rfl]
  rfl

/-- `mkDistinct(l, r)` when both operands carry the same number of leading negations. -/
theorem mkDistinct2_sound_partial (c : Cfg) (ρ : Env) (l r : Term) (v : Val) (fl : DFit c l)
    (fr : DFit c r) (bl : binRel l = true) (br : binRel r = true) (hd : notDepth l = notDepth r)
    (h : evalApp ρ .distinct [l, r] .bool = some v) : eval ρ (mkDistinct2 c l r) = some v := by
  obtain ⟨_, hev, hs, rfl⟩ := (evalApp_distinct ρ _ _ _).1 h
  rw [mkDistinct2_sound' c ρ _ l r (Nat.le_refl _) fl fr bl br hd (hev l (by simp))
    (hev r (by simp)) (hs l (by simp) r (by simp))]
  congr 2; rw [decide_eq_decide]; simp

example : evalApp (env (fun x => x == "a") (fun _ => 7)) .distinct
    [.app .not .bool [bv "a"], .app .not .bool [bv "b"]] .bool = some (.b true) := by decide

/-- `(distinct (not p) q)` over any two Boolean variables returns the negation of the right value,
under every assignment. -/
theorem mkDistinct2_not_violated (p q : String) (f : String → Bool) (g : String → Rat) :
    ∃ x, evalApp (env f g) .distinct [.app .not .bool [bv p], bv q] .bool = some (.b x) ∧
      eval (env f g) (mkDistinct2 c0 (.app .not .bool [bv p]) (bv q)) = some (.b !x) := by
  refine ⟨decide ((!f p) ≠ f q), ?_, ?_⟩
  · rw [evalApp_distinct]
    have e1 : eval (env f g) (.app .not .bool [bv p]) = some (.b (!f p)) := rfl
    have e2 := eval_bv f g q
    refine ⟨by simp, ?_, ?_, ?_⟩
    · simp [Ev, e1, e2]
    · simp [val, e1, e2, Val.sameSort]
    · simp [val, e1, e2]
  · rw [show mkDistinct2 c0 (.app .not .bool [bv p]) (bv q) =
        .app .distinct .bool [bv p, bv q] by
      rw [mkDistinct2.eq_def]; simp [Term.sort, bv, mismatch_refl]
      rw [mkDistinct2.eq_def]; simp [Term.sort, mismatch_refl]; rfl]
    cases h1 : f p <;> cases h2 : f q <;> simp [env, apply, homog, Val.sameSort, pairw, guardSort,
      Val.hasSort, evalL, eval, bv, h1, h2]

/-- `mkDistinct` of a list: exact for two operands, and for any number of operands none of which is
the literal `false`. -/
theorem mkDistinctV_sound_partial (c : Cfg) (ρ : Env) (ts : List Term) (v : Val)
    (hf : ∀ t ∈ ts, Fit c t) (h2 : ts.length = 2 ∨ .ff ∉ ts)
    (h : evalApp ρ .distinct ts .bool = some v) : eval ρ (mkDistinctV c ts) = some v :=
  mkDistinctV_sound' c ρ ts _ v hf h2 h

example : evalApp (env (fun x => x == "a") (fun x => if x = "x" then 1 else 2)) .distinct
    [iv "x", .cint 7, iv "y"] .bool = some (.b true) := by decide

/-- `(distinct false p q)` becomes `(distinct p q)`: with `p` true and `q` false it is true, although
two of the three operands are equal. -/
theorem mkDistinctV_false_violated (p q : String) (hpq : p ≠ q) :
    ∃ ρ, evalApp ρ .distinct [.ff, bv p, bv q] .bool = some (.b false) ∧
      eval ρ (mkDistinctV c0 [.ff, bv p, bv q]) = some (.b true) := by
  refine ⟨env (fun x => x == p) (fun _ => 0), ?_, ?_⟩
  · simp [evalApp, evalL, eval, env, bv, apply, homog, Val.sameSort, pairw, guardSort, Val.hasSort,
      Ne.symm hpq]
  · rw [show mkDistinctV c0 [.ff, bv p, bv q] = .app .distinct .bool [bv p, bv q] by rfl]
    simp [evalL, eval, env, bv, apply, homog, Val.sameSort, pairw, guardSort, Val.hasSort,
      Ne.symm hpq]

/-! ### negation of atoms (C23) -/

/-- Negating a binary arithmetic comparison gives the complementary comparison (no `not` node), with
the negated value. -/
theorem mkNot_cmp (c : Cfg) (ρ : Env) (k : Kind) (hk : isCmp k = true) (a b : Term) (x : Bool)
    (hf : DFit c (.app k .bool [a, b])) (h : eval ρ (.app k .bool [a, b]) = some (.b x)) :
    eval ρ (mkNot c (.app k .bool [a, b])) = some (.b !x) := by
  have hb : binTop (.app k .bool [a, b]) = true := by cases k <;> simp [isCmp] at hk <;> rfl
  rw [mkNot_sound' c ρ _ hf hb ⟨_, h⟩, bval_of h]

example : eval (env (fun _ => false) (fun _ => 7)) (.app .ge .bool [iv "x", .cint 3]) =
    some (.b true) := by decide

/-- Negating a binary equation of numbers or strings gives a `distinct`, with the negated value; same
for a binary `distinct` of numbers. -/
theorem mkNot_eq2_partial (c : Cfg) (ρ : Env) (k : Kind) (hk : k = .eq ∨ k = .distinct) (a b : Term)
    (x : Bool) (hf : DFit c (.app k .bool [a, b])) (h : eval ρ (.app k .bool [a, b]) = some (.b x)) :
    eval ρ (mkNot c (.app k .bool [a, b])) = some (.b !x) := by
  have hb : binTop (.app k .bool [a, b]) = true := by rcases hk with rfl | rfl <;> rfl
  rw [mkNot_sound' c ρ _ hf hb ⟨_, h⟩, bval_of h]

example : eval (env (fun _ => false) (fun _ => 7)) (.app .distinct .bool [iv "x", .cint 3]) =
    some (.b true) := by decide

/-- `(not (= x y z))` becomes `(distinct x y z)`, over any three different integer variables: with
`x = y ≠ z` the negation is true but the returned term is false. -/
theorem mkNot_eq3_violated (x y z : String) (_hxy : x ≠ y) (hxz : x ≠ z) (hyz : y ≠ z) :
    ∃ ρ, evalApp ρ .not [.app .eq .bool [iv x, iv y, iv z]] .bool = some (.b true) ∧
      eval ρ (mkNot c0 (.app .eq .bool [iv x, iv y, iv z])) = some (.b false) := by
  refine ⟨env (fun _ => false) (fun a => if a = z then 1 else 0), ?_, ?_⟩
  · simp [evalApp, evalL, eval, env, iv, apply, homog, Val.sameSort, chain, guardSort, Val.hasSort,
      hxz, hyz]
  · rw [show mkNot c0 (.app .eq .bool [iv x, iv y, iv z]) = .app .distinct .bool [iv x, iv y, iv z] by
      rw [mkNot.eq_def]; rfl]
    simp [evalL, eval, env, iv, apply, homog, Val.sameSort, pairw, guardSort, Val.hasSort, hxz, hyz]

/-- `(not (distinct x y z))` becomes `(= x y z)`: with `x = y ≠ z` the negation is true but the
returned term is false. -/
theorem mkNot_distinct3_violated (x y z : String) (_hxy : x ≠ y) (hxz : x ≠ z) (hyz : y ≠ z) :
    ∃ ρ, evalApp ρ .not [.app .distinct .bool [iv x, iv y, iv z]] .bool = some (.b true) ∧
      eval ρ (mkNot c0 (.app .distinct .bool [iv x, iv y, iv z])) = some (.b false) := by
  refine ⟨env (fun _ => false) (fun a => if a = z then 1 else 0), ?_, ?_⟩
  · simp [evalApp, evalL, eval, env, iv, apply, homog, Val.sameSort, pairw, guardSort, Val.hasSort,
      hxz, hyz]
  · rw [show mkNot c0 (.app .distinct .bool [iv x, iv y, iv z]) = .app .eq .bool [iv x, iv y, iv z] by
      rw [mkNot.eq_def]; simp [Term.sort, negatable, iv, isArithTerm]; rw [mkEqV.eq_def]; rfl]
    simp [evalL, eval, env, iv, apply, homog, Val.sameSort, chain, guardSort, Val.hasSort, hxz, hyz]

/-! ### arithmetic (C24) -/

/-- `mkAdd` of any number of operands, when the logic names an arithmetic theory (or some operand is
not a zero literal). -/
theorem mkAdd_sound (c : Cfg) (ρ : Env) (ts : List Term) (s : Srt) (v : Val)
    (hf : ∀ t ∈ ts, Fit c t)
    (ht : c.intTheory = true ∨ c.realTheory = true ∨ ∃ t ∈ ts, isZero c t = false)
    (h : evalApp ρ .add ts s = some v) : eval ρ (mkAdd c ts) = some v :=
  mkAdd_sound' c ρ ts s v hf ht h

example : evalApp (env (fun _ => false) (fun _ => 7)) .add [iv "x", .cint 0, .cint 3] .int =
    some (.n 10) := by
  simp [evalApp, evalL, eval, iv, env, apply, numsOf, guardSort, Val.hasSort]; grind

/-- Without a theory (`(set-logic ALL)`), a sum of zeros is the `unknown` node. -/
theorem mkAdd_zeros_violated : mkAdd cAll [.cint 0, .cint 0] = .unknown := by rfl

/-- `mkMul` of any number of operands, when the logic names an arithmetic theory (or no operand is a
zero literal and some operand is not a one). -/
theorem mkMul_sound_partial (c : Cfg) (ρ : Env) (ts : List Term) (s : Srt) (v : Val)
    (hf : ∀ t ∈ ts, Fit c t)
    (ht : c.intTheory = true ∨ c.realTheory = true ∨
      ((∀ t ∈ ts, isZero c t = false) ∧ ∃ t ∈ ts, isOne c t = false))
    (h : evalApp ρ .mul ts s = some v) : eval ρ (mkMul c ts) = some v :=
  mkMul_sound' c ρ ts s v hf ht h

example : evalApp (env (fun _ => false) (fun _ => 7)) .mul [iv "x", .cint 1, .cint 3] .int =
    some (.n 21) := by
  simp [evalApp, evalL, eval, iv, env, apply, numsOf, guardSort, Val.hasSort]; grind

/-- Without a theory, `(* 0 t)` is `t` for every term `t` that is not the literal 0 or 1: wrong unless
`t` is 0. -/
theorem mkMul_zero_violated (t : Term) (hs : t.sort = .int) (hz : isZero cAll t = false)
    (ho : isOne cAll t = false) : mkMul cAll [.cint 0, t] = t := by
  have h0 : isZero cAll (.cint 0) = true := by rfl
  have he : t.isErr = false := by cases t <;> simp_all [isErr, Term.sort]
  have hi : cAll.intTheory = false := rfl
  have hr : cAll.realTheory = false := rfl
  have hb : ∀ u, u.sort.isNum = true → badSort (getSort [.cint 0, t]) u = false := by
    intro u hu
    have hg : getSort [.cint 0, t] = some .int := by
      simp only [getSort, List.any_cons, hs]; rfl
    rw [hg]; exact mismatch_num hu rfl
  have h1 := hb (.cint 0) rfl
  have h2 := hb t (by rw [hs]; rfl)
  have h3 : (Term.cint 0).isErr = false := rfl
  simp only [mkMul, scan, h0, h1, h2, h3, he, hi, hr, hz, ho, Bool.false_eq_true, if_false, if_true]

example : (iv "x").sort = .int ∧ isZero cAll (iv "x") = false ∧ isOne cAll (iv "x") = false :=
  ⟨rfl, rfl, rfl⟩

/-- `mkSub` of two or more operands, left associative. -/
theorem mkSub_sound (c : Cfg) (ρ : Env) (ts : List Term) (s : Srt) (v : Val)
    (hf : ∀ t ∈ ts, Fit c t)
    (h : evalApp ρ .sub ts s = some v) : eval ρ (mkSub c ts) = some v :=
  mkSub_sound' c ρ ts s v hf h

example : evalApp (env (fun _ => false) (fun _ => 7)) .sub [iv "x", .cint 1, .cint 3] .int =
    some (.n 3) := by
  simp [evalApp, evalL, eval, iv, env, apply, numsOf, guardSort, Val.hasSort]; grind

/-- `mkNeg`, and `mkSub` of one operand. -/
theorem mkNeg_sound (c : Cfg) (ρ : Env) (t : Term) (s : Srt) (v : Val) (hf : Fit c t)
    (h : evalApp ρ .neg [t] s = some v) :
    eval ρ (mkNeg c t) = some v ∧ eval ρ (mkSub c [t]) = some v := by
  obtain ⟨u, hu, hn, rfl⟩ := (evalApp_neg ρ _ _ _).1 h
  simp at hu; subst hu
  exact ⟨(mkNeg_right hf hn).1, (mkNeg_right hf hn).1⟩

example : evalApp (env (fun _ => false) (fun _ => 7)) .neg [iv "x"] .int = some (.n (-7)) := by
  decide

/-- `mkLe`, `mkLt`, `mkGe`, `mkGt` of two operands. -/
theorem mkCmp2_sound (c : Cfg) (ρ : Env) (l r : Term) (v : Val) (fl : Fit c l) (fr : Fit c r) :
    (evalApp ρ .le [l, r] .bool = some v → eval ρ (mkLe2 c l r) = some v) ∧
    (evalApp ρ .lt [l, r] .bool = some v → eval ρ (mkLt2 c l r) = some v) ∧
    (evalApp ρ .ge [l, r] .bool = some v → eval ρ (mkGe2 c l r) = some v) ∧
    (evalApp ρ .gt [l, r] .bool = some v → eval ρ (mkGt2 c l r) = some v) := by
  have key : ∀ k refl, isCmp k = true → refl = ofBool (cmpRel k 0 0) →
      evalApp ρ k [l, r] .bool = some v → eval ρ (mkCmp2 c k refl l r) = some v := by
    intro k refl hk hr h
    obtain ⟨_, hn, rfl⟩ := (evalApp_cmp' ρ _ _ _ k hk).1 h
    rw [mkCmp2_sound' c ρ k hk refl l r hr fl fr (hn l (by simp)) (hn r (by simp))]
    simp [chain]
  exact ⟨key _ _ rfl (by simp [cmpRel, ofBool]), key _ _ rfl (by simp [cmpRel, ofBool]),
    key _ _ rfl (by simp [cmpRel, ofBool]), key _ _ rfl (by simp [cmpRel, ofBool])⟩

/-- `mkLe`, `mkLt`, `mkGe`, `mkGt` of any number of operands: the chain of comparisons. -/
theorem mkCmpV_sound (c : Cfg) (ρ : Env) (ts : List Term) (v : Val) (hf : ∀ t ∈ ts, Fit c t) :
    (evalApp ρ .le ts .bool = some v → eval ρ (mkLeV c ts) = some v) ∧
    (evalApp ρ .lt ts .bool = some v → eval ρ (mkLtV c ts) = some v) ∧
    (evalApp ρ .ge ts .bool = some v → eval ρ (mkGeV c ts) = some v) ∧
    (evalApp ρ .gt ts .bool = some v → eval ρ (mkGtV c ts) = some v) := by
  have key : ∀ k refl, isCmp k = true → refl = ofBool (cmpRel k 0 0) →
      evalApp ρ k ts .bool = some v → eval ρ (mkCmpV c (mkCmp2 c k refl) ts) = some v := by
    intro k refl hk hr h
    exact mkCmpV_sound' c ρ k hk _
      (fun l r fl fr hl hr' => mkCmp2_sound' c ρ k hk refl l r hr fl fr hl hr') ts _ v hf h
  exact ⟨key _ _ rfl (by simp [cmpRel, ofBool]), key _ _ rfl (by simp [cmpRel, ofBool]),
    key _ _ rfl (by simp [cmpRel, ofBool]), key _ _ rfl (by simp [cmpRel, ofBool])⟩

example : evalApp (env (fun _ => false) (fun _ => 7)) .lt [.cint 1, iv "x", .cint 9, .cint 10] .bool =
    some (.b true) := by decide

example : Fit c0 (.cint 3) := .inl fun _ => rfl

end SMT.Term
