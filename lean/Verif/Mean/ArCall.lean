import Verif.Mean.BvCall
import Verif.Mean.ArSort

/-! # C83: the call for an arithmetic operator -/

namespace SMT.Mean
open SMT SMT.Text SMT.Kinds SMT.Sorts SMT.Parse SMT.Leaf SMT.Term SMT.Eval

set_option linter.unusedSimpArgs false
set_option linter.unusedVariables false

section
variable {r : Bool} {ρ : Env} {G : Sig} {v : Val} {c : SMT.Cfg} {rest : Ctors SMT.Term} {rlit : Leaf.Lit → Res SMT.Term}

theorem eval_arapp {k : Kind} (hk : ((∃ i, k = .arith i) ∧ ∃ q, v = .n q) ∨ ∃ i, k = .atom i) {s : SMT.Srt} {ts : List SMT.Term} {vs : List Val}
    (h : evalL ρ ts = some vs) (hf : ρ.fn k s vs = some v) (hs : v.hasSort s = true) : eval ρ (.app k s ts) = some v := by
  rw [eval_app]
  refine guardSort_some.2 ⟨?_, hs⟩
  unfold evalApp
  rw [h]
  rcases hk with ⟨⟨i, rfl⟩, q, rfl⟩ | ⟨i, rfl⟩
  · simp only [apply, hf]
  · exact hf

theorem num_of_sort {σ : SMT.Srt} (hs : σ = .int ∨ σ = .real) (h : v.hasSort σ = true) : ∃ q, v = .n q := by
  cases v with
  | n q => exact ⟨q, rfl⟩
  | b x => rcases hs with rfl | rfl <;> simp [Val.hasSort] at h
  | u s x => rcases hs with rfl | rfl <;> simp [Val.hasSort, Srt.isNum] at h

theorem std_arapp {k : Kind} (hk : (∃ i, k = .arith i) ∨ ∃ i, k = .atom i) {s : SMT.Srt} {ts : List SMT.Term}
    (h : ∀ t ∈ ts, Std r t = true) : Std r (.app k s ts) = true := by
  rw [std_app]
  refine ⟨?_, h⟩
  rcases hk with ⟨i, rfl⟩ | ⟨i, rfl⟩ <;> rfl

/-- the result of a constructor: the value, the shape, that it is not a constant if an operand is none, and its sort (an integer constant
has its own) -/
def MadeAr (ρ : Env) (r : Bool) (o : List Char) (us : List SMT.Term) (v : Val) (m : Res SMT.Term) : Prop :=
  ∃ t, m = .ok t ∧ eval ρ t = some v ∧ Std r t = true ∧ ((∃ u ∈ us, u.isCBV = false ∧ u.isCReal = false) → t.isCBV = false ∧ t.isCReal = false) ∧
    (∀ d, (o, d) ∈ resTable → t.sort = toSrt d ∨ t.sort = .ior) ∧ ((∃ u ∈ us, u.isCReal = false) → ∀ d, (o, d) ∈ resTable → t.sort = toSrt d) ∧
    (o = cs!"abs" → ∀ u ∈ us, t.sort = u.sort)

theorem notCInt {t : SMT.Term} (h : t.isCReal = false) : t.isCInt = false := by cases t <;> simp_all [isCReal, isCInt]

theorem simpDivInt_none (c : SMT.Cfg) {a b : SMT.Term} (h : a.isCReal = false ∨ b.isCReal = false) : simpDivInt c a b = .ok .unknown := by
  cases a <;> cases b <;> simp_all [simpDivInt, isCReal]

theorem simpDivReal_none (c : SMT.Cfg) {a b : SMT.Term} (h : a.isCReal = false ∨ b.isCReal = false) : simpDivReal c a b = .ok .unknown := by
  cases a <;> cases b <;> simp_all [simpDivReal, isCReal]

theorem simpMod_none {a b : SMT.Term} (h : a.isCReal = false ∨ b.isCReal = false) : simpMod a b = .ok .unknown := by
  cases a <;> cases b <;> simp_all [simpMod, isCReal]

theorem op_arith {k : K} {f : List SMT.Term → Res SMT.Term} (h : ∀ rest ts, op c rest k ts = f ts) (ts : List SMT.Term) :
    (ctors (declared c G.vars G.funs) rest rlit).op k ts = f ts := h _ ts

/-- the node is made -/
theorem made_node {o : List Char} {k : Kind} {σ : SMT.Srt} (hk : ((∃ i, k = .arith i) ∧ (σ = .int ∨ σ = .real)) ∨ ∃ i, k = .atom i)
    {us : List SMT.Term} {vs : List Val} (hu : evalL ρ us = some vs) (hf : ρ.fn k σ vs = some v) (hv : v.hasSort σ = true) (hst : ∀ t ∈ us, Std r t = true)
    (hd : ∀ d, (o, d) ∈ resTable → toSrt d = σ) (ho : o ≠ cs!"abs") : MadeAr ρ r o us v (.ok (.app k σ us)) :=
  ⟨_, rfl, eval_arapp (hk.imp (fun h => ⟨h.1, num_of_sort h.2 hv⟩) id) hu hf hv, std_arapp (hk.imp And.left id) hst, fun _ => ⟨rfl, rfl⟩, fun d h => .inl (hd d h).symm,
    fun _ d h => (hd d h).symm, fun h => absurd h ho⟩

theorem toReal_fit {t : SMT.Term} (hf : Fit c t) {n : String} {q : Rat} (h : t = .creal n q) : toReal c t = q := by
  subst h
  exact hf.exact q

theorem call_abs (hG : SigOk G) (hc : NumOk r c) (hI : InterpretsAr ρ) {a : SMT.Term} {q : Rat} {v : Val} (ha : eval ρ a = some (.n q))
    (hst : Std r a = true) (happ : ArApp cs!"abs" [.n q] v) (hv : v = .n (if q < 0 then -q else q)) :
    MadeAr ρ r cs!"abs" [a] v (callOper (ctors (declared c G.vars G.funs) rest rlit) cs!"abs" [] [a]) := by
  rw [call_slow (k := .arith 3) hG (by decide) (by decide) (by decide) (d := .sel .ABS [.p 0]) (by decide +kernel), sel1 rfl]
  show MadeAr ρ r cs!"abs" [a] v (mkAbs c a)
  have hsort := num_sort ha
  have hp : (!isIntParam a && !isRealParam a) = false := by
    rcases hsort with h | h | h <;> simp [isIntParam, isRealParam, h]
  unfold mkAbs
  rw [hp]
  simp only [Bool.false_eq_true, if_false]
  have hnr : ∀ d, (cs!"abs", d) ∈ resTable → False := by intro d h; simp [resTable] at h
  have mk : ∀ t, arOper1 (simpAbs c) a.sort .ABS a = t → eval ρ t = some v → Std r t = true →
      (a.isCReal = false → t.isCBV = false ∧ t.isCReal = false) → t.sort = a.sort →
      MadeAr ρ r cs!"abs" [a] v (.ok (arOper1 (simpAbs c) a.sort .ABS a)) := by
    intro t e h1 h2 h3 h4
    rw [e]
    exact ⟨t, rfl, h1, h2, fun ⟨u, hu, hc1, hc2⟩ => by simp at hu; subst hu; exact h3 hc2, fun d h => (hnr d h).elim, fun _ d h => (hnr d h).elim, fun _ u hu => by simp at hu; subst hu; exact h4⟩
  by_cases hr : a.isCReal = true
  · cases a <;> simp [isCReal] at hr
    · rename_i i
      simp only [eval, Option.some.injEq, Val.n.injEq] at ha
      subst ha
      by_cases hi : i < 0
      · refine mk (.cint (-i)) (by simp [arOper1, simpAbs, isCInt, intVal, hi, isUnknown]) ?_ (by simp [Std, leafOk]) (by simp [isCReal]) rfl
        rw [hv, if_pos (by exact_mod_cast hi)]
        simp [eval]
      · refine mk (.cint i) (by simp [arOper1, simpAbs, isCInt, intVal, hi, isUnknown]) ?_ (by simp [Std, leafOk]) (by simp [isCReal]) rfl
        rw [hv, if_neg (by exact_mod_cast hi)]
        simp [eval]
    · rename_i n x
      have hx : toReal c (.creal n x) = x := toReal_fit (std_fit hc hst) rfl
      simp only [eval, Option.some.injEq, Val.n.injEq] at ha
      subst ha
      by_cases hi : x < 0
      · refine mk (mkConstReal c (-x)) (by simp [arOper1, simpAbs, isCInt, isCReal, hx, hi, isUnknown, mkConstReal]) ?_ ?_ (by simp [isCReal]) rfl
        · rw [hv, if_pos hi]; simp [eval, mkConstReal]
        · simpa [Std, leafOk, mkConstReal] using hst
      · refine mk (.creal n x) (by simp [arOper1, simpAbs, isCInt, isCReal, hx, hi, isUnknown]) ?_ hst (by simp [isCReal]) rfl
        rw [hv, if_neg hi]; simp [eval]
  · have hr : a.isCReal = false := by simpa using hr
    refine mk (.app (.arith 3) a.sort [a]) (by simp [arOper1, simpAbs, notCInt hr, hr, isUnknown, arKind]) ?_ (std_arapp (.inl ⟨3, rfl⟩) (by simpa using hst))
      (fun _ => ⟨rfl, rfl⟩) rfl
    have hvs : v.hasSort a.sort = true := by
      rw [hv]; rcases hsort with h | h | h <;> rw [h] <;> rfl
    exact eval_arapp (.inl ⟨⟨3, rfl⟩, _, hv⟩) (evalL_1 ha) (hI _ _ _ _ _ (by decide) happ hvs) hvs

/-- some operand is no constant -/
theorem call_ar_var (hG : SigOk G) (hc : NumOk r c) (hI : InterpretsAr ρ) {o : List Char} {vs : List Val} {v : Val} (happ : ArApp o vs v ∨ ByZero ρ o vs v)
    {us : List SMT.Term} (hu : evalL ρ us = some vs) (hst : ∀ t ∈ us, Std r t = true)
    (hvar : o ∈ foldOps → ∃ u ∈ us, u.isCReal = false) (hint : o ∈ intOps → ∀ u ∈ us, u.sort = .int ∨ u.sort = .ior)
    (hreal : o ∈ realOps → ∀ u ∈ us, u.sort = .real ∨ u.sort = .ior) :
    MadeAr ρ r o us v (callOper (ctors (declared c G.vars G.funs) rest rlit) o [] us) := by
  have one : ∀ {a b : SMT.Term}, (∃ u ∈ [a, b], u.isCReal = false) → a.isCReal = false ∨ b.isCReal = false := by
    rintro a b ⟨u, hu, h⟩
    simp only [List.mem_cons, List.not_mem_nil, or_false] at hu
    rcases hu with rfl | rfl
    · exact .inl h
    · exact .inr h
  have pint : ∀ {u : SMT.Term}, (u.sort = .int ∨ u.sort = .ior) → isIntParam u = true := by
    rintro u (h | h) <;> simp [isIntParam, h]
  have preal : ∀ {u : SMT.Term}, (u.sort = .real ∨ u.sort = .ior) → isRealParam u = true := by
    rintro u (h | h) <;> simp [isRealParam, h]
  -- what each operator makes of its operands
  have div : ∀ {a b : SMT.Term}, us = [a, b] → o = cs!"div" → ρ.fn (.arith 0) .int vs = some v → v.hasSort .int = true →
      MadeAr ρ r o us v (callOper (ctors (declared c G.vars G.funs) rest rlit) o [] us) := by
    rintro a b rfl rfl hf hv
    rw [call_slow (k := .arith 0) hG (by decide) (by decide) (by decide) (d := .sel .DIV_INT [.p 0, .p 1]) (by decide +kernel), sel2 rfl]
    show MadeAr ρ r cs!"div" [a, b] v (mkDivInt c a b)
    unfold mkDivInt arOper2
    rw [pint (hint (by decide) a (by simp)), pint (hint (by decide) b (by simp)), simpDivInt_none c (one (hvar (by decide)))]
    exact made_node (.inl ⟨⟨0, rfl⟩, by simp⟩) hu hf hv hst (by intro d h; simp [resTable] at h; subst h; rfl) (by decide)
  have mod : ∀ {a b : SMT.Term}, us = [a, b] → o = cs!"mod" → ρ.fn (.arith 1) .int vs = some v → v.hasSort .int = true →
      MadeAr ρ r o us v (callOper (ctors (declared c G.vars G.funs) rest rlit) o [] us) := by
    rintro a b rfl rfl hf hv
    rw [call_slow (k := .arith 1) hG (by decide) (by decide) (by decide) (d := .sel .MOD [.p 0, .p 1]) (by decide +kernel), sel2 rfl]
    show MadeAr ρ r cs!"mod" [a, b] v (mkMod a b)
    unfold mkMod arOper2
    rw [pint (hint (by decide) a (by simp)), pint (hint (by decide) b (by simp)), simpMod_none (one (hvar (by decide)))]
    exact made_node (.inl ⟨⟨1, rfl⟩, by simp⟩) hu hf hv hst (by intro d h; simp [resTable] at h; subst h; rfl) (by decide)
  have quot : ∀ {a b : SMT.Term}, us = [a, b] → o = cs!"/" → ρ.fn (.arith 2) .real vs = some v → v.hasSort .real = true →
      MadeAr ρ r o us v (callOper (ctors (declared c G.vars G.funs) rest rlit) o [] us) := by
    rintro a b rfl rfl hf hv
    rw [call_slow (k := .arith 2) hG (by decide) (by decide) (by decide) (d := .sel .DIV_REAL [.p 0, .p 1]) (by decide +kernel), sel2 rfl]
    show MadeAr ρ r cs!"/" [a, b] v (mkDivReal c a b)
    unfold mkDivReal arOper2
    rw [preal (hreal (by decide) a (by simp)), preal (hreal (by decide) b (by simp)), simpDivReal_none c (one (hvar (by decide)))]
    exact made_node (.inl ⟨⟨2, rfl⟩, by simp⟩) hu hf hv hst (by intro d h; simp [resTable] at h; subst h; rfl) (by decide)
  have lone : ∀ {a : SMT.Term}, (∃ u ∈ [a], u.isCReal = false) → a.isCReal = false := by
    rintro a ⟨u, hu, h⟩
    simp at hu; subst hu; exact h
  rcases happ with happ | ⟨k, σ, q, ho, rfl, hf, hv⟩
  · have happ' := happ
    cases happ with
    | div a b q z h1 h2 h3 =>
      obtain ⟨x, y, e, _⟩ := evalL_inv2 hu
      exact div e rfl (hI _ _ _ _ _ (by decide) happ' rfl) rfl
    | mod a b q z h1 h2 h3 =>
      obtain ⟨x, y, e, _⟩ := evalL_inv2 hu
      exact mod e rfl (hI _ _ _ _ _ (by decide) happ' rfl) rfl
    | quot a b q h1 h2 =>
      obtain ⟨x, y, e, _⟩ := evalL_inv2 hu
      exact quot e rfl (hI _ _ _ _ _ (by decide) happ' rfl) rfl
    | absPos a h =>
      obtain ⟨x, rfl, hx⟩ := evalL_inv1 hu
      exact call_abs hG hc hI hx (hst x (by simp)) happ' (by rw [if_neg (Rat.not_lt.2 h)])
    | absNeg a h =>
      obtain ⟨x, rfl, hx⟩ := evalL_inv1 hu
      exact call_abs hG hc hI hx (hst x (by simp)) happ' (by rw [if_pos h])
    | toReal a =>
      obtain ⟨x, rfl, hx⟩ := evalL_inv1 hu
      have hr := lone (hvar (by decide))
      rw [call_slow (k := .arith 4) hG (by decide) (by decide) (by decide) (d := .sel .TO_REAL [.p 0]) (by decide +kernel), sel1 rfl]
      show MadeAr ρ r cs!"to_real" [x] _ (mkToReal c x)
      unfold mkToReal arOper1
      rw [pint (hint (by decide) x (by simp))]
      simp only [simpToReal, notCInt hr, hr, Bool.not_true, Bool.false_eq_true, if_false, isUnknown, if_true]
      exact made_node (.inl ⟨⟨4, rfl⟩, by simp⟩) hu (hI _ _ _ _ _ (by decide) happ' rfl) rfl hst (by intro d h; simp [resTable] at h; subst h; rfl) (by decide)
    | toInt a z h1 h2 =>
      obtain ⟨x, rfl, hx⟩ := evalL_inv1 hu
      have hr := lone (hvar (by decide))
      rw [call_slow (k := .arith 5) hG (by decide) (by decide) (by decide) (d := .sel .TO_INT [.p 0]) (by decide +kernel), sel1 rfl]
      show MadeAr ρ r cs!"to_int" [x] _ (mkToInt c x)
      unfold mkToInt arOper1
      rw [preal (hreal (by decide) x (by simp))]
      simp only [simpToInt, notCInt hr, hr, Bool.not_true, Bool.false_eq_true, if_false, isUnknown, if_true]
      exact made_node (.inl ⟨⟨5, rfl⟩, by simp⟩) hu (hI _ _ _ _ _ (by decide) happ' rfl) rfl hst (by intro d h; simp [resTable] at h; subst h; rfl) (by decide)
    | isInt a =>
      obtain ⟨x, rfl, hx⟩ := evalL_inv1 hu
      have hr := lone (hvar (by decide))
      rw [call_slow (k := .atom 8) hG (by decide) (by decide) (by decide) (d := .sel .IS_INT [.p 0]) (by decide +kernel), sel1 rfl]
      show MadeAr ρ r cs!"is_int" [x] _ (mkIsInt x)
      unfold mkIsInt arOper1
      rw [preal (hreal (by decide) x (by simp))]
      simp only [simpIsInt, notCInt hr, hr, Bool.not_true, Bool.false_eq_true, if_false, isUnknown, if_true]
      exact made_node (.inr ⟨8, rfl⟩) hu (hI _ _ _ _ _ (by decide) happ' rfl) rfl hst (by intro d h; simp [resTable] at h) (by decide)
    | notInt a h =>
      obtain ⟨x, rfl, hx⟩ := evalL_inv1 hu
      have hr := lone (hvar (by decide))
      rw [call_slow (k := .atom 8) hG (by decide) (by decide) (by decide) (d := .sel .IS_INT [.p 0]) (by decide +kernel), sel1 rfl]
      show MadeAr ρ r cs!"is_int" [x] _ (mkIsInt x)
      unfold mkIsInt arOper1
      rw [preal (hreal (by decide) x (by simp))]
      simp only [simpIsInt, notCInt hr, hr, Bool.not_true, Bool.false_eq_true, if_false, isUnknown, if_true]
      exact made_node (.inr ⟨8, rfl⟩) hu (hI _ _ _ _ _ (by decide) happ' rfl) rfl hst (by intro d h; simp [resTable] at h) (by decide)
  · obtain ⟨x, y, e, _⟩ := evalL_inv2 hu
    simp only [divTable, List.mem_cons, Prod.mk.injEq, List.not_mem_nil, or_false] at ho
    rcases ho with ⟨h1, rfl, rfl⟩ | ⟨h1, rfl, rfl⟩ | ⟨h1, rfl, rfl⟩
    · exact div e h1 hf hv
    · exact mod e h1 hf hv
    · exact quot e h1 hf hv

/-- constants on which the operator is computed rightly: see `FoldsRightAr` -/
def FoldsNum (r : Bool) (o : List Char) (us : List SMT.Term) (vs : List Val) : Prop :=
  (o ∈ arRight ∧ (∀ u ∈ us, ∃ z, u = .cint z) ∧ (∀ v ∈ vs, ∃ n : Nat, v = .n (n : Rat)) ∧ (o = cs!"to_real" → r = true) ∧
    (o = cs!"div" ∨ o = cs!"mod" → ∀ a, vs ≠ [a, .n 0])) ∨
  (o = cs!"/" ∧ r = true ∧ ∀ p q, vs = [.n p, .n q] → q = 0 ∨ (-2 ^ 31 < p / q ∧ p / q < 2 ^ 31))

theorem cint_val {u : SMT.Term} {q : Rat} {us : List SMT.Term} {vs : List Val} (hn : ∀ u ∈ us, ∃ z, u = .cint z) (hv : ∀ v ∈ vs, ∃ n : Nat, v = .n (n : Rat))
    (hu : u ∈ us) (hq : .n q ∈ vs) (he : eval ρ u = some (.n q)) : ∃ n : Nat, u = .cint n ∧ q = (n : Rat) := by
  obtain ⟨z, rfl⟩ := hn u hu
  obtain ⟨n, hn⟩ := hv _ hq
  have e : q = (n : Rat) := Val.n.inj hn
  simp only [eval, Option.some.injEq, Val.n.injEq] at he
  refine ⟨n, ?_, e⟩
  rw [e] at he
  have : z = (n : Int) := by exact_mod_cast he
  rw [this]

theorem creal_val {t : SMT.Term} {q : Rat} (h : ∀ q, c.rnd q = q) (ht : t.isCReal = true) (he : eval ρ t = some (.n q)) : toReal c t = q := by
  cases t <;> simp [isCReal] at ht
  · simp only [eval, Option.some.injEq, Val.n.injEq] at he
    rw [← he]; exact h _
  · simp only [eval, Option.some.injEq, Val.n.injEq] at he
    rw [← he]; exact h _

theorem toInt32_small {z : Int} (h0 : -2 ^ 31 < z) (h1 : z < 2 ^ 31) : toInt32 z = z := by
  unfold toInt32
  omega

/-- the result is an integer constant -/
theorem made_cint {o : List Char} {us : List SMT.Term} {z : Int} (hc : ∀ u ∈ us, u.isCReal = true) (ho : o ≠ cs!"abs") (hv : v = .n z) :
    MadeAr ρ r o us v (.ok (.cint z)) := by
  subst hv
  refine ⟨_, rfl, by simp [eval], by simp [Std, leafOk], ?_, fun _ _ => .inr rfl, ?_, fun h => absurd h ho⟩
  · rintro ⟨u, hu, _, h⟩; rw [hc u hu] at h; cases h
  · rintro ⟨u, hu, h⟩; rw [hc u hu] at h; cases h

theorem call_fold (hG : SigOk G) (hc : NumOk r c) (hI : InterpretsAr ρ) {o : List Char} {vs : List Val} {v : Val} (happ : ArApp o vs v ∨ ByZero ρ o vs v)
    {us : List SMT.Term} (hu : evalL ρ us = some vs) (hst : ∀ t ∈ us, Std r t = true) (hreal : o ∈ realOps → ∀ u ∈ us, u.sort = .real ∨ u.sort = .ior)
    (h : FoldsNum r o us vs) :
    MadeAr ρ r o us v (callOper (ctors (declared c G.vars G.funs) rest rlit) o [] us) := by
  rcases h with ⟨ho, hn, hvn, htr, hz⟩ | ⟨rfl, hr, hq⟩
  · have hcr : ∀ u ∈ us, u.isCReal = true := fun u h => by obtain ⟨z, rfl⟩ := hn u h; rfl
    rcases happ with happ | ⟨k, σ, q, hk, rfl, hf, hv⟩
    · cases happ with
      | div a b q z h1 h2 h3 =>
        obtain ⟨x, y, rfl, hx, hy⟩ := evalL_inv2 hu
        obtain ⟨m, rfl, e1⟩ := cint_val hn hvn (by simp) (by simp) hx
        obtain ⟨n, rfl, e2⟩ := cint_val hn hvn (by simp) (by simp) hy
        have e1 : a = (m : Int) := by exact_mod_cast e1
        have e2 : b = (n : Int) := by exact_mod_cast e2
        subst e1 e2
        have hn0 : (n : Int) ≠ 0 := fun e => hz (.inl rfl) _ (by rw [e]; rfl)
        rw [call_slow (k := .arith 0) hG (by decide) (by decide) (by decide) (d := .sel .DIV_INT [.p 0, .p 1]) (by decide +kernel), sel2 rfl]
        show MadeAr ρ r cs!"div" _ _ (mkDivInt c (.cint m) (.cint n))
        have e : mkDivInt c (.cint m) (.cint n) = .ok (.cint q) := by
          have : q = (m : Int).tdiv n := by
            rw [Int.tdiv_eq_ediv_of_nonneg (by omega)]
            exact ((Int.ediv_emod_unique (r := z) (by omega)).2 ⟨by omega, h2, by omega⟩).1.symm
          rw [this]
          show arOper2 (simpDivInt c) .int .DIV_INT (.cint m) (.cint n) = _
          unfold arOper2
          dsimp only [simpDivInt]
          rw [if_neg hn0]
          rfl
        rw [e]
        exact made_cint hcr (by decide) rfl
      | mod a b q z h1 h2 h3 =>
        obtain ⟨x, y, rfl, hx, hy⟩ := evalL_inv2 hu
        obtain ⟨m, rfl, e1⟩ := cint_val hn hvn (by simp) (by simp) hx
        obtain ⟨n, rfl, e2⟩ := cint_val hn hvn (by simp) (by simp) hy
        have e1 : a = (m : Int) := by exact_mod_cast e1
        have e2 : b = (n : Int) := by exact_mod_cast e2
        subst e1 e2
        have hn0 : (n : Int) ≠ 0 := fun e => hz (.inr rfl) _ (by rw [e]; rfl)
        rw [call_slow (k := .arith 1) hG (by decide) (by decide) (by decide) (d := .sel .MOD [.p 0, .p 1]) (by decide +kernel), sel2 rfl]
        show MadeAr ρ r cs!"mod" _ _ (mkMod (.cint m) (.cint n))
        have e : mkMod (.cint m) (.cint n) = .ok (.cint z) := by
          have : z = (m : Int).tmod n := by
            rw [Int.tmod_eq_emod_of_nonneg (by omega)]
            exact ((Int.ediv_emod_unique (q := q) (by omega)).2 ⟨by omega, h2, by omega⟩).2.symm
          rw [this]
          show arOper2 simpMod .int .MOD (.cint m) (.cint n) = _
          unfold arOper2
          dsimp only [simpMod]
          rw [if_neg hn0]
          rfl
        rw [e]
        exact made_cint hcr (by decide) rfl
      | toReal a =>
        obtain ⟨x, rfl, hx⟩ := evalL_inv1 hu
        obtain ⟨m, rfl, e1⟩ := cint_val hn hvn (by simp) (by simp) hx
        have e1 : a = (m : Int) := by exact_mod_cast e1
        subst e1
        have hr := htr rfl
        subst hr
        rw [call_slow (k := .arith 4) hG (by decide) (by decide) (by decide) (d := .sel .TO_REAL [.p 0]) (by decide +kernel), sel1 rfl]
        show MadeAr ρ true cs!"to_real" _ _ (mkToReal c (.cint m))
        have hx : c.rnd ((m : Int) : Rat) = ((m : Int) : Rat) := hc _
        have e : mkToReal c (.cint m) = .ok (mkConstReal c ((m : Int) : Rat)) := by
          simp only [mkToReal, isIntParam, sort, arOper1, simpToReal, isCInt, toReal, hx, if_true]
          rfl
        rw [e]
        refine ⟨_, rfl, by simp [eval, mkConstReal], by simp [Std, leafOk, mkConstReal], ?_, fun d h => .inl ?_, ?_, fun h => absurd h (by decide)⟩
        · rintro ⟨u, hu, _, h⟩; rw [hcr u hu] at h; cases h
        · simp [resTable] at h; subst h; rfl
        · rintro ⟨u, hu, h⟩; rw [hcr u hu] at h; cases h
      | toInt a z h1 h2 =>
        obtain ⟨x, rfl, hx⟩ := evalL_inv1 hu
        obtain ⟨m, rfl, e1⟩ := cint_val hn hvn (by simp) (by simp) hx
        subst e1
        have e : z = (m : Int) := by
          have h1 : z ≤ (m : Int) := by exact_mod_cast h1
          have h2 : (m : Int) < z + 1 := by exact_mod_cast h2
          omega
        rw [call_slow (k := .arith 5) hG (by decide) (by decide) (by decide) (d := .sel .TO_INT [.p 0]) (by decide +kernel), sel1 rfl]
        show MadeAr ρ r cs!"to_int" _ _ (mkToInt c (.cint m))
        have e' : mkToInt c (.cint m) = .ok (.cint z) := by rw [e]; rfl
        rw [e']
        exact made_cint hcr (by decide) rfl
      | isInt a =>
        obtain ⟨x, rfl, hx⟩ := evalL_inv1 hu
        obtain ⟨m, rfl, e1⟩ := cint_val hn hvn (by simp) (by simp) hx
        rw [call_slow (k := .atom 8) hG (by decide) (by decide) (by decide) (d := .sel .IS_INT [.p 0]) (by decide +kernel), sel1 rfl]
        show MadeAr ρ r cs!"is_int" _ _ (mkIsInt (.cint m))
        refine ⟨.tt, rfl, by simp [eval], by simp [Std, leafOk], fun _ => ⟨rfl, rfl⟩, fun d h => ?_, ?_, fun h => absurd h (by decide)⟩
        · simp [resTable] at h
        · rintro ⟨u, hu, h⟩; rw [hcr u hu] at h; cases h
      | notInt a h =>
        obtain ⟨x, rfl, hx⟩ := evalL_inv1 hu
        obtain ⟨m, rfl, e1⟩ := cint_val hn hvn (by simp) (by simp) hx
        exact absurd (by rw [e1]; rfl) (h m)
      | _ => exact absurd ho (by decide)
    · simp only [divTable, List.mem_cons, Prod.mk.injEq, List.not_mem_nil, or_false] at hk
      rcases hk with ⟨h1, _⟩ | ⟨h1, _⟩ | ⟨h1, _⟩
      · exact absurd rfl (hz (.inl h1) _)
      · exact absurd rfl (hz (.inr h1) _)
      · subst h1; exact absurd ho (by decide)
  · subst hr
    by_cases hcr : ∃ u ∈ us, u.isCReal = false
    · exact call_ar_var hG hc hI happ hu hst (fun _ => hcr) (fun h => absurd h (by decide)) hreal
    have hcr : ∀ u ∈ us, u.isCReal = true := fun u h => by
      cases e : u.isCReal with
      | true => rfl
      | false => exact absurd ⟨u, h, e⟩ hcr
    -- the node or the quotient
    have go : ∀ {x y : SMT.Term} {a b : Rat}, us = [x, y] → vs = [.n a, .n b] → eval ρ x = some (.n a) → eval ρ y = some (.n b) →
        ρ.fn (.arith 2) .real vs = some v → v.hasSort .real = true → (b ≠ 0 → ∃ q, a = b * q ∧ v = .n q) →
        MadeAr ρ true cs!"/" us v (callOper (ctors (declared c G.vars G.funs) rest rlit) cs!"/" [] us) := by
      rintro x y a b rfl rfl hx hy hf hv hd
      have hs := hq _ _ rfl
      have preal : ∀ {u : SMT.Term}, (u.sort = .real ∨ u.sort = .ior) → isRealParam u = true := by
        rintro u (h | h) <;> simp [isRealParam, h]
      have tx : toReal c x = a := creal_val hc (hcr _ (by simp)) hx
      have ty : toReal c y = b := creal_val hc (hcr _ (by simp)) hy
      rw [call_slow (k := .arith 2) hG (by decide) (by decide) (by decide) (d := .sel .DIV_REAL [.p 0, .p 1]) (by decide +kernel), sel2 rfl]
      show MadeAr ρ true cs!"/" [x, y] v (mkDivReal c x y)
      have node : MadeAr ρ true cs!"/" [x, y] v (.ok (.app (.arith 2) .real [x, y])) :=
        made_node (.inl ⟨⟨2, rfl⟩, by simp⟩) hu hf hv hst (by intro d h; simp [resTable] at h; subst h; rfl) (by decide)
      unfold mkDivReal arOper2
      rw [preal (hreal (by decide) x (by simp)), preal (hreal (by decide) y (by simp))]
      simp only [simpDivReal, hcr x (by simp), hcr y (by simp), tx, ty, Bool.and_self, if_true, Bool.not_true, Bool.or_self, Bool.false_and,
        Bool.false_eq_true, if_false]
      rw [show c.rnd (a / b) = a / b from hc _]
      by_cases hb0 : b = 0
      · rw [if_pos hb0]; exact node
      rw [if_neg hb0]
      by_cases hden : (a / b).den = 1
      · rw [if_pos hden]
        obtain ⟨q, e1, rfl⟩ := hd hb0
        have hbq : a / b = q := by rw [e1, Rat.mul_comm]; exact Rat.mul_div_cancel hb0
        rw [hbq] at hden ⊢
        have hq : q = (q.num : Rat) := Rat.ext (Rat.num_intCast _).symm (by rw [hden, Rat.den_intCast])
        obtain ⟨hs0, hs1⟩ := hs.resolve_left hb0
        rw [hbq, hq] at hs0 hs1
        have h0 : -2 ^ 31 < q.num := Rat.intCast_lt_intCast.1 ((show (-2 : Rat) ^ 31 = ((-2 ^ 31 : Int) : Rat) by decide +kernel) ▸ hs0)
        have h1 : q.num < 2 ^ 31 := Rat.intCast_lt_intCast.1 ((show (2 : Rat) ^ 31 = ((2 ^ 31 : Int) : Rat) by decide +kernel) ▸ hs1)
        have hfl : q.floor = q.num := by rw [hq, Rat.floor_intCast, Rat.num_intCast]
        rw [hfl, toInt32_small h0 h1]
        exact made_cint hcr (by decide) (by rw [← hq])
      · rw [if_neg hden]; exact node
    rcases happ with happ | ⟨k, σ, q, hk, rfl, hf, hv⟩
    · have happ' := happ
      cases happ with
      | quot a b q h1 h2 =>
        obtain ⟨x, y, e, hx, hy⟩ := evalL_inv2 hu
        exact go e rfl hx hy (hI _ _ _ _ _ (by decide) happ' rfl) rfl fun _ => ⟨q, h2, rfl⟩
    · obtain ⟨x, y, e, hx, hy⟩ := evalL_inv2 hu
      simp only [divTable, List.mem_cons, Prod.mk.injEq, List.not_mem_nil, or_false] at hk
      rcases hk with ⟨h1, _⟩ | ⟨h1, _⟩ | ⟨h1, rfl, rfl⟩
      · exact absurd h1 (by decide)
      · exact absurd h1 (by decide)
      · exact go e rfl hx hy hf hv fun h => absurd rfl h

theorem call_ar (hG : SigOk G) (hc : NumOk r c) (hI : InterpretsAr ρ) {o : List Char} {vs : List Val} {v : Val} (happ : ArApp o vs v ∨ ByZero ρ o vs v)
    {us : List SMT.Term} (hu : evalL ρ us = some vs) (hst : ∀ t ∈ us, Std r t = true)
    (hvar : o ∈ foldOps → (∃ u ∈ us, u.isCReal = false) ∨ FoldsNum r o us vs) (hint : o ∈ intOps → ∀ u ∈ us, u.sort = .int ∨ u.sort = .ior)
    (hreal : o ∈ realOps → ∀ u ∈ us, u.sort = .real ∨ u.sort = .ior) :
    MadeAr ρ r o us v (callOper (ctors (declared c G.vars G.funs) rest rlit) o [] us) := by
  by_cases h : FoldsNum r o us vs
  · exact call_fold hG hc hI happ hu hst hreal h
  · exact call_ar_var hG hc hI happ hu hst (fun ho => (hvar ho).resolve_right h) hint hreal

end

end SMT.Mean
