import Verif.Mean.BvModel
import Verif.Mean.BvSpec
import Verif.BV.Props
import Verif.Term.Props
import Verif.Eval.Std

/-! # C80: the constructors of bit-vector nodes make nodes with the meaning of the operators -/

namespace SMT.Mean
open SMT SMT.Text SMT.Kinds SMT.Term SMT.Eval

set_option linter.unusedSimpArgs false
set_option linter.unusedVariables false

section
variable {ρ : Env}

/-- the node has the bit-vector as its value -/
def BvIs (ρ : Env) (t : SMT.Term) {w : Nat} (x : BitVec w) : Prop := eval ρ t = some (bvVal x)

theorem sort_of_eval {t : SMT.Term} {s : SMT.Srt} {x : String} (h : eval ρ t = some (.u s x)) : t.sort = s := by
  have key : ∀ {s' : SMT.Srt} {o : Option Val}, guardSort s' o = some (.u s x) → s' = s := by
    intro s' o h
    obtain ⟨_, h2⟩ := guardSort_some.1 h
    simp only [Val.hasSort, Bool.and_eq_true, beq_iff_eq] at h2
    exact h2.1.1.1.1.symm
  cases t with
  | tt => simp [eval] at h
  | ff => simp [eval] at h
  | cint i => simp [eval] at h
  | creal a q => simp [eval] at h
  | unknown => simp [eval] at h
  | err => simp [eval] at h
  | clit s' a => simp only [eval] at h; exact key h
  | var k s' a => simp only [eval] at h; exact key h
  | app k s' ts => rw [eval_app] at h; exact key h

theorem BvIs.sort {t : SMT.Term} {w : Nat} {x : BitVec w} (h : BvIs ρ t x) : t.sort = .bv w := sort_of_eval h

theorem BvIs.param {t : SMT.Term} {w : Nat} {x : BitVec w} (h : BvIs ρ t x) : isBvParam t = true := by
  unfold isBvParam; rw [h.sort]

theorem BvIs.width {t : SMT.Term} {w : Nat} {x : BitVec w} (h : BvIs ρ t x) : bitWidth t = w := by
  unfold bitWidth; rw [h.sort]

theorem BvIs.notErr {t : SMT.Term} {w : Nat} {x : BitVec w} (h : BvIs ρ t x) : t.isErr = false := by
  cases t <;> simp [isErr]
  simp [BvIs, eval] at h

theorem cbv_none {t : SMT.Term} (h : t.isCBV = false) : cbv t = none := by
  cases t with
  | clit s a => cases s <;> simp [isCBV] at h <;> rfl
  | _ => rfl

theorem hasSort_bv {w : Nat} (x : BitVec w) (s : SMT.Srt) : (bvVal x).hasSort s = true ↔ s = .bv w := by
  simp only [bvVal, Val.hasSort, Bool.and_eq_true, beq_iff_eq]
  constructor
  · intro h; exact h.1.1.1.1.symm
  · rintro rfl; simp [Srt.isNum]

theorem eval_ofConst {w : Nat} (x : BitVec w) : eval ρ (ofConst (BV.con x)) = some (bvVal x) := by
  simp only [ofConst, BV.con, eval]
  exact guardSort_some.2 ⟨rfl, (hasSort_bv x _).2 rfl⟩

theorem cbv_ofConst (k : BV.Const) : cbv (ofConst k) = some k := by
  simp [ofConst, cbv]

theorem isCBV_ofConst (k : BV.Const) : (ofConst k).isCBV = true := rfl

theorem std_ofConst (r : Bool) (k : BV.Const) : Std r (ofConst k) = true := by simp [ofConst, Std, leafOk]

theorem bvVal_width {v w : Nat} {x : BitVec v} {y : BitVec w} (h : bvVal x = bvVal y) : v = w := by
  simp only [bvVal, Val.u.injEq, SMT.Srt.bv.injEq] at h
  exact h.1

theorem bvVal_inj {w : Nat} {x y : BitVec w} : bvVal x = bvVal y ↔ x = y := by
  constructor
  · intro h
    simp only [bvVal, Val.u.injEq, true_and] at h
    have := congrArg String.toList h
    simp only [String.toList_ofList] at this
    exact BV.lit_inj.1 this
  · rintro rfl; rfl

/-- a node with a bit-vector value is the constant or not a constant -/
theorem BvIs.cases {t : SMT.Term} {w : Nat} {x : BitVec w} (h : BvIs ρ t x) :
    (t.isCBV = true ∧ t = ofConst (BV.con x)) ∨ (t.isCBV = false ∧ cbv t = none) := by
  cases hc : t.isCBV with
  | false => exact .inr ⟨rfl, cbv_none hc⟩
  | true =>
    left
    refine ⟨rfl, ?_⟩
    have hs := h.sort
    cases t with
    | clit s a =>
      simp only [Term.sort] at hs
      subst hs
      have h' := h
      simp only [BvIs, eval] at h'
      have h2 := (guardSort_some.1 h').1
      simp only [bvVal, Option.some.injEq, Val.u.injEq, true_and] at h2
      subst h2
      rfl
    | _ => simp [isCBV] at hc

/-- an application of an uninterpreted kind -/
theorem eval_bvapp {k : Kind} (hk : (∃ i, k = .bvOp i) ∨ ∃ i, k = .atom i) {s : SMT.Srt} {ts : List SMT.Term} {vs : List Val} {v : Val}
    (h : evalL ρ ts = some vs) (hf : ρ.fn k s vs = some v) (hs : v.hasSort s = true) : eval ρ (.app k s ts) = some v := by
  rw [eval_app]
  refine guardSort_some.2 ⟨?_, hs⟩
  unfold evalApp
  rw [h]
  rcases hk with ⟨i, rfl⟩ | ⟨i, rfl⟩ <;> exact hf

theorem std_bvapp {r : Bool} {k : Kind} (hk : (∃ i, k = .bvOp i) ∨ ∃ i, k = .atom i) {s : SMT.Srt} {ts : List SMT.Term}
    (h : ∀ t ∈ ts, Std r t = true) : Std r (.app k s ts) = true := by
  rw [std_app]
  refine ⟨?_, h⟩
  rcases hk with ⟨i, rfl⟩ | ⟨i, rfl⟩ <;> rfl

theorem wd_pos {w : Nat} (h : Wd w) : 0 < w := h.1
theorem wd_lt {w : Nat} (h : Wd w) : w < BV.ulim := by rw [BV.ulim_eq]; have := h.2; omega
theorem wd_lt2 {w : Nat} (h : Wd w) : w + 2 < BV.ulim := by rw [BV.ulim_eq]; exact h.2

theorem evalL_1 {a : SMT.Term} {x : Val} (h : eval ρ a = some x) : evalL ρ [a] = some [x] := by simp [evalL, h]
theorem evalL_2 {a b : SMT.Term} {x y : Val} (h : eval ρ a = some x) (h' : eval ρ b = some y) : evalL ρ [a, b] = some [x, y] := by
  simp [evalL, h, h']
theorem evalL_3 {a b d : SMT.Term} {x y z : Val} (h : eval ρ a = some x) (h' : eval ρ b = some y) (h'' : eval ρ d = some z) :
    evalL ρ [a, b, d] = some [x, y, z] := by simp [evalL, h, h', h'']

theorem evalL_inv1 {us : List SMT.Term} {x : Val} (h : evalL ρ us = some [x]) : ∃ a, us = [a] ∧ eval ρ a = some x := by
  obtain ⟨h1, h2⟩ := (evalL_iff ρ us [x]).1 h
  match us, h2 with
  | [a], h2 =>
    refine ⟨a, rfl, ?_⟩
    simp only [evalL] at h
    cases e : eval ρ a with
    | none => rw [e] at h; cases h
    | some v => rw [e] at h; simpa using h

theorem evalL_inv {us : List SMT.Term} {x : Val} {vs : List Val} (h : evalL ρ us = some (x :: vs)) :
    ∃ a l, us = a :: l ∧ eval ρ a = some x ∧ evalL ρ l = some vs := by
  cases us with
  | nil => simp [evalL] at h
  | cons a l =>
    refine ⟨a, l, rfl, ?_⟩
    simp only [evalL] at h
    cases e : eval ρ a with
    | none => rw [e] at h; cases h
    | some v =>
      cases e2 : evalL ρ l with
      | none => rw [e, e2] at h; cases h
      | some ws => rw [e, e2] at h; simp at h; exact ⟨by rw [h.1], by rw [h.2]⟩

theorem evalL_inv2 {us : List SMT.Term} {x y : Val} (h : evalL ρ us = some [x, y]) : ∃ a b, us = [a, b] ∧ eval ρ a = some x ∧ eval ρ b = some y := by
  obtain ⟨a, l, rfl, h1, h2⟩ := evalL_inv h
  obtain ⟨b, rfl, h3⟩ := evalL_inv1 h2
  exact ⟨a, b, rfl, h1, h3⟩

theorem evalL_inv3 {us : List SMT.Term} {x y z : Val} (h : evalL ρ us = some [x, y, z]) :
    ∃ a b d, us = [a, b, d] ∧ eval ρ a = some x ∧ eval ρ b = some y ∧ eval ρ d = some z := by
  obtain ⟨a, l, rfl, h1, h2⟩ := evalL_inv h
  obtain ⟨b, d, rfl, h3, h4⟩ := evalL_inv2 h2
  exact ⟨a, b, d, rfl, h1, h3, h4⟩

/-! ## One operand -/

/-- the result of a constructor: the value, the shape, and that it is not a constant if an operand is none -/
def Made (ρ : Env) (r : Bool) (us : List SMT.Term) (v : Val) (m : Res SMT.Term) : Prop :=
  ∃ t, m = .ok t ∧ eval ρ t = some v ∧ Std r t = true ∧ ((∃ u ∈ us, u.isCBV = false) → t.isCBV = false)

theorem made_not {r : Bool} (hI : Interprets ρ) {a : SMT.Term} {w : Nat} {x : BitVec w} (hw : Wd w) (h : BvIs ρ a x) (hs : Std r a = true) :
    Made ρ r [a] (bvVal (~~~x)) (mkBvNot a) := by
  unfold mkBvNot
  rw [h.param]
  simp only [Bool.not_true, Bool.false_eq_true, if_false]
  rcases h.cases with ⟨h1, rfl⟩ | ⟨h1, h2⟩
  · rw [cbv_ofConst]
    simp only [BV.fold_not_exact (wd_pos hw) (wd_lt hw), Res.bind]
    exact ⟨_, rfl, eval_ofConst _, std_ofConst _ _, by simp [isCBV_ofConst]⟩
  · rw [h2]
    refine ⟨_, rfl, ?_, std_bvapp (.inl ⟨_, rfl⟩) (by simpa using hs), fun _ => rfl⟩
    rw [h.sort]
    have hv := (hasSort_bv (~~~x) _).2 rfl
    exact eval_bvapp (.inl ⟨_, rfl⟩) (evalL_1 h) (hI _ _ _ _ _ _ (by decide) (.not x hw) hv) hv

theorem made_neg {r : Bool} (hI : Interprets ρ) {a : SMT.Term} {w : Nat} {x : BitVec w} (hw : Wd w) (h : BvIs ρ a x) (hs : Std r a = true) :
    Made ρ r [a] (bvVal (-x)) (mkBvNeg a) := by
  unfold mkBvNeg
  rcases h.cases with ⟨h1, rfl⟩ | ⟨h1, h2⟩
  · rw [cbv_ofConst]
    simp only [BV.fold_neg_exact (wd_pos hw) (wd_lt hw), Res.bind]
    exact ⟨_, rfl, eval_ofConst _, std_ofConst _ _, by simp [isCBV_ofConst]⟩
  · rw [h2]
    refine ⟨_, rfl, ?_, std_bvapp (.inl ⟨_, rfl⟩) (by simpa using hs), fun _ => rfl⟩
    rw [h.sort]
    have hv := (hasSort_bv (-x) _).2 rfl
    exact eval_bvapp (.inl ⟨_, rfl⟩) (evalL_1 h) (hI _ _ _ _ _ _ (by decide) (.neg x hw) hv) hv

/-! ## Two operands -/

/-- the operator is computed exactly on these constants -/
def ExactOn (o : BV.BinOp) {w : Nat} (x y : BitVec w) : Prop := BV.foldBin o (BV.con x) (BV.con y) = .ok (BV.con (o.spec x y))

/-- the operator is computed exactly on all constants -/
def Exact (o : BV.BinOp) : Prop := ∀ {w : Nat}, Wd w → ∀ x y : BitVec w, BV.foldBin o (BV.con x) (BV.con y) = .ok (BV.con (o.spec x y))

theorem exact_bitwise (o : BV.BinOp) (h : o.isBitwise) : Exact o := fun hw x y => BV.fold_bitwise_exact (wd_pos hw) (wd_lt hw) o h x y
theorem exact_add : Exact .add := fun hw x y => BV.fold_add_exact (wd_pos hw) (wd_lt hw) x y
theorem exact_mul : Exact .mul := fun hw x y => BV.fold_mul_exact (wd_pos hw) (wd_lt hw) x y
theorem exact_srem : Exact .srem := fun hw x y => BV.fold_srem_exact (wd_pos hw) (wd_lt hw) x y

/-- two operands: the constant, or `unknown` if an operand is no constant -/
theorem simp2_cases (o : BV.BinOp) {a b : SMT.Term} {w : Nat} {x y : BitVec w} (hw : Wd w) (ha : BvIs ρ a x) (hb : BvIs ρ b y)
    (he : ExactOn o x y ∨ a.isCBV = false ∨ b.isCBV = false) :
    (a.isCBV = true ∧ b.isCBV = true ∧ bvSimp2 o a b = .ok (ofConst (BV.con (o.spec x y)))) ∨
    ((a.isCBV = false ∨ b.isCBV = false) ∧ bvSimp2 o a b = .ok .unknown) := by
  unfold bvSimp2
  rcases ha.cases with ⟨h1, h1'⟩ | ⟨h1, h2⟩
  · rcases hb.cases with ⟨h3, h3'⟩ | ⟨h3, h4⟩
    · left
      refine ⟨h1, h3, ?_⟩
      have hex : ExactOn o x y := by
        rcases he with h | h | h
        · exact h
        · rw [h1] at h; cases h
        · rw [h3] at h; cases h
      subst h1' h3'
      have hex : BV.foldBin o (BV.con x) (BV.con y) = .ok (BV.con (o.spec x y)) := hex
      simp only [cbv_ofConst, hex, Res.bind]
    · right
      rw [h4]
      refine ⟨.inr h3, ?_⟩
      cases cbv a <;> rfl
  · right
    rw [h2]
    exact ⟨.inl h1, rfl⟩

theorem ofConst_known (k : BV.Const) : (ofConst k).isUnknown = false := rfl

theorem comm_perm (c : SMT.Cfg) (k : K) (ps : List SMT.Term) : (if bvComm k then c.sort ps else ps).Perm ps := by
  split
  · exact c.perm ps
  · exact List.Perm.refl _

theorem perm_two {α : Type} {l : List α} {a b : α} (hp : l.Perm [a, b]) : l = [a, b] ∨ l = [b, a] := by
  have hl := hp.length_eq
  match l, hl with
  | [p, q], _ =>
    have h1 : a ∈ [p, q] := hp.symm.subset (by simp)
    have h3 : p ∈ [a, b] := hp.subset (by simp)
    have h2 : b ∈ [p, q] := hp.symm.subset (by simp)
    have h4 : q ∈ [a, b] := hp.subset (by simp)
    simp only [List.mem_cons, List.not_mem_nil, or_false] at h1 h2 h3 h4
    rcases h3 with rfl | rfl
    · by_cases e : p = b
      · subst e; rcases h4 with rfl | rfl <;> simp
      · have := h2.resolve_left (Ne.symm e); subst this; simp
    · by_cases e : p = a
      · subst e; rcases h4 with rfl | rfl <;> simp
      · have := h1.resolve_left (Ne.symm e); subst this; simp

theorem made_bin {r : Bool} (c : SMT.Cfg) (hI : Interprets ρ) (o : BV.BinOp) {n : List Char} (hn : (n, bvKind (kindOf o)) ∈ bvTable)
    (hk : ∃ i, bvKind (kindOf o) = .bvOp i)
    {a b : SMT.Term} {w : Nat} {x y : BitVec w} (hw : Wd w) (ha : BvIs ρ a x) (hb : BvIs ρ b y) (hs : ∀ t ∈ [a, b], Std r t = true)
    (he : ExactOn o x y ∨ a.isCBV = false ∨ b.isCBV = false) (happ : BvApp n 0 [bvVal x, bvVal y] (bvVal (o.spec x y)))
    (hcomm : bvComm (kindOf o) = true → BvApp n 0 [bvVal y, bvVal x] (bvVal (o.spec x y))) :
    Made ρ r [a, b] (bvVal (o.spec x y)) (mkBvBin c o a b) := by
  unfold mkBvBin bvOper bvSimp
  rw [ha.param, hb.param]
  simp only [Bool.not_true, Bool.or_self, Bool.false_eq_true, if_false]
  rcases simp2_cases o hw ha hb he with ⟨h1, h2, h3⟩ | ⟨h1, h2⟩
  · rw [h3]
    simp only [Res.bind, ofConst_known, Bool.false_eq_true, if_false]
    refine ⟨_, rfl, eval_ofConst _, std_ofConst _ _, ?_⟩
    rintro ⟨u, hu, hf⟩
    simp only [List.mem_cons, List.not_mem_nil, or_false] at hu
    rcases hu with rfl | rfl
    · rw [h1] at hf; cases hf
    · rw [h2] at hf; cases hf
  · rw [h2]
    simp only [Res.bind, isUnknown, if_true]
    refine ⟨_, rfl, ?_, ?_, fun _ => rfl⟩
    · unfold internal
      have hp := comm_perm c (kindOf o) [a, b]
      have hv := (hasSort_bv (o.spec x y) (.bv w)).2 rfl
      rw [ha.sort]
      cases hc : bvComm (kindOf o) with
      | false =>
        simp only [hc, Bool.false_eq_true, if_false]
        exact eval_bvapp (.inl hk) (evalL_2 ha hb) (hI _ _ _ _ _ _ hn happ hv) hv
      | true =>
        rw [hc] at hp
        simp only [hc, if_true] at hp ⊢
        have := perm_two hp
        rcases this with h | h
        · rw [h]
          exact eval_bvapp (.inl hk) (evalL_2 ha hb) (hI _ _ _ _ _ _ hn happ hv) hv
        · rw [h]
          exact eval_bvapp (.inl hk) (evalL_2 hb ha) (hI _ _ _ _ _ _ hn (hcomm hc) hv) hv
    · unfold internal
      exact std_bvapp (.inl hk) fun t ht => hs t ((comm_perm c (kindOf o) [a, b]).subset ht)

/-! ## Many operands -/

theorem simpN_cases (o : BV.BinOp) (he : Exact o) {w : Nat} (hw : Wd w) : ∀ {ts : List SMT.Term} {ys : List (BitVec w)} {a : SMT.Term} {x : BitVec w},
    BvIs ρ a x → evalL ρ ts = some (ys.map bvVal) →
    (a.isCBV = true ∧ (∀ t ∈ ts, t.isCBV = true) ∧ bvSimpN o a ts = .ok (ofConst (BV.con (ys.foldl o.spec x)))) ∨
    ((a.isCBV = false ∨ ∃ t ∈ ts, t.isCBV = false) ∧ (ts = [] ∨ bvSimpN o a ts = .ok .unknown)) := by
  intro ts
  induction ts with
  | nil =>
    intro ys a x ha h
    have : ys = [] := by simp only [evalL, Option.some.injEq] at h; exact List.map_eq_nil_iff.1 h.symm
    subst this
    rcases ha.cases with ⟨h1, h1'⟩ | ⟨h1, _⟩
    · left; exact ⟨h1, by simp, by rw [bvSimpN, h1']; rfl⟩
    · right; exact ⟨.inl h1, .inl rfl⟩
  | cons b ts ih =>
    intro ys a x ha h
    cases ys with
    | nil => obtain ⟨_, h⟩ := (evalL_iff ρ _ _).1 h; simp at h
    | cons y ys =>
      rw [List.map_cons] at h
      obtain ⟨b', l, hbl, hb, hl⟩ := evalL_inv h
      cases hbl
      rw [bvSimpN]
      rcases simp2_cases o hw ha hb (.inl (he hw _ _)) with ⟨h1, h2, h3⟩ | ⟨h1, h2⟩
      · rw [h3]
        simp only [Res.bind, ofConst_known, Bool.false_eq_true, if_false]
        rcases ih (a := ofConst (BV.con (o.spec x y))) (eval_ofConst _) hl with ⟨k1, k2, k3⟩ | ⟨k1, k2⟩
        · left
          refine ⟨h1, ?_, k3⟩
          intro t ht
          rcases List.mem_cons.1 ht with rfl | ht
          · exact h2
          · exact k2 t ht
        · right
          have k1 := k1.resolve_left (by rw [isCBV_ofConst]; simp)
          obtain ⟨t, ht, hf⟩ := k1
          refine ⟨.inr ⟨t, List.mem_cons_of_mem _ ht, hf⟩, .inr ?_⟩
          rcases k2 with rfl | k2
          · cases ht
          · exact k2
      · right
        rw [h2]
        refine ⟨?_, .inr rfl⟩
        rcases h1 with h1 | h1
        · exact .inl h1
        · exact .inr ⟨b, by simp, h1⟩

theorem simp_many (o : BV.BinOp) (a b : SMT.Term) : ∀ l : List SMT.Term, l ≠ [] → bvSimp o (a :: b :: l) = bvSimpN o a (b :: l)
  | [], h => absurd rfl h
  | [d], _ => by
    simp only [bvSimp, bvSimpN]
    cases bvSimp2 o a b with
    | ok x =>
      simp only [Res.bind]
      cases hx : x.isUnknown with
      | true =>
        have : x = .unknown := by cases x <;> simp [isUnknown] at hx; rfl
        subst this
        rfl
      | false =>
        simp only [Bool.false_eq_true, if_false]
        cases bvSimp2 o x d with
        | ok y =>
          simp only [Res.bind]
          cases hy : y.isUnknown with
          | true =>
            have : y = .unknown := by cases y <;> simp [isUnknown] at hy; rfl
            subst this
            rfl
          | false => rfl
        | throw => rfl
        | abort => rfl
        | ub => rfl
        | diverge => rfl
    | throw => rfl
    | abort => rfl
    | ub => rfl
    | diverge => rfl
  | d :: e :: l, _ => rfl

theorem perm_vals {w : Nat} {l : List Val} {xs : List (BitVec w)} (h : l.Perm (xs.map bvVal)) :
    ∃ xs' : List (BitVec w), xs'.Perm xs ∧ l = xs'.map bvVal := by
  classical
  let g : Val → BitVec w := fun v => if h : ∃ x : BitVec w, v = bvVal x then Classical.choose h else 0#w
  have hg : ∀ x : BitVec w, g (bvVal x) = x := by
    intro x
    have hx : ∃ y : BitVec w, bvVal x = bvVal y := ⟨x, rfl⟩
    simp only [g]
    rw [dif_pos hx]
    exact (bvVal_inj.1 (Classical.choose_spec hx)).symm
  refine ⟨l.map g, ?_, ?_⟩
  · have := h.map g
    rw [List.map_map] at this
    have e : xs.map (g ∘ bvVal) = xs := by
      conv => rhs; rw [← List.map_id xs]
      exact List.map_congr_left fun x _ => hg x
    rwa [e] at this
  · rw [List.map_map]
    conv => lhs; rw [← List.map_id l]
    refine List.map_congr_left fun v hv => ?_
    obtain ⟨x, _, rfl⟩ := List.mem_map.1 (h.subset hv)
    show bvVal x = bvVal (g (bvVal x))
    rw [hg]

/-- the operator is commutative and associative, with a neutral element -/
structure Abelian {w : Nat} (f : BitVec w → BitVec w → BitVec w) (e : BitVec w) : Prop where
  one : ∀ x, f e x = x
  swap : ∀ x y z, f (f z x) y = f (f z y) x

theorem Abelian.perm {w : Nat} {f : BitVec w → BitVec w → BitVec w} {e : BitVec w} (h : Abelian f e) {x y : BitVec w} {xs ys : List (BitVec w)}
    (hp : (x :: xs).Perm (y :: ys)) : xs.foldl f x = ys.foldl f y := by
  have := hp.foldl_eq' (f := f) (fun a _ b _ z => h.swap a b z) e
  simpa only [List.foldl_cons, h.one] using this

theorem scan_ok (s : Option SMT.Srt) : ∀ {us : List SMT.Term} {w : Nat} {xs : List (BitVec w)}, evalL ρ us = some (xs.map bvVal) →
    bvScan s us = .ok none
  | [], _, _, _ => rfl
  | u :: us, w, [], h => by obtain ⟨_, h⟩ := (evalL_iff ρ _ _).1 h; simp at h
  | u :: us, w, x :: xs, h => by
    rw [List.map_cons] at h
    obtain ⟨a, l, e, h1, h2⟩ := evalL_inv h
    cases e
    have h1 : BvIs ρ u x := h1
    rw [bvScan, h1.notErr, h1.param]
    simp only [Bool.false_eq_true, if_false, Bool.not_true, Bool.and_false]
    exact scan_ok s h2

theorem sorts_of {us : List SMT.Term} : ∀ {w : Nat} {xs : List (BitVec w)}, evalL ρ us = some (xs.map bvVal) → ∀ u ∈ us, u.sort = .bv w := by
  induction us with
  | nil => intro _ _ _ u hu; cases hu
  | cons a us ih =>
    intro w xs h u hu
    cases xs with
    | nil => obtain ⟨_, h⟩ := (evalL_iff ρ _ _).1 h; simp at h
    | cons x xs =>
      rw [List.map_cons] at h
      obtain ⟨a', l, e, h1, h2⟩ := evalL_inv h
      cases e
      rcases List.mem_cons.1 hu with rfl | hu
      · exact BvIs.sort (x := x) h1
      · exact ih h2 u hu

theorem getSort_bv {p : SMT.Term} {ps : List SMT.Term} {w : Nat} (h : ∀ u ∈ p :: ps, u.sort = .bv w) : (getSort (p :: ps)).getD p.sort = .bv w := by
  have hp := h p (by simp)
  simp only [getSort, hp, Srt.isNum, Bool.false_eq_true, if_false]
  cases hf : (p :: ps).find? fun t => !t.isConst with
  | none => rfl
  | some t => exact h t (List.mem_of_find?_eq_some hf)

theorem made_many {r : Bool} (c : SMT.Cfg) (hI : Interprets ρ) (o : BV.BinOp) {n : List Char} (hn : (n, bvKind (kindOf o)) ∈ bvTable)
    (hk : ∃ i, bvKind (kindOf o) = .bvOp i) {f : ∀ w, BitVec w → BitVec w → BitVec w} (hnf : (n, f) ∈ leftTable)
    (hf : ∀ w, f w = o.spec) (he : Exact o) (hab : ∀ w, ∃ e, Abelian (f w) e) (zero : Res SMT.Term) {us : List SMT.Term} {w : Nat}
    {x y : BitVec w} {xs : List (BitVec w)} (hw : Wd w) (h : evalL ρ us = some ((x :: y :: xs).map bvVal)) (hs : ∀ t ∈ us, Std r t = true) :
    Made ρ r us (bvVal ((y :: xs).foldl (f w) x)) (mkBvMany c o zero us) := by
  have hus := sorts_of h
  have hsc := fun s => scan_ok s h
  rw [List.map_cons] at h
  obtain ⟨a, l, rfl, ha, h2⟩ := evalL_inv h
  rw [List.map_cons] at h2
  obtain ⟨b, l, rfl, hb, h3⟩ := evalL_inv h2
  obtain ⟨e, hab⟩ := hab w
  cases xs with
  | nil =>
    have : l = [] := by obtain ⟨_, h⟩ := (evalL_iff ρ _ _).1 h3; exact List.map_eq_nil_iff.1 h.symm
    subst this
    show Made ρ r [a, b] _ (mkBvBin c o a b)
    have e1 : List.foldl (f w) x [y] = o.spec x y := by simp [hf]
    rw [e1]
    refine made_bin c hI o hn hk hw ha hb hs (.inl (he hw _ _)) ?_ ?_
    · have := BvApp.left x y [] hnf hw
      rwa [e1] at this
    · intro _
      have := BvApp.left y x [] hnf hw
      rwa [hab.perm (List.Perm.swap x y []), e1] at this
  | cons z xs =>
    have hl : l ≠ [] := by
      rintro rfl
      obtain ⟨_, h⟩ := (evalL_iff ρ _ _).1 h3; simp at h
    have hm : mkBvMany c o zero (a :: b :: l) = bvOper c (.bv w) o (a :: b :: l) := by
      cases l with
      | nil => exact absurd rfl hl
      | cons d l =>
        have e0 : mkBvMany c o zero (a :: b :: d :: l) = (bvScan (getSort (a :: b :: d :: l)) (a :: b :: d :: l)).bind fun e => match e with
            | some t => .ok t
            | none => bvOper c ((getSort (a :: b :: d :: l)).getD a.sort) o (a :: b :: d :: l) := rfl
        rw [e0, hsc]
        simp only [Res.bind]
        rw [getSort_bv hus]
    rw [hm]
    unfold bvOper
    rw [simp_many o a b l hl]
    rcases simpN_cases (ys := y :: z :: xs) o he hw ha h2 with ⟨h4, h5, h6⟩ | ⟨h4, h5⟩
    · rw [h6]
      simp only [Res.bind, ofConst_known, Bool.false_eq_true, if_false]
      refine ⟨_, rfl, by rw [← hf]; exact eval_ofConst _, std_ofConst _ _, ?_⟩
      rintro ⟨u, hu, hfa⟩
      rcases List.mem_cons.1 hu with rfl | hu
      · rw [h4] at hfa; cases hfa
      · rw [h5 u hu] at hfa; cases hfa
    · rw [h5.resolve_left (by simp)]
      simp only [Res.bind, isUnknown, if_true]
      have hp := comm_perm c (kindOf o) (a :: b :: l)
      unfold internal
      refine ⟨_, rfl, ?_, std_bvapp (.inl hk) fun t ht => hs t (hp.subset ht), fun _ => rfl⟩
      generalize (if bvComm (kindOf o) then c.sort (a :: b :: l) else a :: b :: l) = l' at hp
      obtain ⟨k1, k2⟩ := (evalL_iff ρ (a :: b :: l) _).1 h
      have hl' : evalL ρ l' = some (l'.map (val ρ)) := (evalL_iff ρ l' _).2 ⟨fun t ht => k1 t (hp.subset ht), rfl⟩
      have hpv := hp.map (val ρ)
      rw [← k2, ← List.map_cons] at hpv
      obtain ⟨xs', hx1, hx2⟩ := perm_vals hpv
      have hlen := hx1.length_eq
      match xs', hlen with
      | x' :: y' :: xs', _ =>
        have hv := (hasSort_bv (List.foldl (f w) x (y :: z :: xs)) (.bv w)).2 rfl
        refine eval_bvapp (.inl hk) hl' ?_ hv
        have := BvApp.left x' y' xs' hnf hw
        rw [hab.perm hx1] at this
        rw [hx2]
        have := hI _ _ _ _ _ _ hn this hv
        simpa using this

/-! ## Comparisons -/

theorem std_ofB (r b : Bool) : Std r (ofBool b) = true := std_ofBool r b

theorem eval_ofB (b : Bool) : eval ρ (ofBool b) = some (.b b) := by cases b <;> simp [ofBool, eval]

theorem ofBool_notCBV (b : Bool) : (ofBool b).isCBV = false := by cases b <;> rfl

theorem made_cmp {r : Bool} (hI : Interprets ρ) (k : K) {n : List Char} (hn : (n, bvKind k) ∈ bvTable) (hk : ∃ i, bvKind k = .atom i)
    {f : ∀ w, BitVec w → BitVec w → Bool} (hnf : (n, f) ∈ cmpTable) (hne : (cmpOf k).1 ≠ .other)
    (hf : ∀ w x y, f w x y = true ↔ (cmpOf k).1.spec x y) (hrefl : ∀ w x, f w x x = (cmpOf k).2)
    {a b : SMT.Term} {w : Nat} {x y : BitVec w} (hw : Wd w) (ha : BvIs ρ a x) (hb : BvIs ρ b y) (hs : ∀ t ∈ [a, b], Std r t = true) :
    Made ρ r [a, b] (.b (f w x y)) (mkBvCmp k a b) := by
  unfold mkBvCmp
  rw [ha.param, hb.param]
  simp only [Bool.not_true, Bool.or_self, Bool.false_eq_true, if_false]
  have slow : cbv a = none ∨ cbv b = none → Made ρ r [a, b] (.b (f w x y)) (match cbv a, cbv b with
      | some a', some b' => (BV.foldCmp (cmpOf k).1 a' b').bind fun x => .ok (ofBool x)
      | _, _ => if a = b then .ok (ofBool (cmpOf k).2) else .ok (.app (bvKind k) .bool [a, b])) := by
    intro h
    have e : (match cbv a, cbv b with
      | some a', some b' => (BV.foldCmp (cmpOf k).1 a' b').bind fun x => .ok (ofBool x)
      | _, _ => if a = b then .ok (ofBool (cmpOf k).2) else .ok (.app (bvKind k) .bool [a, b])) =
        if a = b then .ok (ofBool (cmpOf k).2) else .ok (.app (bvKind k) .bool [a, b]) := by
      rcases h with h | h
      · rw [h]
      · rw [h]; cases cbv a <;> rfl
    rw [e]
    by_cases hab : a = b
    · subst hab
      rw [if_pos rfl]
      have : x = y := bvVal_inj.1 (Option.some.inj (ha.symm.trans hb))
      subst this
      rw [hrefl]
      exact ⟨_, rfl, eval_ofB _, std_ofB _ _, fun _ => ofBool_notCBV _⟩
    · rw [if_neg hab]
      exact ⟨_, rfl, eval_bvapp (.inr hk) (evalL_2 ha hb) (hI _ _ _ _ _ _ hn (.cmp x y hnf hw) rfl) rfl,
        std_bvapp (.inr hk) hs, fun _ => rfl⟩
  rcases ha.cases with ⟨h1, h1'⟩ | ⟨h1, h2⟩
  · rcases hb.cases with ⟨h3, h3'⟩ | ⟨h3, h4⟩
    · subst h1' h3'
      simp only [cbv_ofConst]
      obtain ⟨v, h5, h6⟩ := BV.fold_cmp_exact (cmpOf k).1 hne x y
      rw [h5]
      have : v = f w x y := Bool.eq_iff_iff.2 (h6.trans (hf w x y).symm)
      subst this
      exact ⟨_, rfl, eval_ofB _, std_ofB _ _, fun _ => ofBool_notCBV _⟩
    · exact slow (.inr h4)
  · exact slow (.inl h2)

theorem made_comp {r : Bool} (hI : Interprets ρ) {a b : SMT.Term} {w : Nat} {x y : BitVec w} (hw : Wd w) (ha : BvIs ρ a x) (hb : BvIs ρ b y)
    (hs : ∀ t ∈ [a, b], Std r t = true) (hc : a.isCBV = false ∨ b.isCBV = false) :
    Made ρ r [a, b] (bvVal (if x = y then 1#1 else 0#1)) (mkBvComp a b) := by
  unfold mkBvComp
  rw [ha.param, hb.param]
  simp only [Bool.not_true, Bool.or_self, Bool.false_eq_true, if_false]
  have hv := (hasSort_bv (if x = y then 1#1 else 0#1) (.bv 1)).2 rfl
  have key : Made ρ r [a, b] (bvVal (if x = y then 1#1 else 0#1)) (.ok (.app (bvKind .BV_COMP) (.bv 1) [a, b])) :=
    ⟨_, rfl, eval_bvapp (.inl ⟨_, rfl⟩) (evalL_2 ha hb) (hI _ _ _ _ _ _ (by decide) (.comp x y hw) hv) hv,
      std_bvapp (.inl ⟨_, rfl⟩) hs, fun _ => rfl⟩
  rcases hc with h | h
  · rw [cbv_none h]; exact key
  · rw [cbv_none h]
    cases cbv a <;> exact key

theorem eval_ix (n : Nat) : eval ρ (.cint n) = some (.n n) := by
  simp only [eval, Rat.intCast_natCast]

/-! ## Concatenation and the indexed operators -/

theorem made_concat {r : Bool} (hI : Interprets ρ) {a b : SMT.Term} {v w : Nat} {x : BitVec v} {y : BitVec w} (hv : Wd v) (hw : Wd w)
    (hvw : Wd (v + w)) (ha : BvIs ρ a x) (hb : BvIs ρ b y) (hs : ∀ t ∈ [a, b], Std r t = true) :
    Made ρ r [a, b] (bvVal (x ++ y)) (mkBvConcat [a, b]) := by
  have e1 : concatWidth [a, b] = .ok (.inr (v + w)) := by
    have hlt := wd_lt hvw
    have hlw := wd_lt hw
    simp only [concatWidth, ha.notErr, ha.param, hb.notErr, hb.param, ha.width, hb.width, Bool.not_true, Bool.false_eq_true, if_false, Res.bind,
      Nat.add_zero]
    rw [Nat.mod_eq_of_lt hlw, Nat.mod_eq_of_lt hlt]
  have e2 : mkBvConcat [a, b] = (concat2 a b).bind fun x => if x.isUnknown then .ok (.app (bvKind .BV_CONCAT) (.bv (v + w)) [a, b]) else .ok x := by
    have : mkBvConcat [a, b] = (concatWidth [a, b]).bind fun r => match r with
      | .inl e => .ok e
      | .inr w => (concatN a [b]).bind fun x => if x.isUnknown then .ok (.app (bvKind .BV_CONCAT) (.bv w) [a, b]) else .ok x := rfl
    rw [this, e1]
    simp only [Res.bind, concatN]
    cases concat2 a b with
    | ok x =>
      dsimp only
      cases hx : x.isUnknown with
      | true =>
        simp only [hx, if_true]
        have : x = .unknown := by cases x <;> simp [isUnknown] at hx; rfl
        subst this
        rfl
      | false => simp [hx]
    | throw => rfl
    | abort => rfl
    | ub => rfl
    | diverge => rfl
  rw [e2]
  have slow : concat2 a b = .ok .unknown → Made ρ r [a, b] (bvVal (x ++ y)) ((concat2 a b).bind fun x =>
      if x.isUnknown then .ok (.app (bvKind .BV_CONCAT) (.bv (v + w)) [a, b]) else .ok x) := by
    intro h
    rw [h]
    have hv' := (hasSort_bv (x ++ y) (.bv (v + w))).2 rfl
    exact ⟨_, rfl, eval_bvapp (.inl ⟨_, rfl⟩) (evalL_2 ha hb) (hI _ _ _ _ _ _ (by decide) (.concat x y hv hw hvw) hv') hv',
      std_bvapp (.inl ⟨_, rfl⟩) hs, fun _ => rfl⟩
  rcases ha.cases with ⟨h1, h1'⟩ | ⟨h1, h2⟩
  · rcases hb.cases with ⟨h3, h3'⟩ | ⟨h3, h4⟩
    · have e3 : concat2 a b = .ok (ofConst (BV.con (x ++ y))) := by
        subst h1' h3'
        simp only [concat2, cbv_ofConst, BV.fold_concat_exact (wd_pos hvw) (wd_lt hvw), Res.bind]
      rw [e3]
      simp only [Res.bind, ofConst_known, Bool.false_eq_true, if_false]
      refine ⟨_, rfl, eval_ofConst _, std_ofConst _ _, ?_⟩
      rintro ⟨u, hu, hf⟩
      simp only [List.mem_cons, List.not_mem_nil, or_false] at hu
      rcases hu with rfl | rfl
      · rw [h1] at hf; cases hf
      · rw [h3] at hf; cases hf
    · refine slow ?_
      unfold concat2
      rw [h4]; cases cbv a <;> rfl
  · refine slow ?_
    unfold concat2
    rw [h2]

/-- an index: a numeral -/
def IsIx (t : SMT.Term) (n : Nat) : Prop := t = .cint n

theorem toULong_ok {n : Nat} (h : n < BV.ulim) : BV.toULong (n : Int) = .ok n := BV.toULong_nat h

theorem made_extract {r : Bool} (hI : Interprets ρ) {a : SMT.Term} {w : Nat} {x : BitVec w} (hi lo : Nat) (hw : Wd w) (h1 : lo ≤ hi) (h2 : hi < w)
    (ha : BvIs ρ a x) (hs : Std r a = true) :
    Made ρ r [a] (bvVal (x.extractLsb' lo (hi - lo + 1))) (mkBvExtract a (.cint hi) (.cint lo)) := by
  have hlt := wd_lt hw
  unfold mkBvExtract
  rw [ha.notErr, ha.param]
  simp only [isErr, isIntParam, Term.sort, Bool.or_self, Bool.false_eq_true, if_false, beq_self_eq_true, Bool.or_true, Bool.not_true,
    toULong_ok (show hi < BV.ulim by omega), toULong_ok (show lo < BV.ulim by omega), Res.ok_bind]
  rcases ha.cases with ⟨h3, h3'⟩ | ⟨h3, h4⟩
  · subst h3'
    rw [cbv_ofConst]
    simp only [BV.fold_extract_exact (wd_lt2 hw) x hi lo h1 h2, Res.bind]
    exact ⟨_, rfl, eval_ofConst _, std_ofConst _ _, by simp [isCBV_ofConst]⟩
  · rw [h4]
    have e : (BV.usub hi lo + 1) % BV.ulim = hi - lo + 1 := by
      unfold BV.usub
      rw [if_pos h1, Nat.mod_eq_of_lt (by omega)]
    simp only [e]
    have hv := (hasSort_bv (x.extractLsb' lo (hi - lo + 1)) (.bv (hi - lo + 1))).2 rfl
    refine ⟨_, rfl, eval_bvapp (.inl ⟨_, rfl⟩) (evalL_3 (x := bvVal x) (y := .n hi) (z := .n lo) ha (eval_ix hi) (eval_ix lo))
      (hI _ _ _ _ _ _ (by decide) (.extract x hi lo hw h1 h2) hv) hv,
      std_bvapp (.inl ⟨_, rfl⟩) ?_, fun _ => rfl⟩
    simp [hs, Std, leafOk]

theorem made_ix {r : Bool} (hI : Interprets ρ) (k : K) {o : List Char} (hk : (o, bvKind k) ∈ bvTable) (hb : ∃ i, bvKind k = .bvOp i)
    {a : SMT.Term} {w m : Nat} {x : BitVec w} {z : BitVec m} (n : Nat) (ha : BvIs ρ a x) (hs : Std r a = true)
    (happ : BvApp o 1 [.n n, bvVal x] (bvVal z))
    (he : mkBvIx k a (.cint n) = .ok (.app (bvKind k) (.bv m) [a, .cint n])) :
    Made ρ r [a] (bvVal z) (mkBvIx k a (.cint n)) := by
  rw [he]
  have hv := (hasSort_bv z (.bv m)).2 rfl
  refine ⟨_, rfl, eval_bvapp (.inl hb) (evalL_2 (x := bvVal x) (y := .n n) ha (eval_ix n)) (hI _ _ _ _ _ _ hk happ hv) hv,
    std_bvapp (.inl hb) ?_, fun _ => ?_⟩
  · simp [hs, Std, leafOk]
  · rfl

theorem ix_rol {a : SMT.Term} {w : Nat} {x : BitVec w} (n : Nat) (ha : BvIs ρ a x) :
    mkBvIx .BV_ROTATE_LEFT a (.cint n) = .ok (.app (bvKind .BV_ROTATE_LEFT) (.bv w) [a, .cint n]) := by
  unfold mkBvIx
  rw [ha.param, ha.width]
  rfl

theorem ix_ror {a : SMT.Term} {w : Nat} {x : BitVec w} (n : Nat) (ha : BvIs ρ a x) :
    mkBvIx .BV_ROTATE_RIGHT a (.cint n) = .ok (.app (bvKind .BV_ROTATE_RIGHT) (.bv w) [a, .cint n]) := by
  unfold mkBvIx
  rw [ha.param, ha.width]
  rfl

theorem ix_rep {a : SMT.Term} {w : Nat} {x : BitVec w} (n : Nat) (hn : n < 2 ^ 64) (hw : Wd (w * n)) (ha : BvIs ρ a x) :
    mkBvIx .BV_REPEAT a (.cint n) = .ok (.app (bvKind .BV_REPEAT) (.bv (w * n)) [a, .cint n]) := by
  have e : (!isBvParam a || !isIntParam (.cint n)) = false := by rw [ha.param]; rfl
  have hn' : n < BV.ulim := by rw [BV.ulim_eq]; exact hn
  unfold mkBvIx
  rw [if_neg (by rw [e]; simp)]
  simp only [toULong_ok hn', Res.ok_bind, if_true, ha.width, Nat.mod_eq_of_lt (wd_lt hw)]

end

end SMT.Mean
