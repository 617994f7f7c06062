import Verif.Conv.CnfSpec
import Verif.Conv.Elim
import Std.Data.String.ToNat
/-!
# C30, C31: the Tseitin transformation
-/
namespace SMT

open Term

/-! ### fresh variables -/

theorem tempName_inj {i j : Nat} (h : tempName i = tempName j) : i = j := by
  unfold tempName at h
  have := congrArg String.toList h
  simp only [String.toList_append, List.append_cancel_left_eq, Nat.toString_eq_repr] at this
  exact Nat.repr_inj.1 (String.toList_inj.1 this)

/-- the two assignments agree except on fresh variables -/
structure Agree (n : Nat) (ρ ρ' : Env) : Prop where
  fn : ρ'.fn = ρ.fn
  lit : ρ'.lit = ρ.lit
  var : ∀ vk s x, ¬ isFresh n vk s x → ρ'.var vk s x = ρ.var vk s x

theorem Ext.agree {n : Nat} {ρ ρ' : Env} (h : Ext n ρ ρ') : Agree n ρ ρ' := ⟨h.fn, h.lit, h.var⟩

theorem evalL_congr {ρ ρ' : Env} {ts : List Term} (h : ∀ t ∈ ts, eval ρ' t = eval ρ t) :
    evalL ρ' ts = evalL ρ ts := by
  induction ts with
  | nil => rfl
  | cons t ts ih =>
    simp only [evalL]
    rw [h t (by simp), ih fun u hu => h u (by simp [hu])]

theorem apply_congr {ρ ρ' : Env} (h : ρ'.fn = ρ.fn) (k : Kind) (s : Srt) (vs : List Val) :
    apply ρ' k s vs = apply ρ k s vs := by
  cases k <;> simp only [apply, h]

theorem eval_agree {n : Nat} {ρ ρ' : Env} (h : Agree n ρ ρ') : ∀ (m : Nat) (t : Term), t.size ≤ m →
    noFresh n t → eval ρ' t = eval ρ t := by
  intro m
  induction m with
  | zero => intro t h; cases t <;> simp [size] at h
  | succ m ih =>
    intro t hm hn
    cases t with
    | app k s ts =>
      have : evalL ρ' ts = evalL ρ ts := by
        refine evalL_congr fun u hu => ih u ?_ ?_
        · have := size_child (k := k) (s := s) hu; omega
        · intro i hi hx
          refine hn i hi ?_
          simp only [subs, List.mem_cons]; exact .inr (mem_subsL.2 ⟨u, hu, hx⟩)
      simp only [eval, this]
      cases evalL ρ ts with
      | none => rfl
      | some vs => simp only [apply_congr h.fn]
    | var vk s x =>
      have : ¬ isFresh n vk s x := by
        rintro ⟨rfl, rfl, i, hi, rfl⟩
        exact hn i hi (by simp [subs, tempVar])
      simp only [eval, h.var vk s x this]
    | clit s x => cases s <;> simp only [eval, h.lit]
    | _ => rfl

theorem Ext.eval {n : Nat} {ρ ρ' : Env} (h : Ext n ρ ρ') {t : Term} (ht : noFresh n t) :
    SMT.eval ρ' t = SMT.eval ρ t := eval_agree h.agree _ t (Nat.le_refl _) ht

/-- give one fresh variable a value -/
def upd (ρ : Env) (i : Nat) (b : Bool) : Env :=
  { ρ with var := fun vk s x => if vk = .temp ∧ s = .bool ∧ x = tempName i then .b b else ρ.var vk s x }

open Classical in
/-- make every fresh variable false -/
noncomputable def reset (ρ : Env) (n : Nat) : Env :=
  { ρ with var := fun vk s x => if isFresh n vk s x then .b false else ρ.var vk s x }

theorem ext_reset (ρ : Env) (n : Nat) : Ext n ρ (reset ρ n) := by
  refine ⟨rfl, rfl, ?_, ?_⟩
  · intro vk s x h; simp [reset, h]
  · intro i hi; exact ⟨false, by
      have : isFresh n .temp .bool (tempName i) := ⟨rfl, rfl, i, hi, rfl⟩
      simp [reset, this]⟩

theorem ext_upd {n : Nat} {ρ ρ' : Env} (h : Ext n ρ ρ') {i : Nat} (hi : n ≤ i) (b : Bool) :
    Ext n ρ (upd ρ' i b) := by
  refine ⟨h.fn, h.lit, ?_, ?_⟩
  · intro vk s x hx
    rw [← h.var vk s x hx]
    simp only [upd]
    rw [if_neg]
    rintro ⟨rfl, rfl, rfl⟩
    exact hx ⟨rfl, rfl, i, hi, rfl⟩
  · intro j hj
    by_cases e : j = i
    · subst e; exact ⟨b, by simp [upd]⟩
    · obtain ⟨x, hx⟩ := h.bool j hj
      refine ⟨x, ?_⟩
      simp only [upd]
      rw [if_neg, hx]
      rintro ⟨_, _, h⟩
      exact e (tempName_inj h)

theorem agree_upd (ρ : Env) (i : Nat) (b : Bool) : Agree i ρ (upd ρ i b) := by
  refine ⟨rfl, rfl, ?_⟩
  intro vk s x hx
  simp only [upd]
  rw [if_neg]
  rintro ⟨rfl, rfl, rfl⟩
  exact hx ⟨rfl, rfl, i, Nat.le_refl _, rfl⟩

theorem upd_val (ρ : Env) (i : Nat) (b : Bool) : eval (upd ρ i b) (tempVar i) = some (.b b) := by
  simp [eval, tempVar, upd, guardSort, Val.hasSort]

theorem Agree.mono {n m : Nat} (h : n ≤ m) {ρ ρ' : Env} (ha : Agree m ρ ρ') : Agree n ρ ρ' := by
  refine ⟨ha.fn, ha.lit, fun vk s x hx => ha.var vk s x ?_⟩
  rintro ⟨h1, h2, i, hi, h3⟩
  exact hx ⟨h1, h2, i, by omega, h3⟩

/-! ### literals and clauses -/

section
variable (c : Cfg) (n0 : Nat) (ρ0 : Env)

/-- a literal over variables below `n`, Boolean under every extension -/
structure LitG (n : Nat) (r : Term) : Prop where
  lit : isLit r = true
  ind : ∀ ρ ρ', Ext n0 ρ0 ρ → Ext n0 ρ0 ρ' → Agree n ρ ρ' → eval ρ' r = eval ρ r
  isB : ∀ ρ, Ext n0 ρ0 ρ → IsB ρ r

/-- all clauses hold -/
def Sat (ρ : Env) (cls : List Term) : Prop := ∀ cl ∈ cls, eval ρ cl = some (.b true)

/-- the literal has value `v` whenever the clauses hold -/
structure LitV (st : TSt) (v : Bool) (r : Term) : Prop where
  g : LitG n0 ρ0 st.n r
  val : ∀ ρ, Ext n0 ρ0 ρ → Sat ρ st.cls → bval ρ r = v

/-- invariant of the state -/
structure TInv (nn : Bool) (st : TSt) : Prop where
  le : n0 ≤ st.n
  sat : ∃ ρ, Ext n0 ρ0 ρ ∧ Sat ρ st.cls
  ind : ∀ cl ∈ st.cls, ∀ ρ ρ', Ext n0 ρ0 ρ → Ext n0 ρ0 ρ' → Agree st.n ρ ρ' → eval ρ' cl = eval ρ cl
  shape : nn = true → ∀ cl ∈ st.cls, isClause cl = true
  isB : ∀ cl ∈ st.cls, ∀ ρ, Ext n0 ρ0 ρ → IsB ρ cl
  vis : ∀ k v, st.vis.find k = some v → LitV n0 ρ0 st (bval ρ0 k) v

variable {c n0 ρ0}

theorem LitG.mono {n m : Nat} (h : n ≤ m) {r : Term} (hr : LitG n0 ρ0 n r) : LitG n0 ρ0 m r :=
  ⟨hr.lit, fun ρ ρ' h1 h2 h3 => hr.ind ρ ρ' h1 h2 (h3.mono h), hr.isB⟩

/-- the state only grows -/
structure TLe (a b : TSt) : Prop where
  n : a.n ≤ b.n
  cls : ∀ cl ∈ a.cls, cl ∈ b.cls

theorem TLe.refl (a : TSt) : TLe a a := ⟨Nat.le_refl _, fun _ h => h⟩
theorem TLe.trans {a b d : TSt} (h1 : TLe a b) (h2 : TLe b d) : TLe a d :=
  ⟨Nat.le_trans h1.n h2.n, fun cl h => h2.cls cl (h1.cls cl h)⟩

theorem LitV.mono {a b : TSt} (h : TLe a b) {v : Bool} {r : Term} (hr : LitV n0 ρ0 a v r) :
    LitV n0 ρ0 b v r :=
  ⟨hr.g.mono h.n, fun ρ h1 h2 => hr.val ρ h1 fun cl hcl => h2 cl (h.cls cl hcl)⟩

theorem lit_facts {t : Term} (h : isLit t = true) : negBin t = true ∧ t.noReals = true := by
  unfold isLit at h
  split at h
  · exact ⟨rfl, rfl⟩
  · exact ⟨rfl, rfl⟩
  · exact ⟨rfl, rfl⟩
  · rename_i u
    refine ⟨rfl, ?_⟩
    unfold isBVar at h
    split at h
    · rfl
    · cases h
  · cases h

theorem mkNot_lit {c : Cfg} {t : Term} (h : isLit t = true) (hs : t.sort = .bool) :
    isLit (mkNot c t) = true := by
  unfold isLit at h
  split at h
  · rw [mkNot.eq_def]; simp [Term.sort, isLit]
  · rw [mkNot.eq_def]; simp [Term.sort, isLit]
  · rename_i vk s x
    have hs' : s = .bool := by simpa using h
    subst hs'
    rw [mkNot.eq_def]
    simp [Term.sort, isLit, mkOper, simp, simp1, Term.isTrue, Term.isFalse, isUnknown, isComm, isBVar]
  · rename_i s u
    unfold isBVar at h
    split at h
    · rename_i vk s' x
      rw [mkNot.eq_def, if_neg (by simp [hs])]
      simpa [isLit] using h
    · cases h
  · cases h

theorem mkNot_litG (hc : ∃ u, DFit c u) {n : Nat} {r : Term} (h : LitG n0 ρ0 n r) :
    LitG n0 ρ0 n (mkNot c r) ∧ ∀ ρ, Ext n0 ρ0 ρ → bval ρ (mkNot c r) = !bval ρ r := by
  obtain ⟨u, hu⟩ := hc
  have hf := lit_facts h.lit
  have hv : ∀ ρ, Ext n0 ρ0 ρ → eval ρ (mkNot c r) = some (.b (!bval ρ r)) := fun ρ hρ =>
    mkNot_val c ρ r (hu.other hf.2) hf.1 (h.isB ρ hρ)
  refine ⟨⟨mkNot_lit h.lit (h.isB _ (ext_reset ρ0 n0)).sort, ?_, fun ρ hρ => ⟨_, hv ρ hρ⟩⟩, fun ρ hρ => bval_of (hv ρ hρ)⟩
  intro ρ ρ' h1 h2 h3
  rw [hv ρ h1, hv ρ' h2]
  have := h.ind ρ ρ' h1 h2 h3
  rw [(h.isB ρ h1).eval, (h.isB ρ' h2).eval] at this
  simp only [Option.some.injEq, Val.b.injEq] at this
  rw [this]

theorem mkOr_clause {ls : List Term} (h : ∀ l ∈ ls, isLit l = true) (hB : IsB ρ0 (mkOr c ls)) :
    isClause (mkOr c ls) = true := by
  have hl : ∀ t, isLit t = true → isClause t = true := by
    intro t ht; unfold isClause; split
    · simp [isLit] at ht
    · exact ht
  rcases mkOr_cases c ls with h1 | h1 | h1 | h1 | ⟨l, h1, h2, _, h3⟩
  · rw [h1]; rfl
  · rw [h1]; rfl
  · rw [h1] at hB; obtain ⟨x, hx⟩ := hB; simp [eval] at hx
  · exact hl _ (h _ h1)
  · rw [h1]; simp only [isClause, List.all_eq_true]; exact fun t ht => h t (h3 t ht).1

/-- a clause over literals -/
theorem mkOr_litG {n : Nat} {ls : List Term} (h : ∀ l ∈ ls, LitG n0 ρ0 n l) :
    (∀ ρ ρ', Ext n0 ρ0 ρ → Ext n0 ρ0 ρ' → Agree n ρ ρ' →
        eval ρ' (mkOr c ls) = eval ρ (mkOr c ls)) ∧
      isClause (mkOr c ls) = true ∧
      ∀ ρ, Ext n0 ρ0 ρ → (eval ρ (mkOr c ls) = some (.b true) ↔ ls.any (bval ρ) = true) := by
  have hv : ∀ ρ, Ext n0 ρ0 ρ → eval ρ (mkOr c ls) = some (.b (ls.any (bval ρ))) := fun ρ hρ =>
    mkOr_val c fun t ht => (h t ht).isB ρ hρ
  refine ⟨?_, ?_, ?_⟩
  · intro ρ ρ' h1 h2 h3
    rw [hv ρ h1, hv ρ' h2]
    congr 2
    rw [Bool.eq_iff_iff, List.any_eq_true, List.any_eq_true]
    refine exists_congr fun t => and_congr_right fun ht => ?_
    have := (h t ht).ind ρ ρ' h1 h2 h3
    rw [((h t ht).isB ρ h1).eval, ((h t ht).isB ρ' h2).eval] at this
    simp only [Option.some.injEq, Val.b.injEq] at this
    rw [this]
  · exact mkOr_clause (ρ0 := reset ρ0 n0) (fun l hl => (h l hl).lit)
      ⟨_, hv _ (ext_reset ρ0 n0)⟩
  · intro ρ hρ; rw [hv ρ hρ]; simp

theorem tempVar_litG {n : Nat} (hn : n0 ≤ n) : LitG n0 ρ0 (n + 1) (tempVar n) := by
  refine ⟨rfl, ?_, ?_⟩
  · intro ρ ρ' h1 h2 h3
    simp only [tempVar, eval]
    rw [h3.var]
    rintro ⟨_, _, i, hi, h⟩
    have := tempName_inj h
    omega
  · intro ρ h
    obtain ⟨b, hb⟩ := h.bool n hn
    exact ⟨b, by simp [eval, tempVar, hb, guardSort, Val.hasSort]⟩

/-- Adding a definition: clauses that, given the old ones, say exactly that the new variable has the
value `v`. -/
theorem define {nn : Bool} {st : TSt} (hi : TInv n0 ρ0 nn st) (new : List Term) (v : Bool)
    (hind : ∀ cl ∈ new, ∀ ρ ρ', Ext n0 ρ0 ρ → Ext n0 ρ0 ρ' → Agree (st.n + 1) ρ ρ' →
      eval ρ' cl = eval ρ cl)
    (hsh : nn = true → ∀ cl ∈ new, isClause cl = true)
    (hnB : ∀ cl ∈ new, ∀ ρ, Ext n0 ρ0 ρ → IsB ρ cl)
    (hdef : ∀ ρ, Ext n0 ρ0 ρ → Sat ρ st.cls → (Sat ρ new ↔ bval ρ (tempVar st.n) = v)) :
    TInv n0 ρ0 nn ⟨st.n + 1, st.vis, new ++ st.cls⟩ ∧
      LitV n0 ρ0 ⟨st.n + 1, st.vis, new ++ st.cls⟩ v (tempVar st.n) ∧
      TLe st ⟨st.n + 1, st.vis, new ++ st.cls⟩ := by
  have hle : TLe st ⟨st.n + 1, st.vis, new ++ st.cls⟩ :=
    ⟨Nat.le_succ _, fun cl h => List.mem_append_right _ h⟩
  refine ⟨⟨Nat.le_succ_of_le hi.le, ?_, ?_, ?_, ?_, fun k v h => (hi.vis k v h).mono hle⟩, ⟨tempVar_litG hi.le, ?_⟩,
    hle⟩
  · obtain ⟨ρ, h1, h2⟩ := hi.sat
    have h3 := ext_upd h1 hi.le v
    have h4 : Sat (upd ρ st.n v) st.cls := by
      intro cl hcl
      rw [hi.ind cl hcl ρ _ h1 h3 (agree_upd ρ st.n v)]
      exact h2 cl hcl
    refine ⟨_, h3, ?_⟩
    have h5 := (hdef _ h3 h4).2 (bval_of (upd_val ρ st.n v))
    intro cl hcl
    rcases List.mem_append.1 hcl with h | h
    · exact h5 cl h
    · exact h4 cl h
  · intro cl hcl ρ ρ' h1 h2 h3
    rcases List.mem_append.1 hcl with h | h
    · exact hind cl h ρ ρ' h1 h2 h3
    · exact hi.ind cl h ρ ρ' h1 h2 (h3.mono (Nat.le_succ _))
  · intro hnn cl hcl
    rcases List.mem_append.1 hcl with h | h
    · exact hsh hnn cl h
    · exact hi.shape hnn cl h
  · intro cl hcl ρ hE
    rcases List.mem_append.1 hcl with h | h
    · exact hnB cl h ρ hE
    · exact hi.isB cl h ρ hE
  · intro ρ h1 h2
    exact (hdef ρ h1 fun cl h => h2 cl (List.mem_append_right _ h)).1
      fun cl h => h2 cl (List.mem_append_left _ h)

/-- a definition whose clauses are disjunctions of literals -/
theorem defineL {nn : Bool} {st : TSt} (hi : TInv n0 ρ0 nn st) (new : List (List Term)) (v : Bool)
    (hlit : ∀ ls ∈ new, ∀ l ∈ ls, LitG n0 ρ0 (st.n + 1) l)
    (hdef : ∀ ρ, Ext n0 ρ0 ρ → Sat ρ st.cls →
      ((∀ ls ∈ new, ls.any (bval ρ) = true) ↔ bval ρ (tempVar st.n) = v)) :
    TInv n0 ρ0 nn ⟨st.n + 1, st.vis, new.map (mkOr c) ++ st.cls⟩ ∧
      LitV n0 ρ0 ⟨st.n + 1, st.vis, new.map (mkOr c) ++ st.cls⟩ v (tempVar st.n) ∧
      TLe st ⟨st.n + 1, st.vis, new.map (mkOr c) ++ st.cls⟩ := by
  refine define hi _ v ?_ ?_ ?_ ?_
  · intro cl hcl
    obtain ⟨ls, hls, rfl⟩ := List.mem_map.1 hcl
    exact (mkOr_litG (hlit ls hls)).1
  · intro _ cl hcl
    obtain ⟨ls, hls, rfl⟩ := List.mem_map.1 hcl
    exact (mkOr_litG (hlit ls hls)).2.1
  · intro cl hcl ρ hE
    obtain ⟨ls, hls, rfl⟩ := List.mem_map.1 hcl
    exact ⟨_, mkOr_val c fun l hl => (hlit ls hls l hl).isB ρ hE⟩
  · intro ρ h1 h2
    rw [← hdef ρ h1 h2]
    constructor
    · intro h ls hls
      exact ((mkOr_litG (hlit ls hls)).2.2 ρ h1).1 (h _ (List.mem_map_of_mem hls))
    · intro h cl hcl
      obtain ⟨ls, hls, rfl⟩ := List.mem_map.1 hcl
      exact ((mkOr_litG (hlit ls hls)).2.2 ρ h1).2 (h ls hls)

/-- what a translation step delivers -/
def Done (n0 : Nat) (ρ0 : Env) (nn : Bool) (st : TSt) (v : Bool) (p : Term × TSt) : Prop :=
  TInv n0 ρ0 nn p.2 ∧ LitV n0 ρ0 p.2 v p.1 ∧ TLe st p.2

section gates
variable {nn : Bool} {st : TSt} (hc : ∃ u, DFit c u) (hi : TInv n0 ρ0 nn st)
include hc hi

theorem tsXor_ok {va vb : Bool} {a b : Term} (ha : LitV n0 ρ0 st va a) (hb : LitV n0 ρ0 st vb b) :
    Done n0 ρ0 nn st (va ^^ vb) (tsXor c a b st) := by
  have gx := tempVar_litG (ρ0 := ρ0) hi.le
  have ga := ha.g.mono (Nat.le_succ st.n)
  have gb := hb.g.mono (Nat.le_succ st.n)
  obtain ⟨nx, vx⟩ := mkNot_litG hc gx
  obtain ⟨na, va'⟩ := mkNot_litG hc ga
  obtain ⟨nb, vb'⟩ := mkNot_litG hc gb
  refine defineL (c := c) hi [[tempVar st.n, a, mkNot c b], [tempVar st.n, mkNot c a, b],
    [mkNot c (tempVar st.n), a, b], [mkNot c (tempVar st.n), mkNot c a, mkNot c b]] _ ?_ ?_
  · simp [gx, ga, gb, nx, na, nb]
  · intro ρ h1 h2
    simp [vx ρ h1, va' ρ h1, vb' ρ h1, ha.val ρ h1 h2, hb.val ρ h1 h2]
    cases bval ρ (tempVar st.n) <;> cases va <;> cases vb <;> simp

theorem tsEq_ok {va vb : Bool} {a b : Term} (ha : LitV n0 ρ0 st va a) (hb : LitV n0 ρ0 st vb b) :
    Done n0 ρ0 nn st (va == vb) (tsEq c a b st) := by
  have gx := tempVar_litG (ρ0 := ρ0) hi.le
  have ga := ha.g.mono (Nat.le_succ st.n)
  have gb := hb.g.mono (Nat.le_succ st.n)
  obtain ⟨nx, vx⟩ := mkNot_litG hc gx
  obtain ⟨na, va'⟩ := mkNot_litG hc ga
  obtain ⟨nb, vb'⟩ := mkNot_litG hc gb
  refine defineL (c := c) hi [[tempVar st.n, mkNot c a, mkNot c b], [tempVar st.n, a, b],
    [mkNot c (tempVar st.n), mkNot c a, b], [mkNot c (tempVar st.n), a, mkNot c b]] _ ?_ ?_
  · simp [gx, ga, gb, nx, na, nb]
  · intro ρ h1 h2
    simp [vx ρ h1, va' ρ h1, vb' ρ h1, ha.val ρ h1 h2, hb.val ρ h1 h2]
    cases bval ρ (tempVar st.n) <;> cases va <;> cases vb <;> simp

theorem tsDistinct_ok {va vb : Bool} {a b : Term} (ha : LitV n0 ρ0 st va a)
    (hb : LitV n0 ρ0 st vb b) : Done n0 ρ0 nn st (va ^^ vb) (tsDistinct c a b st) := by
  have gx := tempVar_litG (ρ0 := ρ0) hi.le
  have ga := ha.g.mono (Nat.le_succ st.n)
  have gb := hb.g.mono (Nat.le_succ st.n)
  obtain ⟨nx, vx⟩ := mkNot_litG hc gx
  obtain ⟨na, va'⟩ := mkNot_litG hc ga
  obtain ⟨nb, vb'⟩ := mkNot_litG hc gb
  refine defineL (c := c) hi [[tempVar st.n, a, mkNot c b], [tempVar st.n, mkNot c a, b],
    [mkNot c (tempVar st.n), mkNot c a, mkNot c b], [mkNot c (tempVar st.n), a, b]] _ ?_ ?_
  · simp [gx, ga, gb, nx, na, nb]
  · intro ρ h1 h2
    simp [vx ρ h1, va' ρ h1, vb' ρ h1, ha.val ρ h1 h2, hb.val ρ h1 h2]
    cases bval ρ (tempVar st.n) <;> cases va <;> cases vb <;> simp

theorem tsIte_ok {va vb vd : Bool} {a b d : Term} (ha : LitV n0 ρ0 st va a)
    (hb : LitV n0 ρ0 st vb b) (hd : LitV n0 ρ0 st vd d) :
    Done n0 ρ0 nn st (if va then vb else vd) (tsIte c a b d st) := by
  have gx := tempVar_litG (ρ0 := ρ0) hi.le
  have ga := ha.g.mono (Nat.le_succ st.n)
  have gb := hb.g.mono (Nat.le_succ st.n)
  have gd := hd.g.mono (Nat.le_succ st.n)
  obtain ⟨nx, vx⟩ := mkNot_litG hc gx
  obtain ⟨na, va'⟩ := mkNot_litG hc ga
  obtain ⟨nb, vb'⟩ := mkNot_litG hc gb
  obtain ⟨nd, vd'⟩ := mkNot_litG hc gd
  refine defineL (c := c) hi [[tempVar st.n, a, mkNot c d], [tempVar st.n, mkNot c a, mkNot c b],
    [mkNot c (tempVar st.n), a, d], [mkNot c (tempVar st.n), mkNot c a, b]] _ ?_ ?_
  · simp [gx, ga, gb, gd, nx, na, nb, nd]
  · intro ρ h1 h2
    simp [vx ρ h1, va' ρ h1, vb' ρ h1, vd' ρ h1, ha.val ρ h1 h2, hb.val ρ h1 h2, hd.val ρ h1 h2]
    cases bval ρ (tempVar st.n) <;> cases va <;> cases vb <;> cases vd <;> simp

theorem tsAnd_ok {vs : List Bool} {ls : List Term} (h : All2 (LitV n0 ρ0 st) vs ls) :
    Done n0 ρ0 nn st (vs.all id) (tsAnd c ls st) := by
  have gx := tempVar_litG (ρ0 := ρ0) hi.le
  obtain ⟨nx, vx⟩ := mkNot_litG hc gx
  have hl : ∀ l ∈ ls, ∃ v ∈ vs, LitV n0 ρ0 st v l := by
    clear gx nx vx; induction h with
    | nil => simp
    | cons h t ih =>
      intro l hl; simp only [List.mem_cons] at hl
      rcases hl with rfl | hl
      · exact ⟨_, by simp, h⟩
      · obtain ⟨v, h1, h2⟩ := ih l hl; exact ⟨v, by simp [h1], h2⟩
  have hg : ∀ l ∈ ls, LitG n0 ρ0 (st.n + 1) l := fun l hl' => by
    obtain ⟨v, _, h⟩ := hl l hl'; exact h.g.mono (Nat.le_succ _)
  have hval : ∀ ρ, Ext n0 ρ0 ρ → Sat ρ st.cls → ls.map (bval ρ) = vs := by
    intro ρ h1 h2; clear gx nx vx hl hg
    induction h with
    | nil => rfl
    | cons h t ih => simp [ih, h.val ρ h1 h2]
  have := defineL (c := c) hi ((ls.map (mkNot c) ++ [tempVar st.n]) ::
    (ls.map fun l => [mkNot c (tempVar st.n), l]).reverse) (vs.all id) ?_ ?_
  · simpa [Done, tsAnd, List.map_reverse, Function.comp_def] using this
  · intro cl hcl l hm
    simp only [List.mem_cons, List.mem_reverse, List.mem_map] at hcl
    rcases hcl with rfl | ⟨l', hl', rfl⟩
    · simp only [List.mem_append, List.mem_map, List.mem_singleton] at hm
      rcases hm with ⟨l', hl', rfl⟩ | rfl
      · exact (mkNot_litG hc (hg l' hl')).1
      · exact gx
    · simp only [List.mem_cons, List.not_mem_nil, or_false] at hm
      rcases hm with rfl | rfl
      · exact nx
      · exact hg _ hl'
  · intro ρ h1 h2
    rw [← hval ρ h1 h2]
    have e : (ls.map (mkNot c)).any (bval ρ) = ls.any fun l => !bval ρ l := by
      rw [List.any_map, Bool.eq_iff_iff, List.any_eq_true, List.any_eq_true]
      exact exists_congr fun l => and_congr_right fun hl' => by
        simp only [Function.comp]; rw [(mkNot_litG hc (hg l hl')).2 ρ h1]
    simp only [List.forall_mem_cons, List.mem_reverse, List.mem_map, forall_exists_index, and_imp,
      forall_apply_eq_imp_iff₂, List.any_append, e, List.any_cons, List.any_nil, vx ρ h1, Bool.or_false]
    cases bval ρ (tempVar st.n) <;> simp

theorem tsOr_ok {vs : List Bool} {ls : List Term} (h : All2 (LitV n0 ρ0 st) vs ls) :
    Done n0 ρ0 nn st (vs.any id) (tsOr c ls st) := by
  have gx := tempVar_litG (ρ0 := ρ0) hi.le
  obtain ⟨nx, vx⟩ := mkNot_litG hc gx
  have hl : ∀ l ∈ ls, ∃ v ∈ vs, LitV n0 ρ0 st v l := by
    clear gx nx vx; induction h with
    | nil => simp
    | cons h t ih =>
      intro l hl; simp only [List.mem_cons] at hl
      rcases hl with rfl | hl
      · exact ⟨_, by simp, h⟩
      · obtain ⟨v, h1, h2⟩ := ih l hl; exact ⟨v, by simp [h1], h2⟩
  have hg : ∀ l ∈ ls, LitG n0 ρ0 (st.n + 1) l := fun l hl' => by
    obtain ⟨v, _, h⟩ := hl l hl'; exact h.g.mono (Nat.le_succ _)
  have hval : ∀ ρ, Ext n0 ρ0 ρ → Sat ρ st.cls → ls.map (bval ρ) = vs := by
    intro ρ h1 h2; clear gx nx vx hl hg
    induction h with
    | nil => rfl
    | cons h t ih => simp [ih, h.val ρ h1 h2]
  have := defineL (c := c) hi ((ls ++ [mkNot c (tempVar st.n)]) ::
    (ls.map fun l => [mkNot c l, tempVar st.n]).reverse) (vs.any id) ?_ ?_
  · simpa [Done, tsOr, List.map_reverse, Function.comp_def] using this
  · intro cl hcl l hm
    simp only [List.mem_cons, List.mem_reverse, List.mem_map] at hcl
    rcases hcl with rfl | ⟨l', hl', rfl⟩
    · simp only [List.mem_append, List.mem_singleton] at hm
      rcases hm with hm | rfl
      · exact hg _ hm
      · exact nx
    · simp only [List.mem_cons, List.not_mem_nil, or_false] at hm
      rcases hm with rfl | rfl
      · exact (mkNot_litG hc (hg l' hl')).1
      · exact gx
  · intro ρ h1 h2
    rw [← hval ρ h1 h2]
    have e : (∀ l ∈ ls, [mkNot c l, tempVar st.n].any (bval ρ) = true) ↔
        ∀ l ∈ ls, (!bval ρ l || bval ρ (tempVar st.n)) = true :=
      forall_congr' fun l => imp_congr_right fun hl' => by
        simp only [List.any_cons, List.any_nil, Bool.or_false]; rw [(mkNot_litG hc (hg l hl')).2 ρ h1]
    simp only [List.forall_mem_cons, List.mem_reverse, List.mem_map, forall_exists_index, and_imp,
      forall_apply_eq_imp_iff₂]
    rw [e]
    simp only [List.any_append, List.any_cons, List.any_nil, vx ρ h1, Bool.or_false]
    cases bval ρ (tempVar st.n) <;> simp

end gates

theorem tsXorFold_ok {nn : Bool} (hc : ∃ u, DFit c u) : ∀ (ls : List Term) (vs : List Bool) (st : TSt)
    (v : Bool) (a : Term), TInv n0 ρ0 nn st → LitV n0 ρ0 st v a → All2 (LitV n0 ρ0 st) vs ls →
    Done n0 ρ0 nn st (vs.foldl Bool.xor v) (tsXorFold c a ls st) := by
  intro ls
  induction ls with
  | nil => intro vs st v a hi ha h; cases h; exact ⟨hi, ha, TLe.refl _⟩
  | cons b bs ih =>
    intro vs st v a hi ha h
    cases h with
    | cons hb ht =>
      rename_i vb vs
      obtain ⟨h1, h2, h3⟩ := tsXor_ok hc hi ha hb
      have ht' : All2 (LitV n0 ρ0 (tsXor c a b st).2) vs bs := by
        clear ih; induction ht with
        | nil => exact .nil
        | cons h _ ih => exact .cons (h.mono h3) ih
      obtain ⟨g1, g2, g3⟩ := ih vs _ _ _ h1 h2 ht'
      exact ⟨g1, g2, h3.trans g3⟩

theorem memo_ok {nn : Bool} {st : TSt} {t : Term} {p : Term × TSt}
    (h : Done n0 ρ0 nn st (bval ρ0 t) p) : Done n0 ρ0 nn st (bval ρ0 t) (TSt.memo t p) := by
  obtain ⟨h1, h2, h3⟩ := h
  have hl : ∀ v r, LitV n0 ρ0 p.2 v r → LitV n0 ρ0 (TSt.memo t p).2 v r := fun v r h => ⟨h.g, h.val⟩
  refine ⟨⟨h1.le, h1.sat, h1.ind, h1.shape, h1.isB, ?_⟩, hl _ _ h2, ⟨h3.n, h3.cls⟩⟩
  intro k v hf
  simp only [TSt.memo, VMap.find_cons] at hf
  split at hf
  · rename_i e; subst e; simp at hf; subst hf; exact hl _ _ h2
  · exact hl _ _ (h1.vis k v hf)

theorem All2.mono {α β : Type} {R S : α → β → Prop} (h : ∀ a b, R a b → S a b) {l : List α}
    {r : List β} (ha : All2 R l r) : All2 S l r := by
  induction ha with
  | nil => exact .nil
  | cons h1 _ ih => exact .cons (h _ _ h1) ih

theorem All2.length {α β : Type} {R : α → β → Prop} {l : List α}
    {r : List β} (ha : All2 R l r) : l.length = r.length := by
  induction ha with
  | nil => rfl
  | cons h1 _ ih => simp [ih]

theorem tsInL_iff (am : VMap) (nn : Bool) (ts : List Term) :
    tsInL am nn ts = true ↔ ∀ t ∈ ts, tsIn am nn t = true := by
  induction ts with
  | nil => simp [tsInL]
  | cons t ts ih => simp [tsInL, ih]

theorem noFresh_kid {n : Nat} {k : Kind} {s : Srt} {ts : List Term} (h : noFresh n (.app k s ts))
    {u : Term} (hu : u ∈ ts) : noFresh n u := by
  intro i hi hx
  refine h i hi ?_
  simp only [subs, List.mem_cons]; exact .inr (mem_subsL.2 ⟨u, hu, hx⟩)

theorem litG_of {r : Term} (hl : isLit r = true) (hn : noFresh n0 r) (hB : IsB ρ0 r) (n : Nat) :
    LitG n0 ρ0 n r ∧ ∀ ρ, Ext n0 ρ0 ρ → bval ρ r = bval ρ0 r := by
  have hv : ∀ ρ, Ext n0 ρ0 ρ → eval ρ r = some (.b (bval ρ0 r)) := fun ρ h => by
    rw [h.eval hn, hB.eval]
  refine ⟨⟨hl, fun ρ ρ' h1 h2 _ => by rw [hv ρ h1, hv ρ' h2], fun ρ h => ⟨_, hv ρ h⟩⟩,
    fun ρ h => bval_of (hv ρ h)⟩

theorem isLiteral_isLit {t : Term} (h : isLiteral t = true) (hB : IsB ρ0 t) : isLit t = true := by
  simp only [isLiteral, Bool.or_eq_true] at h
  rcases h with (h | h) | h
  · unfold isVBool at h; split at h
    · exact h
    · cases h
  · split at h
    · rename_i s u l
      obtain ⟨w, e, _, _⟩ := not_child hB
      simp only [List.cons.injEq] at e
      obtain ⟨rfl, rfl⟩ := e
      unfold isVBool at h; split at h
      · simpa [isLit, isBVar] using h
      · cases h
    · cases h
  · cases t <;> simp [isCBool, Term.isTrue, Term.isFalse] at h <;> rfl

theorem tsIn_atom {am : VMap} {nn : Bool} {t : Term} (ha : isAtom t = true)
    (hin : tsIn am nn t = true) : (am.find t).isSome = true := by
  cases t with
  | app k s ts =>
    cases k <;> first
      | (simp [isAtom] at ha; done)
      | (simp only [tsIn] at hin; exact hin)
      | (simp only [tsIn, Bool.and_eq_true] at hin; exact hin.2)
      | (simp only [tsIn] at hin; rw [if_pos ha] at hin; exact hin)
  | _ => simp [isAtom] at ha

section rec'
variable {am : VMap} {nn : Bool} (hm : MapOK n0 ρ0 am)

theorem tseitinL_ok (ts : List Term)
    (hE : ∀ t ∈ ts, ∀ st, IsB ρ0 t → TInv n0 ρ0 nn st →
      Done n0 ρ0 nn st (bval ρ0 t) (tseitin c am t st)) :
    ∀ st, (∀ t ∈ ts, IsB ρ0 t) → TInv n0 ρ0 nn st →
      TInv n0 ρ0 nn (tseitinL c am ts st).2 ∧ TLe st (tseitinL c am ts st).2 ∧
        All2 (LitV n0 ρ0 (tseitinL c am ts st).2) (ts.map (bval ρ0)) (tseitinL c am ts st).1 := by
  induction ts with
  | nil => intro st _ hi; exact ⟨hi, TLe.refl _, .nil⟩
  | cons t ts ih =>
    intro st hB hi
    obtain ⟨h1, h2, h3⟩ := hE t (by simp) st (hB t (by simp)) hi
    obtain ⟨g1, g2, g3⟩ := ih (fun u hu => hE u (by simp [hu])) _ (fun u hu => hB u (by simp [hu])) h1
    simp only [tseitinL, List.map_cons]
    exact ⟨g1, h3.trans g2, .cons (h2.mono g2) g3⟩

theorem tseitinEqs_ok (hc : ∃ u, DFit c u) {va : Bool} {a : Term} (ts : List Term)
    (hE : ∀ t ∈ ts, ∀ st, IsB ρ0 t → TInv n0 ρ0 nn st →
      Done n0 ρ0 nn st (bval ρ0 t) (tseitin c am t st)) :
    ∀ st, (∀ t ∈ ts, IsB ρ0 t) → TInv n0 ρ0 nn st → LitV n0 ρ0 st va a →
      TInv n0 ρ0 nn (tseitinEqs c am a ts st).2 ∧ TLe st (tseitinEqs c am a ts st).2 ∧
        All2 (LitV n0 ρ0 (tseitinEqs c am a ts st).2) (ts.map fun t => va == bval ρ0 t)
          (tseitinEqs c am a ts st).1 := by
  induction ts with
  | nil => intro st _ hi _; exact ⟨hi, TLe.refl _, .nil⟩
  | cons t ts ih =>
    intro st hB hi ha
    obtain ⟨h1, h2, h3⟩ := hE t (by simp) st (hB t (by simp)) hi
    obtain ⟨e1, e2, e3⟩ := tsEq_ok hc h1 (ha.mono h3) h2
    obtain ⟨g1, g2, g3⟩ := ih (fun u hu => hE u (by simp [hu])) _ (fun u hu => hB u (by simp [hu])) e1
      ((ha.mono h3).mono e3)
    simp only [tseitinEqs, List.map_cons]
    exact ⟨g1, (h3.trans e3).trans g2, .cons (e2.mono g2) g3⟩

include hm in
theorem tseitin_ok : ∀ (n : Nat) (t : Term) (st : TSt), t.size ≤ n → DFit c t →
    tsIn am nn t = true → noFresh n0 t → IsB ρ0 t → TInv n0 ρ0 nn st →
    Done n0 ρ0 nn st (bval ρ0 t) (tseitin c am t st) := by
  intro n
  induction n with
  | zero => intro t st h; cases t <;> simp [size] at h
  | succ n ih =>
    intro t st hsz hf hin hfr hB hi
    have hc : ∃ u, DFit c u := ⟨t, hf⟩
    have hlit : isLiteral t = true → Done n0 ρ0 nn st (bval ρ0 t) (t, st) := by
      intro h
      obtain ⟨h1, h2⟩ := litG_of (isLiteral_isLit h hB) hfr hB st.n
      exact ⟨hi, ⟨h1, fun ρ hρ _ => h2 ρ hρ⟩, TLe.refl _⟩
    cases t with
    | app k s ts =>
      rw [tseitin.eq_def]
      simp only
      split
      · -- atom
        rename_i ha
        have hsome := tsIn_atom ha hin
        obtain ⟨v, hv⟩ := Option.isSome_iff_exists.1 hsome
        obtain ⟨h1, h2, h3, h4⟩ := hm _ _ hv
        obtain ⟨h5, h6⟩ := litG_of h1 h2 h3 st.n
        rw [hv]
        exact ⟨hi, ⟨h5, fun ρ hρ _ => by rw [Option.getD_some, h6 ρ hρ, h4]⟩, TLe.refl _⟩
      · rename_i ha
        have ha : isAtom (.app k s ts) = false := by simpa using ha
        split
        · rename_i hl; exact hlit hl
        · rename_i hnl
          split
          · rename_i r hr
            exact ⟨hi, hi.vis _ _ hr, TLe.refl _⟩
          · have hE : tsInL am nn ts = true → ∀ t ∈ ts, ∀ st, IsB ρ0 t → TInv n0 ρ0 nn st →
                Done n0 ρ0 nn st (bval ρ0 t) (tseitin c am t st) := by
              intro hl t ht st hb hi
              have := size_child (k := k) (s := s) ht
              exact ih t st (by omega) (hf.child ht) ((tsInL_iff am nn ts).1 hl t ht)
                (noFresh_kid hfr ht) hb hi
            split
            · -- not
              obtain ⟨u, rfl, hu, hv⟩ := not_child hB
              simp only [tsIn, Bool.or_eq_true, Bool.and_eq_true, List.all_cons, List.all_nil,
                Bool.and_true, Bool.not_eq_true'] at hin
              have hin : nn = false ∧ negBin u = true := by
                rcases hin with h | h
                · simp [isLiteral, h] at hnl
                · exact h
              obtain ⟨rfl, hnb⟩ := hin
              have gx := tempVar_litG (ρ0 := ρ0) hi.le
              obtain ⟨nx, vx⟩ := mkNot_litG hc gx
              have hub : ∀ ρ, Ext n0 ρ0 ρ → IsB ρ u ∧ bval ρ u = bval ρ0 u ∧
                  eval ρ (mkNot c u) = some (.b (!bval ρ0 u)) := by
                intro ρ hρ
                have e := hρ.eval (noFresh_kid hfr (u := u) (by simp))
                have b : IsB ρ u := ⟨_, by rw [e]; exact hu.eval⟩
                have e2 : bval ρ u = bval ρ0 u := bval_of (by rw [e]; exact hu.eval)
                refine ⟨b, e2, ?_⟩
                rw [mkNot_val c ρ u (hf.child (by simp)) hnb b, e2]
              have hcl1 : ∀ ρ, Ext n0 ρ0 ρ → eval ρ (mkOr c [u, tempVar st.n]) =
                  some (.b (bval ρ0 u || bval ρ (tempVar st.n))) := by
                intro ρ hρ
                obtain ⟨b1, b2, b3⟩ := hub ρ hρ
                rw [mkOr_val c (by simp [b1, gx.isB ρ hρ])]; simp [b2]
              have hcl2 : ∀ ρ, Ext n0 ρ0 ρ → eval ρ (mkOr c [mkNot c (tempVar st.n), mkNot c u]) =
                  some (.b (!bval ρ (tempVar st.n) || !bval ρ0 u)) := by
                intro ρ hρ
                obtain ⟨b1, b2, b3⟩ := hub ρ hρ
                have b4 : IsB ρ (mkNot c u) := ⟨_, b3⟩
                rw [mkOr_val c (by simp [b4, nx.isB ρ hρ])]; simp [vx ρ hρ, bval_of b3]
              have hD : Done n0 ρ0 false st (bval ρ0 (.app .not s [u])) (tempVar st.n,
                  ⟨st.n + 1, st.vis, [mkOr c [u, tempVar st.n],
                    mkOr c [mkNot c (tempVar st.n), mkNot c u]] ++ st.cls⟩) := by
                refine define hi _ _ ?_ (by simp) ?_ ?_
                · intro cl hcl ρ ρ' h1 h2 h3
                  have e : bval ρ' (tempVar st.n) = bval ρ (tempVar st.n) := by
                    simp only [bval, gx.ind ρ ρ' h1 h2 h3]
                  simp only [List.mem_cons, List.not_mem_nil, or_false] at hcl
                  rcases hcl with rfl | rfl
                  · rw [hcl1 ρ h1, hcl1 ρ' h2, e]
                  · rw [hcl2 ρ h1, hcl2 ρ' h2, e]
                · intro cl hcl ρ h1
                  simp only [List.mem_cons, List.not_mem_nil, or_false] at hcl
                  rcases hcl with rfl | rfl
                  · exact ⟨_, hcl1 ρ h1⟩
                  · exact ⟨_, hcl2 ρ h1⟩
                · intro ρ h1 _
                  simp only [Sat, List.forall_mem_cons, List.not_mem_nil, false_imp_iff, implies_true,
                    and_true, hcl1 ρ h1, hcl2 ρ h1, hv, Option.some.injEq, Val.b.injEq]
                  cases bval ρ (tempVar st.n) <;> cases bval ρ0 u <;> simp
              exact memo_ok hD
            · -- and
              simp only [tsIn] at hin
              obtain ⟨hk, hv⟩ := and_node hB
              obtain ⟨l1, l2, l3⟩ := tseitinL_ok ts (hE hin) st hk hi
              rw [hv]
              split
              · rename_i h1
                generalize tseitinL c am ts st = p at *
                obtain ⟨ls, st'⟩ := p
                obtain ⟨l, rfl⟩ := List.length_eq_one_iff.1 h1
                obtain ⟨u, rfl⟩ := List.length_eq_one_iff.1 (by simpa using l3.length)
                simp only [List.map_cons, List.map_nil] at l3
                cases l3 with
                | cons h _ => exact ⟨l1, by simpa using h, l2⟩
              · have := tsAnd_ok hc l1 l3
                rw [List.all_map, Function.id_comp, ← hv] at this
                rw [← hv]
                exact memo_ok ⟨this.1, this.2.1, l2.trans this.2.2⟩
            · -- or
              simp only [tsIn] at hin
              obtain ⟨hk, hv⟩ := or_node hB
              obtain ⟨l1, l2, l3⟩ := tseitinL_ok ts (hE hin) st hk hi
              rw [hv]
              split
              · rename_i h1
                generalize tseitinL c am ts st = p at *
                obtain ⟨ls, st'⟩ := p
                obtain ⟨l, rfl⟩ := List.length_eq_one_iff.1 h1
                obtain ⟨u, rfl⟩ := List.length_eq_one_iff.1 (by simpa using l3.length)
                simp only [List.map_cons, List.map_nil] at l3
                cases l3 with
                | cons h _ => exact ⟨l1, by simpa using h, l2⟩
              · have := tsOr_ok hc l1 l3
                rw [List.any_map, Function.id_comp, ← hv] at this
                rw [← hv]
                exact memo_ok ⟨this.1, this.2.1, l2.trans this.2.2⟩
            · simp [tsIn] at hin
            · -- xor
              simp only [tsIn, Bool.and_eq_true] at hin
              obtain ⟨hk, hv⟩ := xor_node hB
              obtain ⟨l1, l2, l3⟩ := tseitinL_ok ts (hE hin.2) st hk hi
              cases ts with
              | nil => simp at hin
              | cons t0 ts =>
                generalize tseitinL c am (t0 :: ts) st = p at *
                obtain ⟨ls, st'⟩ := p
                simp only [List.map_cons] at l3
                cases l3 with
                | cons h ht =>
                  obtain ⟨g1, g2, g3⟩ := tsXorFold_ok hc _ _ _ _ _ l1 h ht
                  refine memo_ok ⟨g1, ?_, l2.trans g3⟩
                  rw [hv]; simpa using g2
            · -- eq
              simp only [tsIn, ha, Bool.and_eq_true, Bool.false_eq_true, if_false] at hin
              rw [if_pos hin.1]
              obtain ⟨hlen, hk, hv⟩ := eq_node hB (by simpa using hin.1)
              have hE := hE hin.2
              rcases ts with _ | ⟨a, _ | ⟨b, _ | ⟨d, r⟩⟩⟩
              · simp at hlen
              · simp at hlen
              · simp only
                obtain ⟨a1, a2, a3⟩ := hE a (by simp) st (hk a (by simp)) hi
                obtain ⟨b1, b2, b3⟩ := hE b (by simp) _ (hk b (by simp)) a1
                obtain ⟨e1, e2, e3⟩ := tsEq_ok hc b1 (a2.mono b3) b2
                refine memo_ok ⟨e1, ?_, (a3.trans b3).trans e3⟩
                have : bval ρ0 (.app .eq s [a, b]) = (bval ρ0 a == bval ρ0 b) := by
                  rw [Bool.eq_iff_iff, hv]; simp; grind
                rw [this]; exact e2
              · simp only
                obtain ⟨a1, a2, a3⟩ := hE a (by simp) st (hk a (by simp)) hi
                obtain ⟨b1, b2, b3⟩ := tseitinEqs_ok hc (b :: d :: r) (fun u hu => hE u (List.mem_cons_of_mem _ hu)) _
                  (fun u hu => hk u (List.mem_cons_of_mem _ hu)) a1 a2
                obtain ⟨e1, e2, e3⟩ := tsAnd_ok hc b1 b3
                refine memo_ok ⟨e1, ?_, (a3.trans b2).trans e3⟩
                have : bval ρ0 (.app .eq s (a :: b :: d :: r)) = ((b :: d :: r).map fun t => bval ρ0 a == bval ρ0 t).all id := by
                  rw [Bool.eq_iff_iff, hv]
                  simp only [List.all_map, List.all_eq_true, Function.comp, id, beq_iff_eq]
                  constructor
                  · intro h t ht; exact h a (by simp) t (List.mem_cons_of_mem _ ht)
                  · intro h t ht u hu
                    have e : ∀ t ∈ a :: b :: d :: r, bval ρ0 a = bval ρ0 t := by
                      intro t ht
                      rcases List.mem_cons.1 ht with rfl | ht
                      · rfl
                      · exact h t ht
                    rw [← e t ht, ← e u hu]
                rw [this]; exact e2
            · -- distinct
              simp only [tsIn, ha, Bool.and_eq_true, Bool.false_eq_true, if_false] at hin
              rw [if_pos hin.1]
              obtain ⟨hlen, hk, hv⟩ := distinct_node hB (by simpa using hin.1)
              have hE := hE hin.2
              rcases ts with _ | ⟨a, _ | ⟨b, _ | ⟨d, r⟩⟩⟩
              · simp at hlen
              · simp at hlen
              · simp only
                obtain ⟨a1, a2, a3⟩ := hE a (by simp) st (hk a (by simp)) hi
                obtain ⟨b1, b2, b3⟩ := hE b (by simp) _ (hk b (by simp)) a1
                obtain ⟨e1, e2, e3⟩ := tsDistinct_ok hc b1 (a2.mono b3) b2
                refine memo_ok ⟨e1, ?_, (a3.trans b3).trans e3⟩
                have : bval ρ0 (.app .distinct s [a, b]) = (bval ρ0 a ^^ bval ρ0 b) := by
                  rw [Bool.eq_iff_iff, hv]
                  have e : [a, b].Pairwise (fun t u => bval ρ0 t ≠ bval ρ0 u) ↔
                    bval ρ0 a ≠ bval ρ0 b := by simp
                  rw [e]; cases bval ρ0 a <;> cases bval ρ0 b <;> simp
                rw [this]; exact e2
              · have h0 : bval ρ0 (.app .distinct s (a :: b :: d :: r)) = false := by
                  rw [← Bool.not_eq_true, hv]
                  simp only [List.pairwise_cons, List.mem_cons]
                  rintro ⟨h1, h2, _⟩
                  have e1 := h1 b (.inl rfl)
                  have e2 := h1 d (.inr (.inl rfl))
                  have e3 := h2 d (.inl rfl)
                  revert e1 e2 e3
                  cases bval ρ0 a <;> cases bval ρ0 b <;> cases bval ρ0 d <;> simp
                rw [h0]
                exact ⟨hi, ⟨⟨rfl, fun _ _ _ _ _ => rfl, fun ρ _ => IsB_ff ρ⟩, fun _ _ _ => rfl⟩,
                  TLe.refl _⟩
            · -- ite
              simp only [tsIn] at hin
              obtain ⟨a, b, d, rfl, hka, hkb, hkd, hv⟩ := ite_node hB
              have hE := hE hin
              simp only
              rw [if_pos (by simp [hkb.sort, hkd.sort])]
              obtain ⟨a1, a2, a3⟩ := hE a (by simp) st hka hi
              obtain ⟨b1, b2, b3⟩ := hE b (by simp) _ hkb a1
              obtain ⟨d1, d2, d3⟩ := hE d (by simp) _ hkd b1
              obtain ⟨e1, e2, e3⟩ := tsIte_ok hc d1 (a2.mono (b3.trans d3)) (b2.mono d3) d2
              refine memo_ok ⟨e1, ?_, ((a3.trans b3).trans d3).trans e3⟩
              rw [hv]; exact e2
            · exfalso
              rw [tsIn.eq_def] at hin
              split at hin <;> simp_all [isAtom]
    | var vk s x =>
      have hs := hB.sort
      simp only [Term.sort] at hs
      subst hs
      have hl : isLiteral (.var vk .bool x) = true := by simp [isLiteral, isVBool]
      rw [tseitin.eq_def]; simp only [hl, Bool.true_or, if_true]; exact hlit hl
    | tt => have hl : isLiteral .tt = true := rfl
            rw [tseitin.eq_def]; simp only [hl, Bool.true_or, if_true]; exact hlit hl
    | ff => have hl : isLiteral .ff = true := rfl
            rw [tseitin.eq_def]; simp only [hl, Bool.true_or, if_true]; exact hlit hl
    | _ => simp [tsIn] at hin

end rec'
end

end SMT
