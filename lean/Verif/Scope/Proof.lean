import Verif.Scope.Spec

/-! # Proofs about scoping (C38, C49) -/

namespace SMT.Scope

variable {V : Type}

/-! ## Association lists -/

theorem lk_self {α β : Type} [BEq α] [LawfulBEq α] (k : α) (b : β) (l : List (α × β)) : List.lookup k ((k, b) :: l) = some b := by
  simp [List.lookup]

theorem lk_ne {α β : Type} [BEq α] [LawfulBEq α] {k a : α} (h : k ≠ a) (b : β) (l : List (α × β)) :
    List.lookup k ((a, b) :: l) = l.lookup k := by
  have : (k == a) = false := beq_eq_false_iff_ne.mpr h
  simp [List.lookup, this]

theorem lk_filter {α β : Type} [BEq α] [LawfulBEq α] (f : α → Bool) (k : α) (l : List (α × β)) :
    List.lookup k (l.filter fun p => f p.1) = if f k then l.lookup k else none := by
  induction l with
  | nil => simp
  | cons p l ih =>
    obtain ⟨a, b⟩ := p
    rw [List.filter_cons]
    by_cases hk : k = a
    · subst hk
      cases hf : f k
      · simp only [hf, Bool.false_eq_true, if_false] at ih ⊢; exact ih
      · simp only [if_true, lk_self]
    · cases hf : f a
      · simp only [Bool.false_eq_true, if_false, ih, lk_ne hk]
      · simp only [if_true, lk_ne hk, ih]

theorem lk_mem {α β : Type} [BEq α] [LawfulBEq α] {p : α × β} {l : List (α × β)} (h : p ∈ l) : (l.lookup p.1).isSome := by
  induction l with
  | nil => simp at h
  | cons q l ih =>
    obtain ⟨a, b⟩ := q
    by_cases hk : p.1 = a
    · rw [hk, lk_self]; rfl
    · rw [lk_ne hk]
      rcases List.mem_cons.mp h with rfl | h
      · exact absurd rfl hk
      · exact ih h

/-! ## Quantified variables occurring in a node -/

mutual
/-- quantified variables free in a node -/
def qfree : R → List (String × Nat)
  | .qv x s => [(x, s)]
  | .letv _ r => qfree r
  | .app _ args => qfreeL args
  | .quant _ vs body => (qfree body).filter fun y => decide (y ∉ vs)
  | .chain _ body => qfree body
  | _ => []
/-- the same for lists -/
def qfreeL : Rs → List (String × Nat)
  | .nil => []
  | .cons r rs => qfree r ++ qfreeL rs
end

theorem setQ_out (d : V) (vs : List (String × Nat)) : ∀ (σ : String → Nat → V) (vals : List V) (x : String) (s : Nat),
    x ∉ vs.map Prod.fst → setQ d σ vs vals x s = σ x s := by
  induction vs with
  | nil => intro σ vals x s _; simp [setQ]
  | cons p vs ih =>
    obtain ⟨y, t⟩ := p
    intro σ vals x s h
    simp only [List.map_cons, List.mem_cons, not_or] at h
    cases vals with
    | nil => simp only [setQ]; rw [ih _ _ _ _ h.2]; simp [h.1]
    | cons v vals => simp only [setQ]; rw [ih _ _ _ _ h.2]; simp [h.1]

theorem setQ_congr (d : V) (vs : List (String × Nat)) : ∀ (σ τ : String → Nat → V) (vals : List V) (x : String) (s : Nat),
    (σ x s = τ x s) → setQ d σ vs vals x s = setQ d τ vs vals x s := by
  induction vs with
  | nil => intro σ τ vals x s h; simpa [setQ] using h
  | cons p vs ih =>
    obtain ⟨y, t⟩ := p
    intro σ τ vals x s h
    cases vals with
    | nil => simp only [setQ]; exact ih _ _ _ _ _ (by simp only [h])
    | cons v vals => simp only [setQ]; exact ih _ _ _ _ _ (by simp only [h])

theorem setQ_in (d : V) (vs : List (String × Nat)) : ∀ (σ τ : String → Nat → V) (vals : List V) (x : String) (s : Nat),
    (x, s) ∈ vs → setQ d σ vs vals x s = setQ d τ vs vals x s := by
  induction vs with
  | nil => intro σ τ vals x s h; simp at h
  | cons p vs ih =>
    obtain ⟨y, t⟩ := p
    intro σ τ vals x s h
    by_cases he : (x, s) = (y, t)
    · cases he
      cases vals with
      | nil => simp only [setQ]; exact setQ_congr _ _ _ _ _ _ _ (by simp)
      | cons v vals => simp only [setQ]; exact setQ_congr _ _ _ _ _ _ _ (by simp)
    · have h' := (List.mem_cons.mp h).resolve_left he
      cases vals with
      | nil => simp only [setQ]; exact ih _ _ _ _ _ h'
      | cons v vals => simp only [setQ]; exact ih _ _ _ _ _ h'

mutual
theorem evalR_congr (I : Interp V) (g : Glob V) : (r : R) → (σ τ : String → Nat → V) →
    (∀ x ∈ qfree r, σ x.1 x.2 = τ x.1 x.2) → evalR I g σ r = evalR I g τ r
  | .fn _, _, _, _ | .par _, _, _, _ | .glob _, _, _, _ => by simp [evalR]
  | .qv x s, σ, τ, h => by simp only [evalR]; exact h (x, s) (by simp [qfree])
  | .letv _ r, σ, τ, h => by simp only [evalR]; exact evalR_congr I g r σ τ (fun x hx => h x (by simpa only [qfree] using hx))
  | .app _ args, σ, τ, h => by
    simp only [evalR]; rw [evalRs_congr I g args σ τ (fun x hx => h x (by simpa only [qfree] using hx))]
  | .chain _ body, σ, τ, h => by
    simp only [evalR]; exact evalR_congr I g body σ τ (fun x hx => h x (by simpa only [qfree] using hx))
  | .quant all vs body, σ, τ, h => by
    simp only [evalR]
    congr 1
    funext vals
    refine evalR_congr I g body _ _ fun x hx => ?_
    by_cases hv : x ∈ vs
    · exact setQ_in I.dflt vs σ τ vals x.1 x.2 hv
    · exact setQ_congr _ _ _ _ _ _ _ (h x (by simp only [qfree, List.mem_filter, decide_eq_true_eq]; exact ⟨hx, hv⟩))
theorem evalRs_congr (I : Interp V) (g : Glob V) : (rs : Rs) → (σ τ : String → Nat → V) →
    (∀ x ∈ qfreeL rs, σ x.1 x.2 = τ x.1 x.2) → evalRs I g σ rs = evalRs I g τ rs
  | .nil, _, _, _ => by simp [evalRs]
  | .cons r rs, σ, τ, h => by
    simp only [evalRs]
    rw [evalR_congr I g r σ τ (fun x hx => h x (by simp [qfreeL, hx])),
      evalRs_congr I g rs σ τ (fun x hx => h x (by simp [qfreeL, hx]))]
end

/-! ## Environments -/

theorem setN_out (d : V) (xs : List String) : ∀ (ρ : String → V) (vals : List V) (x : String), x ∉ xs →
    setN d ρ xs vals x = ρ x := by
  induction xs with
  | nil => intro ρ vals x _; simp [setN]
  | cons y xs ih =>
    intro ρ vals x h
    simp only [List.mem_cons, not_or] at h
    cases vals with
    | nil => simp only [setN]; rw [ih _ _ _ h.2]; simp [set1, h.1]
    | cons v vals => simp only [setN]; rw [ih _ _ _ h.2]; simp [set1, h.1]

theorem setQ_setN (d : V) (vs : List (String × Nat)) : ∀ (σ : String → Nat → V) (ρ : String → V) (vals : List V) (x : String)
    (s : Nat), (vs.map Prod.fst).Nodup → (x, s) ∈ vs → setQ d σ vs vals x s = setN d ρ (vs.map Prod.fst) vals x := by
  induction vs with
  | nil => intro σ ρ vals x s _ h; simp at h
  | cons p vs ih =>
    obtain ⟨y, t⟩ := p
    intro σ ρ vals x s hn h
    simp only [List.map_cons, List.nodup_cons] at hn
    by_cases he : (x, s) = (y, t)
    · cases he
      cases vals with
      | nil => simp only [setQ, List.map_cons, setN]; rw [setQ_out _ _ _ _ _ _ hn.1, setN_out _ _ _ _ _ hn.1]; simp [set1]
      | cons v vals =>
        simp only [setQ, List.map_cons, setN]; rw [setQ_out _ _ _ _ _ _ hn.1, setN_out _ _ _ _ _ hn.1]; simp [set1]
    · have h' := (List.mem_cons.mp h).resolve_left he
      cases vals with
      | nil => simp only [setQ, List.map_cons, setN]; exact ih _ _ _ _ _ hn.2 h'
      | cons v vals => simp only [setQ, List.map_cons, setN]; exact ih _ _ _ _ _ hn.2 h'

theorem evalB_out (I : Interp V) (ρ : String → V) : (bs : Bs) → (acc : String → V) → (x : String) → x ∉ bnames bs →
    evalB I ρ acc bs x = acc x
  | .nil, _, _, _ => by simp [evalB]
  | .cons y e bs, acc, x, h => by
    simp only [bnames, List.mem_cons, not_or] at h
    simp only [evalB]
    rw [evalB_out I ρ bs _ x h.2]; simp [set1, h.1]

theorem bnames_sub : (bs : Bs) → ∀ x ∈ bnames bs, x ∈ lnamesB bs
  | .nil, _, h => by simp [bnames] at h
  | .cons y e bs, x, h => by
    simp only [bnames, lnamesB, List.mem_cons, List.mem_append] at h ⊢
    rcases h with h | h
    · exact .inl h
    · exact .inr (.inr (bnames_sub bs x h))

/-! ## Invariants -/

/-- the entry of a name under the current counter -/
def vis (c : Ctx) (st : S) (x : String) : Option R := st.lets.lookup (key c st x)

structure Z (c : Ctx) (st : S) : Prop where
  keepB : c.keep = true → ∀ k r, st.lets.lookup k = some r → k.2 ≤ st.counter
  dropB : c.keep = false → st.depth = 0 → ∀ x, st.lets.lookup (x, 0) = none

structure Stat (c : Ctx) (st : S) (Γ : List String) : Prop where
  gam : ∀ x ∈ Γ, x ∉ c.names
  res : ∀ x ∈ Γ, ∃ r, resolve c st x = .ok r ∧ ∀ y ∈ qfree r, st.quants.lookup y.1 = some y
  cl : ∀ x ∈ c.names, letLookup c st x = none
  qg : ∀ x v, st.quants.lookup x = some v → x ∈ Γ ∧ v.1 = x ∧ 0 < st.qdepth

structure Same (c : Ctx) (st st' : S) (L : List String) : Prop where
  quants : st'.quants = st.quants
  depth : st'.depth = st.depth
  qdepth : st'.qdepth = st.qdepth
  counter : 0 < st.depth → st'.counter = st.counter
  vis : 0 < st.depth → ∀ x, x ∉ L → vis c st' x = vis c st x

structure Nm (c : Ctx) (st : S) (Γ ln qn : List String) : Prop where
  nd : ln.Nodup
  lc : ∀ x ∈ ln, x ∉ c.names ∧ x ∉ Γ ∧ x ∉ qn
  lv : ∀ x ∈ ln, 0 < st.depth → vis c st x = none
  qc : ∀ x ∈ qn, x ∉ c.names ∧ (0 < st.depth → vis c st x = none)

/-- the environment gives the names in scope the values of the nodes they resolve to -/
def Agree (c : Ctx) (st : S) (Γ : List String) (I : Interp V) (g : Glob V) (ρ : String → V) (σ : String → Nat → V) : Prop :=
  ∀ x, x ∈ Γ ∨ x ∈ c.names → ∀ r, resolve c st x = .ok r → evalR I g σ r = ρ x

structure Post (c : Ctx) (st : S) (Γ : List String) (e : E) (r : R) (st' : S) : Prop where
  z : Z c st'
  same : Same c st st' (lnames e)
  drop : c.keep = false → ∀ x, st'.lets.lookup (x, 0) = st.lets.lookup (x, 0)
  qf : ∀ y ∈ qfree r, st.quants.lookup y.1 = some y
  val : ∀ (V : Type) (I : Interp V) (g : Glob V) (ρ : String → V) (σ : String → Nat → V), Agree c st Γ I g ρ σ →
    evalR I g σ r = evalE I ρ e

structure PostL (c : Ctx) (st : S) (Γ : List String) (es : Es) (rs : Rs) (st' : S) : Prop where
  z : Z c st'
  same : Same c st st' (lnamesL es)
  drop : c.keep = false → ∀ x, st'.lets.lookup (x, 0) = st.lets.lookup (x, 0)
  qf : ∀ y ∈ qfreeL rs, st.quants.lookup y.1 = some y
  val : ∀ (V : Type) (I : Interp V) (g : Glob V) (ρ : String → V) (σ : String → Nat → V), Agree c st Γ I g ρ σ →
    evalRs I g σ rs = evalEs I ρ es

structure PostB (c : Ctx) (st : S) (Γ : List String) (bs : Bs) (ks : List (String × Nat)) (st' : S) : Prop where
  z : Z c st'
  same : Same c st st' (lnamesB bs)
  drop : c.keep = false → ∀ x, x ∉ bnames bs → st'.lets.lookup (x, 0) = st.lets.lookup (x, 0)
  keys : ks = (bnames bs).map (key c st)
  bound : ∀ x ∈ bnames bs, ∃ v, vis c st' x = some v ∧ (∀ y ∈ qfree v, st.quants.lookup y.1 = some y) ∧
    ∀ (V : Type) (I : Interp V) (g : Glob V) (ρ acc : String → V) (σ : String → Nat → V), Agree c st Γ I g ρ σ →
      evalR I g σ v = evalB I ρ acc bs x

theorem letLookup_eq {c : Ctx} {st : S} {x : String} : letLookup c st x = if st.depth = 0 then none else vis c st x := rfl

theorem Same.letLookup {c : Ctx} {st st' : S} {L : List String} (h : Same c st st' L) {x : String} (hx : x ∉ L) :
    letLookup c st' x = letLookup c st x := by
  rw [letLookup_eq, letLookup_eq, h.depth]
  split
  · rfl
  · exact h.vis (by omega) x hx

theorem resolve_congr {c : Ctx} {st st' : S} {x : String} (h1 : letLookup c st' x = letLookup c st x)
    (h2 : (if st'.qdepth = 0 then none else st'.quants.lookup x) = if st.qdepth = 0 then none else st.quants.lookup x) :
    resolve c st' x = resolve c st x := by
  unfold resolve; rw [h1, h2]

theorem Same.resolve {c : Ctx} {st st' : S} {L : List String} (h : Same c st st' L) {x : String} (hx : x ∉ L) :
    resolve c st' x = resolve c st x := resolve_congr (h.letLookup hx) (by rw [h.quants, h.qdepth])

theorem Same.refl (c : Ctx) (st : S) (L : List String) : Same c st st L := ⟨rfl, rfl, rfl, fun _ => rfl, fun _ _ _ => rfl⟩

theorem Same.trans {c : Ctx} {a b d : S} {L M N : List String} (h : Same c a b L) (g : Same c b d M)
    (hL : ∀ x ∈ L, x ∈ N) (hM : ∀ x ∈ M, x ∈ N) : Same c a d N :=
  ⟨g.quants.trans h.quants, g.depth.trans h.depth, g.qdepth.trans h.qdepth,
    fun p => (g.counter (h.depth.symm ▸ p)).trans (h.counter p),
    fun p x hx => (g.vis (h.depth.symm ▸ p) x (fun q => hx (hM x q))).trans (h.vis p x (fun q => hx (hL x q)))⟩

/-- a known name resolves to a node without quantified variables -/
theorem Stat.names {c : Ctx} {st : S} {Γ : List String} (h : Stat c st Γ) {x : String} (hx : x ∈ c.names) :
    ∃ r, resolve c st x = .ok r ∧ qfree r = [] := by
  have hq : (if st.qdepth = 0 then none else st.quants.lookup x) = none := by
    split
    · rfl
    · cases hl : st.quants.lookup x with
      | none => rfl
      | some v => exact absurd hx (h.gam x (h.qg x v hl).1)
  unfold Scope.resolve
  rw [h.cl x hx]
  simp only [hq]
  split
  · exact ⟨_, rfl, by simp [qfree]⟩
  · split
    · exact ⟨_, rfl, by simp [qfree]⟩
    · rename_i h1 h2
      have : x ∈ c.vars := by
        unfold Ctx.names at hx
        simp only [List.mem_append] at hx
        rcases hx with (hx | hx) | hx
        · exact absurd hx h1
        · exact absurd hx h2
        · exact hx
      rw [if_pos this]
      exact ⟨_, rfl, by simp [qfree]⟩

theorem Stat.some {c : Ctx} {st : S} {Γ : List String} (h : Stat c st Γ) {x : String} (hx : x ∈ Γ ∨ x ∈ c.names) :
    ∃ r, Scope.resolve c st x = .ok r ∧ ∀ y ∈ qfree r, st.quants.lookup y.1 = some y := by
  rcases hx with hx | hx
  · exact h.res x hx
  · obtain ⟨r, a, b⟩ := h.names hx
    exact ⟨r, a, by simp [b]⟩

theorem Stat.mono {c : Ctx} {st st' : S} {Γ L : List String} (h : Stat c st Γ) (s : Same c st st' L) (hL : ∀ x ∈ L, x ∉ Γ ∧ x ∉ c.names) :
    Stat c st' Γ := by
  refine ⟨h.gam, fun x hx => ?_, fun x hx => ?_, fun x v hv => ?_⟩
  · obtain ⟨r, a, b⟩ := h.res x hx
    refine ⟨r, ?_, ?_⟩
    · rw [s.resolve (fun q => (hL x q).1 hx)]; exact a
    · rw [s.quants]; exact b
  · rw [s.letLookup (fun q => (hL x q).2 hx)]; exact h.cl x hx
  · rw [s.quants] at hv; rw [s.qdepth]; exact h.qg x v hv

theorem Agree.mono {c : Ctx} {st st' : S} {Γ L : List String} {I : Interp V} {g : Glob V} {ρ : String → V}
    {σ : String → Nat → V} (h : Agree c st Γ I g ρ σ) (s : Same c st st' L) (hL : ∀ x ∈ L, x ∉ Γ ∧ x ∉ c.names) :
    Agree c st' Γ I g ρ σ := by
  intro x hx r hr
  rw [s.resolve (fun q => by rcases hx with hx | hx; exact (hL x q).1 hx; exact (hL x q).2 hx)] at hr
  exact h x hx r hr

/-! ## Entering a let -/

theorem enter_vis0 {c : Ctx} {st : S} (z : Z c st) (h : st.depth = 0) (x : String) : vis c (enterLet st) x = none := by
  unfold vis key enterLet
  simp only [h, if_true]
  cases hk : c.keep with
  | true =>
    simp only [if_true]
    cases hl : st.lets.lookup (x, st.counter + 1) with
    | none => rfl
    | some r => have := z.keepB hk _ _ hl; simp at this; omega
  | false => simp only [Bool.false_eq_true, if_false]; exact z.dropB hk h x

theorem enter_vis1 {c : Ctx} {st : S} (h : 0 < st.depth) (x : String) : vis c (enterLet st) x = vis c st x := by
  unfold vis key enterLet
  simp only [if_neg (Nat.ne_of_gt h)]

theorem enter_letLookup {c : Ctx} {st : S} (z : Z c st) (x : String) : letLookup c (enterLet st) x = letLookup c st x := by
  rw [letLookup_eq, letLookup_eq]
  have : (enterLet st).depth ≠ 0 := by simp [enterLet]
  rw [if_neg this]
  split
  · rename_i h; exact enter_vis0 z h x
  · rename_i h; exact enter_vis1 (by omega) x

theorem enter_resolve {c : Ctx} {st : S} (z : Z c st) (x : String) : resolve c (enterLet st) x = resolve c st x :=
  resolve_congr (enter_letLookup z x) rfl

theorem enter_z {c : Ctx} {st : S} (z : Z c st) : Z c (enterLet st) := by
  constructor
  · intro hk k r h
    have := z.keepB hk k r h
    unfold enterLet; simp only; split <;> omega
  · intro _ h; simp [enterLet] at h

theorem enter_stat {c : Ctx} {st : S} {Γ : List String} (z : Z c st) (h : Stat c st Γ) : Stat c (enterLet st) Γ := by
  refine ⟨h.gam, fun x hx => ?_, fun x hx => ?_, h.qg⟩
  · rw [enter_resolve z]; exact h.res x hx
  · rw [enter_letLookup z]; exact h.cl x hx

theorem enter_agree {c : Ctx} {st : S} {Γ : List String} {I : Interp V} {g : Glob V} {ρ : String → V}
    {σ : String → Nat → V} (z : Z c st) (h : Agree c st Γ I g ρ σ) : Agree c (enterLet st) Γ I g ρ σ := by
  intro x hx r hr
  rw [enter_resolve z] at hr
  exact h x hx r hr

theorem enter_nm {c : Ctx} {st : S} {Γ ln qn : List String} (z : Z c st) (h : Nm c st Γ ln qn) : Nm c (enterLet st) Γ ln qn := by
  refine ⟨h.nd, h.lc, fun x hx _ => ?_, fun x hx => ⟨(h.qc x hx).1, fun _ => ?_⟩⟩
  · by_cases hd : st.depth = 0
    · exact enter_vis0 z hd x
    · rw [enter_vis1 (by omega)]; exact h.lv x hx (by omega)
  · by_cases hd : st.depth = 0
    · exact enter_vis0 z hd x
    · rw [enter_vis1 (by omega)]; exact (h.qc x hx).2 (by omega)

/-! ## Quantified variables -/

theorem mkQuantVars_spec (bs : List (String × Nat)) : ∀ (st : S), (bs.map Prod.fst).Nodup →
    (∀ x ∈ bs.map Prod.fst, st.quants.lookup x = none) →
    mkQuantVars st bs = (bs, { st with quants := (bs.map fun p => (p.1, p)).reverse ++ st.quants }) := by
  induction bs with
  | nil => intro st _ _; simp [mkQuantVars]
  | cons p bs ih =>
    obtain ⟨x, s⟩ := p
    intro st hn hf
    simp only [List.map_cons, List.nodup_cons] at hn
    have h0 : st.quants.lookup x = none := hf x (by simp)
    simp only [mkQuantVars, mkQuantVar, h0]
    rw [ih _ hn.2 (by
      intro y hy
      have hne : y ≠ x := fun e => hn.1 (e ▸ hy)
      show List.lookup y ((x, (x, s)) :: st.quants) = none
      rw [lk_ne hne]; exact hf y (by rw [List.map_cons]; exact List.mem_cons_of_mem _ hy))]
    simp

theorem lk_rev (bs : List (String × Nat)) : ∀ (q : List (String × (String × Nat))) (x : String), (bs.map Prod.fst).Nodup →
    (x ∉ bs.map Prod.fst → ((bs.map fun p => (p.1, p)).reverse ++ q).lookup x = q.lookup x) ∧
    (∀ s, (x, s) ∈ bs → ((bs.map fun p => (p.1, p)).reverse ++ q).lookup x = some (x, s)) := by
  induction bs with
  | nil => intro q x _; simp
  | cons p bs ih =>
    obtain ⟨y, t⟩ := p
    intro q x hn
    simp only [List.map_cons, List.nodup_cons] at hn
    have e : (((y, t) :: bs).map fun p => (p.1, p)).reverse ++ q =
        (bs.map fun p => (p.1, p)).reverse ++ ((y, (y, t)) :: q) := by simp
    rw [e]
    obtain ⟨h1, h2⟩ := ih ((y, (y, t)) :: q) x hn.2
    constructor
    · intro hx
      simp only [List.map_cons, List.mem_cons, not_or] at hx
      rw [h1 hx.2, lk_ne hx.1]
    · intro s hs
      rcases List.mem_cons.mp hs with he | hs
      · cases he
        rw [h1 hn.1, lk_self]
      · exact h2 s hs

/-- parsing a symbol that is known or in scope -/
theorem sym_post {c : Ctx} {st : S} {Γ : List String} {x : String} (z : Z c st) (hs : Stat c st Γ) (hx : x ∈ Γ ∨ x ∈ c.names) :
    ∃ r, resolve c st x = .ok r ∧ Post c st Γ (.sym x) r st := by
  obtain ⟨r, a, b⟩ := hs.some hx
  exact ⟨r, a, z, Same.refl _ _ _, fun _ _ => rfl, b, fun V I g ρ σ h => by simp only [evalE]; exact h x hx r a⟩

theorem lookup_key {c : Ctx} {st : S} {x : String} (hk : c.keep = false) : key c st x = (x, 0) := by simp [key, hk]

mutual
theorem parse_ok (c : Ctx) : (e : E) → (st : S) → (b : Bool) → (Γ : List String) → (b = true → 0 < st.depth) → Z c st →
    Stat c st Γ → Nm c st Γ (lnames e) (qnames e) → Scoped c Γ e →
    ∃ l r st', parse c st b e = .ok ((l, r), st') ∧ Post c st Γ e r st'
  | .sym x, st, b, Γ, _, z, hs, _, hsc => by
    obtain ⟨r, a, p⟩ := sym_post z hs hsc
    exact ⟨.nil, r, st, by simp only [parse, a, Res.bind], p⟩
  | .app op args, st, b, Γ, _, z, hs, nm, hsc => by
    obtain ⟨rs, st', h, p⟩ := parseArgs_ok c args st Γ z hs nm hsc
    refine ⟨.nil, .app op rs, st', by simp only [parse, h, Res.bind], p.z, p.same, p.drop, ?_, ?_⟩
    · simpa only [qfree] using p.qf
    · intro V I g ρ σ ha; simp only [evalR, evalE, p.val V I g ρ σ ha]
  | .quant all bs body, st, b, Γ, _, z, hs, nm, hsc => by
    obtain ⟨hn, hf, hsb⟩ := hsc
    have hq : ∀ x ∈ bs.map Prod.fst, st.quants.lookup x = none := by
      intro x hx
      cases hl : st.quants.lookup x with
      | none => rfl
      | some v => exact absurd (hs.qg x v hl).1 (hf x hx)
    have hmk := mkQuantVars_spec bs { st with qdepth := st.qdepth + 1 } hn hq
    generalize hst1 : ({ st with quants := (bs.map fun p => (p.1, p)).reverse ++ st.quants, qdepth := st.qdepth + 1 } : S) = st1
    have hmk' : mkQuantVars { st with qdepth := st.qdepth + 1 } bs = (bs, st1) := by rw [hmk, ← hst1]
    have hl1 : ∀ x, letLookup c st1 x = letLookup c st x := by intro x; subst hst1; rfl
    have hv1 : ∀ x, vis c st1 x = vis c st x := by intro x; subst hst1; rfl
    have hd1 : st1.depth = st.depth := by subst hst1; rfl
    have hq1 : st1.qdepth = st.qdepth + 1 := by subst hst1; rfl
    have hqu : st1.quants = (bs.map fun p => (p.1, p)).reverse ++ st.quants := by subst hst1; rfl
    have hlets : st1.lets = st.lets := by subst hst1; rfl
    have hcnt : st1.counter = st.counter := by subst hst1; rfl
    have hres : ∀ x, x ∉ bs.map Prod.fst → resolve c st1 x = resolve c st x := by
      intro x hx
      refine resolve_congr (hl1 x) ?_
      rw [hq1, if_neg (by omega), hqu, (lk_rev bs st.quants x hn).1 hx]
      split
      · rename_i h0
        cases hl : st.quants.lookup x with
        | none => rfl
        | some v => have := (hs.qg x v hl).2.2; omega
      · rfl
    have hnames : ∀ x ∈ bs.map Prod.fst, x ∉ c.names ∧ letLookup c st x = none := by
      intro x hx
      have hx' : x ∈ qnames (.quant all bs body) := by simp only [qnames, List.mem_append]; exact .inl hx
      obtain ⟨h1, h2⟩ := nm.qc x hx'
      refine ⟨h1, ?_⟩
      rw [letLookup_eq]; split
      · rfl
      · exact h2 (by omega)
    have hresn : ∀ x s, (x, s) ∈ bs → resolve c st1 x = .ok (.qv x s) := by
      intro x s hxs
      have hx : x ∈ bs.map Prod.fst := List.mem_map.mpr ⟨_, hxs, rfl⟩
      have hc := (hnames x hx).1
      unfold Ctx.names at hc
      simp only [List.mem_append, not_or] at hc
      unfold resolve
      rw [hl1, (hnames x hx).2]
      simp only [hc.1.1, hc.1.2, if_false, hq1, Nat.succ_ne_zero, hqu, (lk_rev bs st.quants x hn).2 s hxs]
    have hstat : Stat c st1 (bs.map Prod.fst ++ Γ) := by
      refine ⟨fun x hx => ?_, fun x hx => ?_, fun x hx => ?_, fun x v hv => ?_⟩
      · rcases List.mem_append.mp hx with hx | hx
        · exact (hnames x hx).1
        · exact hs.gam x hx
      · by_cases hxb : x ∈ bs.map Prod.fst
        · obtain ⟨⟨x', s⟩, hp, rfl⟩ := List.mem_map.mp hxb
          refine ⟨_, hresn x' s hp, ?_⟩
          intro y hy
          simp only [qfree, List.mem_singleton] at hy
          subst hy
          rw [hqu]; exact (lk_rev bs st.quants x' hn).2 s hp
        · have hxg : x ∈ Γ := (List.mem_append.mp hx).resolve_left hxb
          obtain ⟨r, a, b⟩ := hs.res x hxg
          refine ⟨r, (hres x hxb).trans a, fun y hy => ?_⟩
          have hy' := b y hy
          have : y.1 ∉ bs.map Prod.fst := fun h => hf y.1 h (hs.qg _ _ hy').1
          rw [hqu, (lk_rev bs st.quants y.1 hn).1 this]; exact hy'
      · rw [hl1]; exact hs.cl x hx
      · rw [hqu] at hv
        by_cases hxb : x ∈ bs.map Prod.fst
        · obtain ⟨⟨x', s⟩, hp, rfl⟩ := List.mem_map.mp hxb
          rw [(lk_rev bs st.quants x' hn).2 s hp] at hv
          cases hv
          exact ⟨List.mem_append_left _ hxb, rfl, by omega⟩
        · rw [(lk_rev bs st.quants x hn).1 hxb] at hv
          obtain ⟨h1, h2, h3⟩ := hs.qg x v hv
          exact ⟨List.mem_append_right _ h1, h2, by omega⟩
    have hnm : Nm c st1 (bs.map Prod.fst ++ Γ) (lnames body) (qnames body) := by
      refine ⟨by simpa only [lnames] using nm.nd, fun x hx => ?_, fun x hx hd => ?_, fun x hx => ?_⟩
      · obtain ⟨h1, h2, h3⟩ := nm.lc x (by simpa only [lnames] using hx)
        simp only [qnames, List.mem_append, not_or] at h3
        exact ⟨h1, by simp only [List.mem_append, not_or]; exact ⟨h3.1, h2⟩, h3.2⟩
      · rw [hv1]; exact nm.lv x (by simpa only [lnames] using hx) (hd1 ▸ hd)
      · obtain ⟨h1, h2⟩ := nm.qc x (by simp only [qnames, List.mem_append]; exact .inr hx)
        exact ⟨h1, fun hd => by rw [hv1]; exact h2 (hd1 ▸ hd)⟩
    have hz : Z c st1 := ⟨by rw [hlets, hcnt]; exact z.keepB, by rw [hlets, hd1]; exact z.dropB⟩
    obtain ⟨l, r, st2, hp, po⟩ := parse_ok c body st1 false _ (by simp) hz hstat hnm hsb
    have hqe : eraseQ (bs.map Prod.fst) st2.quants = st.quants := by
      rw [po.same.quants, hqu]
      unfold eraseQ
      rw [List.filter_append]
      have h1 : ((bs.map fun p => (p.1, p)).reverse.filter fun p => decide (p.1 ∉ bs.map Prod.fst)) = [] := by
        rw [List.filter_eq_nil_iff]
        intro p hp
        simp only [List.mem_reverse, List.mem_map] at hp
        obtain ⟨q, hq, rfl⟩ := hp
        simp only [decide_eq_true_eq]
        exact fun h => h (List.mem_map.mpr ⟨q, hq, rfl⟩)
      have h2 : (st.quants.filter fun p => decide (p.1 ∉ bs.map Prod.fst)) = st.quants := by
        rw [List.filter_eq_self]
        intro p hp
        simp only [decide_eq_true_eq]
        intro hm
        have := lk_mem hp
        rw [hq p.1 hm] at this; cases this
      rw [h1, h2, List.nil_append]
    refine ⟨.nil, .quant all bs r, { st2 with quants := eraseQ (bs.map Prod.fst) st2.quants, qdepth := st2.qdepth - 1 },
      by simp only [parse, hmk', hp, Res.bind], ?_, ?_, ?_, ?_, ?_⟩
    · exact ⟨po.z.keepB, po.z.dropB⟩
    · refine ⟨hqe, po.same.depth.trans hd1, ?_, fun hd => (po.same.counter (hd1 ▸ hd)).trans hcnt, fun hd x hx => ?_⟩
      · show st2.qdepth - 1 = _
        rw [po.same.qdepth, hq1]; omega
      · show vis c st2 x = _
        rw [po.same.vis (hd1 ▸ hd) x (by simpa only [lnames] using hx), hv1]
    · intro hk x
      show st2.lets.lookup (x, 0) = _
      rw [po.drop hk, hlets]
    · intro y hy
      simp only [qfree, List.mem_filter, decide_eq_true_eq] at hy
      have := po.qf y hy.1
      rw [hqu] at this
      by_cases hyb : y.1 ∈ bs.map Prod.fst
      · obtain ⟨⟨x', s⟩, hp', he⟩ := List.mem_map.mp hyb
        simp only at he
        have h2 := (lk_rev bs st.quants x' hn).2 s hp'
        rw [he] at h2
        rw [h2] at this
        have e2 := Option.some.inj this
        have e3 : (x', s) = y := by rw [he]; exact e2
        exact absurd (e3 ▸ hp') hy.2
      · rw [(lk_rev bs st.quants y.1 hn).1 hyb] at this; exact this
    · intro V I g ρ σ ha
      simp only [evalR, evalE]
      congr 1
      funext vals
      refine po.val V I g _ _ ?_
      intro x hx r' hr'
      by_cases hxb : x ∈ bs.map Prod.fst
      · obtain ⟨⟨x', s⟩, hp', rfl⟩ := List.mem_map.mp hxb
        rw [hresn x' s hp'] at hr'
        cases hr'
        simp only [evalR]
        exact setQ_setN I.dflt bs σ ρ vals x' s hn hp'
      · rw [hres x hxb] at hr'
        have hx' : x ∈ Γ ∨ x ∈ c.names := by
          rcases hx with hx | hx
          · exact .inl ((List.mem_append.mp hx).resolve_left hxb)
          · exact .inr hx
        obtain ⟨r2, h2, h3⟩ := hs.some hx'
        rw [hr'] at h2; cases h2
        rw [setN_out _ _ _ _ _ hxb, ← ha x hx' r' hr']
        refine evalR_congr I g r' _ _ fun y hy => setQ_out _ _ _ _ _ _ fun hm => ?_
        exact hf y.1 hm (hs.qg _ _ (h3 y hy)).1
  | .letE bs body, st, b, Γ, hb, z, hs, nm, hsc => by
    obtain ⟨hne, hsB, hsb⟩ := hsc
    generalize hst0 : (if b then st else enterLet st) = st0
    have hd0 : 0 < st0.depth := by
      subst hst0; split
      · exact hb (by assumption)
      · simp [enterLet]
    have hz0 : Z c st0 := by subst hst0; split; exact z; exact enter_z z
    have hs0 : Stat c st0 Γ := by subst hst0; split; exact hs; exact enter_stat z hs
    have hn0 : Nm c st0 Γ (lnames (.letE bs body)) (qnames (.letE bs body)) := by
      subst hst0; split; exact nm; exact enter_nm z nm
    have hq0 : st0.quants = st.quants ∧ st0.qdepth = st.qdepth ∧ st0.lets = st.lets := by
      subst hst0; split <;> exact ⟨rfl, rfl, rfl⟩
    have ha0 : ∀ (V : Type) (I : Interp V) (g : Glob V) (ρ : String → V) (σ : String → Nat → V), Agree c st Γ I g ρ σ →
        Agree c st0 Γ I g ρ σ := by
      intro V I g ρ σ h
      subst hst0; split
      · exact h
      · exact enter_agree z h
    have hv0 : 0 < st.depth → st0.counter = st.counter ∧ ∀ x, vis c st0 x = vis c st x := by
      intro hd
      subst hst0; split
      · exact ⟨rfl, fun _ => rfl⟩
      · exact ⟨by simp [enterLet, Nat.ne_of_gt hd], fun x => enter_vis1 hd x⟩
    have hnd := hn0.nd
    simp only [lnames, List.nodup_append] at hnd
    have hnB : Nm c st0 Γ (lnamesB bs) (qnamesB bs) := by
      refine ⟨hnd.1, fun x hx => ?_, fun x hx => hn0.lv x (by simp only [lnames, List.mem_append]; exact .inl hx),
        fun x hx => hn0.qc x (by simp only [qnames, List.mem_append]; exact .inl hx)⟩
      obtain ⟨h1, h2, h3⟩ := hn0.lc x (by simp only [lnames, List.mem_append]; exact .inl hx)
      simp only [qnames, List.mem_append, not_or] at h3
      exact ⟨h1, h2, h3.1⟩
    obtain ⟨l1, ks, st1, hp1, po1⟩ := parseBinds_ok c bs st0 Γ hd0 hz0 hs0 hnB hsB
    have hd1 : 0 < st1.depth := po1.same.depth ▸ hd0
    have hlB : ∀ x ∈ lnamesB bs, x ∉ Γ ∧ x ∉ c.names := fun x hx => ⟨(hnB.lc x hx).2.1, (hnB.lc x hx).1⟩
    have hbn : ∀ x ∈ bnames bs, x ∉ Γ ∧ x ∉ c.names := fun x hx => hlB x (bnames_sub bs x hx)
    have hresB : ∀ x v, vis c st1 x = some v → resolve c st1 x = .ok v := by
      intro x v hv
      unfold resolve
      rw [letLookup_eq, if_neg (by omega), hv]
    have hs1 : Stat c st1 (bnames bs ++ Γ) := by
      have hm := hs0.mono po1.same hlB
      refine ⟨fun x hx => ?_, fun x hx => ?_, hm.cl, fun x v hv => ?_⟩
      · rcases List.mem_append.mp hx with hx | hx
        · exact (hbn x hx).2
        · exact hs.gam x hx
      · rcases List.mem_append.mp hx with hx | hx
        · obtain ⟨v, h1, h2, _⟩ := po1.bound x hx
          exact ⟨v, hresB x v h1, by rw [po1.same.quants]; exact h2⟩
        · exact hm.res x hx
      · obtain ⟨h1, h2⟩ := hm.qg x v hv
        exact ⟨List.mem_append_right _ h1, h2⟩
    have hn1 : Nm c st1 (bnames bs ++ Γ) (lnames body) (qnames body) := by
      refine ⟨hnd.2.1, fun x hx => ?_, fun x hx _ => ?_, fun x hx => ?_⟩
      · obtain ⟨h1, h2, h3⟩ := hn0.lc x (by simp only [lnames, List.mem_append]; exact .inr hx)
        simp only [qnames, List.mem_append, not_or] at h3
        refine ⟨h1, ?_, h3.2⟩
        simp only [List.mem_append, not_or]
        exact ⟨fun hm => hnd.2.2 x (bnames_sub bs x hm) x hx rfl, h2⟩
      · rw [po1.same.vis hd0 x (fun hm => hnd.2.2 x hm x hx rfl)]
        exact hn0.lv x (by simp only [lnames, List.mem_append]; exact .inr hx) hd0
      · have hxq : x ∈ qnames (.letE bs body) := by simp only [qnames, List.mem_append]; exact .inr hx
        refine ⟨(hn0.qc x hxq).1, fun _ => ?_⟩
        rw [po1.same.vis hd0 x (fun hm => (hn0.lc x (by simp only [lnames, List.mem_append]; exact .inl hm)).2.2 hxq)]
        exact (hn0.qc x hxq).2 hd0
    obtain ⟨l2, r, st2, hp2, po2⟩ := parse_ok c body st1 true _ (fun _ => hd1) po1.z hs1 hn1 hsb
    have hks : ks.isEmpty = false := by
      rw [po1.keys]
      cases hbb : bnames bs with
      | nil => exact absurd hbb hne
      | cons => rfl
    generalize hst3 : (if c.keep then st2 else { st2 with lets := eraseL ks st2.lets } : S) = st3
    have h3q : st3.quants = st2.quants ∧ st3.depth = st2.depth ∧ st3.qdepth = st2.qdepth ∧ st3.counter = st2.counter := by
      subst hst3; split <;> exact ⟨rfl, rfl, rfl, rfl⟩
    have h3k : c.keep = true → st3.lets = st2.lets := by intro h; subst hst3; rw [if_pos h]
    have h3d : c.keep = false → ∀ x, st3.lets.lookup (x, 0) = st.lets.lookup (x, 0) := by
      intro hk x
      have e3 : st3.lets = eraseL ks st2.lets := by subst hst3; rw [if_neg (by simp [hk])]
      rw [e3]
      unfold eraseL
      have hf := lk_filter (fun k => decide (k ∉ ks)) (x, 0) st2.lets
      rw [hf]
      by_cases hx : x ∈ bnames bs
      · have hm : (x, 0) ∈ ks := by
          rw [po1.keys]
          exact List.mem_map.mpr ⟨x, hx, lookup_key hk⟩
        simp only [hm, not_true, decide_false, Bool.false_eq_true, if_false]
        have := hn0.lv x (by simp only [lnames, List.mem_append]; exact .inl (bnames_sub bs x hx)) hd0
        unfold vis at this
        rw [lookup_key hk, hq0.2.2] at this
        exact this.symm
      · have hm : (x, 0) ∉ ks := by
          rw [po1.keys]
          intro h
          obtain ⟨y, hy, he⟩ := List.mem_map.mp h
          rw [lookup_key hk] at he
          cases he; exact hx hy
        simp only [hm, not_false_eq_true, decide_true, if_true]
        rw [po2.drop hk, po1.drop hk x hx, hq0.2.2]
    generalize hst4 : (if b then st3 else { st3 with depth := st3.depth - 1 } : S) = st4
    have h4q : st4.quants = st3.quants ∧ st4.qdepth = st3.qdepth ∧ st4.counter = st3.counter ∧ st4.lets = st3.lets := by
      subst hst4; split <;> exact ⟨rfl, rfl, rfl, rfl⟩
    have h4d : st4.depth = st.depth := by
      have e : st3.depth = st0.depth := by rw [h3q.2.1, po2.same.depth, po1.same.depth]
      subst hst4
      cases b with
      | true => simp only [if_true]; rw [e, ← hst0]; simp
      | false =>
        simp only [Bool.false_eq_true, if_false]
        rw [e, ← hst0]; simp [enterLet]
    refine ⟨if b then l1.append l2 else .nil, if b then r else if c.keep then .chain (l1.append l2) r else r, st4, ?_, ?_⟩
    · simp only [parse, hst0, hp1, Res.bind, hks, Bool.and_false, Bool.false_eq_true, if_false, hp2, hst3]
      subst hst4
      cases b <;> simp
    · have hev : ∀ (V : Type) (I : Interp V) (g : Glob V) (σ : String → Nat → V),
          evalR I g σ (if b then r else if c.keep then .chain (l1.append l2) r else r) = evalR I g σ r := by
        intro V I g σ
        cases b
        · cases c.keep
          · rfl
          · simp [evalR]
        · rfl
      have hqf : qfree (if b then r else if c.keep then .chain (l1.append l2) r else r) = qfree r := by
        cases b
        · cases c.keep
          · rfl
          · simp [qfree]
        · rfl
      refine ⟨⟨fun hk k r' hr' => ?_, fun hk hd x => ?_⟩, ⟨?_, h4d, ?_, fun hd => ?_, fun hd x hx => ?_⟩, fun hk x => ?_, ?_, ?_⟩
      · rw [h4q.2.2.2, h3k hk] at hr'
        rw [h4q.2.2.1, h3q.2.2.2]
        exact po2.z.keepB hk k r' hr'
      · rw [h4q.2.2.2, h3d hk]
        exact z.dropB hk (h4d ▸ hd) x
      · rw [h4q.1, h3q.1, po2.same.quants, po1.same.quants, hq0.1]
      · rw [h4q.2.1, h3q.2.2.1, po2.same.qdepth, po1.same.qdepth, hq0.2.1]
      · rw [h4q.2.2.1, h3q.2.2.2, po2.same.counter hd1, po1.same.counter hd0, (hv0 hd).1]
      · have hx' : x ∉ lnamesB bs ∧ x ∉ lnames body := by simpa only [lnames, List.mem_append, not_or] using hx
        cases hk : c.keep with
        | true =>
          have e : vis c st4 x = vis c st2 x := by
            unfold vis key
            rw [h4q.2.2.2, h3k hk, h4q.2.2.1, h3q.2.2.2]
          rw [e, po2.same.vis hd1 x hx'.2, po1.same.vis hd0 x hx'.1, (hv0 hd).2]
        | false =>
          unfold vis
          rw [lookup_key hk, lookup_key hk, h4q.2.2.2]
          exact h3d hk x
      · rw [h4q.2.2.2]; exact h3d hk x
      · rw [hqf, ← hq0.1, ← po1.same.quants]; exact po2.qf
      · intro V I g ρ σ ha
        rw [hev]
        simp only [evalE]
        have hag := ha0 V I g ρ σ ha
        refine po2.val V I g _ _ ?_
        intro x hx r' hr'
        by_cases hxb : x ∈ bnames bs
        · obtain ⟨v, h1, _, h3⟩ := po1.bound x hxb
          rw [hresB x v h1] at hr'; cases hr'
          exact h3 V I g ρ ρ σ hag
        · have hx' : x ∈ Γ ∨ x ∈ c.names := by
            rcases hx with hx | hx
            · exact .inl ((List.mem_append.mp hx).resolve_left hxb)
            · exact .inr hx
          rw [evalB_out I ρ bs ρ x hxb]
          exact hag.mono po1.same hlB x hx' r' hr'

theorem parseArgs_ok (c : Ctx) : (es : Es) → (st : S) → (Γ : List String) → Z c st →
    Stat c st Γ → Nm c st Γ (lnamesL es) (qnamesL es) → ScopedL c Γ es →
    ∃ rs st', parseArgs c st es = .ok (rs, st') ∧ PostL c st Γ es rs st'
  | .nil, st, Γ, z, _, _, _ =>
    ⟨.nil, st, rfl, z, Same.refl _ _ _, fun _ _ => rfl, by simp [qfreeL], fun V I g ρ σ _ => by simp [evalRs, evalEs]⟩
  | .cons e es, st, Γ, z, hs, nm, hsc => by
    have hnd := nm.nd
    simp only [lnamesL, List.nodup_append] at hnd
    have hn1 : Nm c st Γ (lnames e) (qnames e) := by
      refine ⟨hnd.1, fun x hx => ?_, fun x hx => nm.lv x (by simp only [lnamesL, List.mem_append]; exact .inl hx),
        fun x hx => nm.qc x (by simp only [qnamesL, List.mem_append]; exact .inl hx)⟩
      obtain ⟨h1, h2, h3⟩ := nm.lc x (by simp only [lnamesL, List.mem_append]; exact .inl hx)
      simp only [qnamesL, List.mem_append, not_or] at h3
      exact ⟨h1, h2, h3.1⟩
    obtain ⟨l, r, st1, hp1, po1⟩ := parse_ok c e st false Γ (by simp) z hs hn1 hsc.1
    have hl : ∀ x ∈ lnames e, x ∉ Γ ∧ x ∉ c.names := fun x hx => ⟨(hn1.lc x hx).2.1, (hn1.lc x hx).1⟩
    have hn2 : Nm c st1 Γ (lnamesL es) (qnamesL es) := by
      refine ⟨hnd.2.1, fun x hx => ?_, fun x hx hd => ?_, fun x hx => ?_⟩
      · obtain ⟨h1, h2, h3⟩ := nm.lc x (by simp only [lnamesL, List.mem_append]; exact .inr hx)
        simp only [qnamesL, List.mem_append, not_or] at h3
        exact ⟨h1, h2, h3.2⟩
      · rw [po1.same.depth] at hd
        rw [po1.same.vis hd x (fun hm => hnd.2.2 x hm x hx rfl)]
        exact nm.lv x (by simp only [lnamesL, List.mem_append]; exact .inr hx) hd
      · have hxq : x ∈ qnamesL (.cons e es) := by simp only [qnamesL, List.mem_append]; exact .inr hx
        refine ⟨(nm.qc x hxq).1, fun hd => ?_⟩
        rw [po1.same.depth] at hd
        rw [po1.same.vis hd x (fun hm => (nm.lc x (by simp only [lnamesL, List.mem_append]; exact .inl hm)).2.2 hxq)]
        exact (nm.qc x hxq).2 hd
    obtain ⟨rs, st2, hp2, po2⟩ := parseArgs_ok c es st1 Γ po1.z (hs.mono po1.same hl) hn2 hsc.2
    refine ⟨.cons r rs, st2, by simp only [parseArgs, hp1, Res.bind, hp2], po2.z,
      po1.same.trans po2.same (fun x hx => by simp only [lnamesL, List.mem_append]; exact .inl hx)
        (fun x hx => by simp only [lnamesL, List.mem_append]; exact .inr hx),
      fun hk x => (po2.drop hk x).trans (po1.drop hk x), ?_, ?_⟩
    · intro y hy
      simp only [qfreeL, List.mem_append] at hy
      rcases hy with hy | hy
      · exact po1.qf y hy
      · rw [← po1.same.quants]; exact po2.qf y hy
    · intro V I g ρ σ ha
      simp only [evalRs, evalEs]
      rw [po1.val V I g ρ σ ha, po2.val V I g ρ σ (ha.mono po1.same hl)]

theorem parseBinds_ok (c : Ctx) : (bs : Bs) → (st : S) → (Γ : List String) → 0 < st.depth → Z c st →
    Stat c st Γ → Nm c st Γ (lnamesB bs) (qnamesB bs) → ScopedB c Γ bs →
    ∃ l ks st', parseBinds c st bs = .ok ((l, ks), st') ∧ PostB c st Γ bs ks st'
  | .nil, st, Γ, _, z, _, _, _ =>
    ⟨.nil, [], st, rfl, z, Same.refl _ _ _, fun _ _ _ => rfl, rfl, by simp [bnames]⟩
  | .cons x e bs, st, Γ, hd, z, hs, nm, hsc => by
    have hnd := nm.nd
    simp only [lnamesB, List.nodup_cons, List.nodup_append, List.mem_append, not_or] at hnd
    obtain ⟨⟨hxe, hxb⟩, hne, hnb, hdis⟩ := hnd
    have hx0 : vis c st x = none := nm.lv x (by simp [lnamesB]) hd
    have hn1 : Nm c st Γ (lnames e) (qnames e) := by
      refine ⟨hne, fun y hy => ?_, fun y hy => nm.lv y (by simp [lnamesB, hy]), fun y hy => nm.qc y (by simp [qnamesB, hy])⟩
      obtain ⟨h1, h2, h3⟩ := nm.lc y (by simp [lnamesB, hy])
      simp only [qnamesB, List.mem_append, not_or] at h3
      exact ⟨h1, h2, h3.1⟩
    obtain ⟨l, r, st1, hp1, po1⟩ := parse_ok c e st false Γ (by simp) z hs hn1 hsc.1
    have hl : ∀ y ∈ lnames e, y ∉ Γ ∧ y ∉ c.names := fun y hy => ⟨(hn1.lc y hy).2.1, (hn1.lc y hy).1⟩
    have hd1 : 0 < st1.depth := po1.same.depth ▸ hd
    have hkey : ∀ y, key c st1 y = key c st y := by
      intro y; unfold key; rw [po1.same.counter hd]
    have hx1 : st1.lets.lookup (key c st1 x) = none := by
      have := po1.same.vis hd x hxe
      unfold vis at this; rw [this]; exact hx0
    generalize hv : (if c.keep then R.letv x r else r) = v
    have hbind : bind c st1 x r = (v, { st1 with lets := (key c st1 x, v) :: st1.lets }) := by
      unfold bind; rw [hx1]; simp only [hv]
    generalize hst2 : ({ st1 with lets := (key c st1 x, v) :: st1.lets } : S) = st2
    rw [hst2] at hbind
    have h2q : st2.quants = st1.quants ∧ st2.depth = st1.depth ∧ st2.qdepth = st1.qdepth ∧ st2.counter = st1.counter := by
      subst hst2; exact ⟨rfl, rfl, rfl, rfl⟩
    have h2l : st2.lets = (key c st1 x, v) :: st1.lets := by subst hst2; rfl
    have h2k : ∀ y, key c st2 y = key c st1 y := by intro y; unfold key; rw [h2q.2.2.2]
    have hkinj : ∀ y, y ≠ x → key c st1 y ≠ key c st1 x := by
      intro y hy he; unfold key at he; cases he; exact hy rfl
    have h2x : vis c st2 x = some v := by unfold vis; rw [h2k, h2l, lk_self]
    have h2y : ∀ y, y ≠ x → vis c st2 y = vis c st1 y := by
      intro y hy; unfold vis; rw [h2k, h2l, lk_ne (hkinj y hy)]
    have hsame12 : Same c st1 st2 [x] :=
      ⟨h2q.1, h2q.2.1, h2q.2.2.1, fun _ => h2q.2.2.2, fun _ y hy => h2y y (by simpa using hy)⟩
    have hxg : x ∉ Γ ∧ x ∉ c.names := by
      obtain ⟨h1, h2, _⟩ := nm.lc x (by simp [lnamesB]); exact ⟨h2, h1⟩
    have hl2 : ∀ y ∈ [x], y ∉ Γ ∧ y ∉ c.names := by intro y hy; simp only [List.mem_singleton] at hy; subst hy; exact hxg
    have hz2 : Z c st2 := by
      constructor
      · intro hk k r' hr'
        rw [h2l] at hr'
        by_cases hkk : k = key c st1 x
        · subst hkk; unfold key; rw [h2q.2.2.2, if_pos hk]; exact Nat.le_refl _
        · rw [lk_ne hkk] at hr'; rw [h2q.2.2.2]; exact po1.z.keepB hk k r' hr'
      · intro _ h0; rw [h2q.2.1] at h0; omega
    have hn2 : Nm c st2 Γ (lnamesB bs) (qnamesB bs) := by
      refine ⟨hnb, fun y hy => ?_, fun y hy _ => ?_, fun y hy => ?_⟩
      · obtain ⟨h1, h2, h3⟩ := nm.lc y (by simp [lnamesB, hy])
        simp only [qnamesB, List.mem_append, not_or] at h3
        exact ⟨h1, h2, h3.2⟩
      · rw [h2y y (fun e => hxb (e ▸ hy)), po1.same.vis hd y (fun hm => hdis y hm y hy rfl)]
        exact nm.lv y (by simp [lnamesB, hy]) hd
      · have hyq : y ∈ qnamesB (.cons x e bs) := by simp [qnamesB, hy]
        refine ⟨(nm.qc y hyq).1, fun _ => ?_⟩
        rw [h2y y (fun e' => (nm.lc x (by simp [lnamesB])).2.2 (e' ▸ hyq)),
          po1.same.vis hd y (fun hm => (nm.lc y (by simp [lnamesB, hm])).2.2 hyq)]
        exact (nm.qc y hyq).2 hd
    have hs2 : Stat c st2 Γ := (hs.mono po1.same hl).mono hsame12 hl2
    obtain ⟨l2, ks, st3, hp3, po3⟩ := parseBinds_ok c bs st2 Γ (h2q.2.1 ▸ hd1) hz2 hs2 hn2 hsc.2
    have hx0' : st.lets.lookup (key c st x) = none := hx0
    refine ⟨.cons v l2, key c st x :: ks, st3, ?_, po3.z, ?_, ?_, ?_, ?_⟩
    · simp only [parseBinds, hx0', hp1, Res.bind, hbind, hp3]
    · exact (po1.same.trans hsame12 (N := x :: lnames e) (fun y hy => by simp [hy]) (fun y hy => by simp at hy; simp [hy])).trans
        po3.same (fun y hy => by simp only [lnamesB, List.mem_cons, List.mem_append] at hy ⊢; rcases hy with h | h; exact .inl h; exact .inr (.inl h))
        (fun y hy => by simp only [lnamesB, List.mem_cons, List.mem_append]; exact .inr (.inr hy))
    · intro hk y hy
      simp only [bnames, List.mem_cons, not_or] at hy
      rw [po3.drop hk y hy.2, h2l, lookup_key hk, lk_ne (by intro he; cases he; exact hy.1 rfl), po1.drop hk]
    · rw [po3.keys]
      simp only [bnames, List.map_cons, List.cons.injEq, true_and]
      apply List.map_congr_left
      intro y _; rw [h2k, hkey]
    · intro y hy
      simp only [bnames, List.mem_cons] at hy
      by_cases hyx : y = x
      · subst hyx
        refine ⟨v, ?_, ?_, ?_⟩
        · rw [po3.same.vis (h2q.2.1 ▸ hd1) y hxb]; exact h2x
        · subst hv; intro z hz'; exact po1.qf z (by split at hz' <;> simpa [qfree] using hz')
        · intro V I g ρ acc σ ha
          have : evalR I g σ v = evalR I g σ r := by subst hv; split <;> simp [evalR]
          rw [this, po1.val V I g ρ σ ha]
          simp only [evalB]
          rw [evalB_out I ρ bs _ y (fun h => hxb (bnames_sub bs y h))]
          simp [set1]
      · have hyb := hy.resolve_left hyx
        obtain ⟨w, h1, h2, h3⟩ := po3.bound y hyb
        refine ⟨w, h1, ?_, ?_⟩
        · rw [h2q.1, po1.same.quants] at h2; exact h2
        · intro V I g ρ acc σ ha
          simp only [evalB]
          exact h3 V I g ρ _ σ ((ha.mono po1.same hl).mono hsame12 hl2)
end

end SMT.Scope
