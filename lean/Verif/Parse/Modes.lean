import Verif.Parse.RoundLetEx

/-!
# Keeping lets and expanding them give the same term (C76)

`parsing_preserve_let` chooses between `parsePreservingLet` (`src/base_parser.cpp:1607-1723`), which makes let variables and a chain, and
`parseLet` (`1726-1832`), which puts the values in place of the names.  `buildP` and `build` are the calls made in the two modes for the same
tree.
-/

namespace SMT.Parse
open SMT SMT.Text SMT.Lex SMT.Kinds SMT.Sorts SMT.Print

set_option linter.unusedSimpArgs false
set_option linter.unusedVariables false

/-! ## Specification -/

/-- lists related element by element -/
inductive All2 {α β : Type} (R : α → β → Prop) : List α → List β → Prop where
  | nil : All2 R [] []
  | cons {a b as bs} : R a b → All2 R as bs → All2 R (a :: as) (b :: bs)

/-- the same outcome, related results -/
inductive RR {α β : Type} (R : α → β → Prop) : Res α → Res β → Prop where
  | ok {a b} : R a b → RR R (.ok a) (.ok b)
  | throw : RR R .throw .throw
  | abort : RR R .abort .abort
  | ub : RR R .ub .ub
  | diverge : RR R .diverge .diverge

/-- what a name stands for, related -/
inductive SR (R : N → N → Prop) : Option Stands → Option Stands → Prop where
  | none : SR R none none
  | var {s} : SR R (some (.var s)) (some (.var s))
  | val {n m} : R n m → SR R (some (.val n)) (some (.val m))

/-- The relation `R n m`, `n` stands for `m`, sees through lets (a variable stands for what its value stands for, a chain for what its body
stands for), and the constructors keep it: from operands that stand for others they make a node that stands for the other. -/
structure Respects (I : Ctors) (R : N → N → Prop) : Prop where
  var : ∀ {n m} (name : List Char), R n m → R (.mk .LET_BIND_VAR name n.sort [n]) m
  chain : ∀ {n m} (l : N) (ls : List N), R n m → R (.mk .LET_CHAIN [] n.sort (l :: ls ++ [n])) m
  op : ∀ k {xs ys}, All2 R xs ys → RR R (I.op k xs) (I.op k ys)
  apply : ∀ f {xs ys}, All2 R xs ys → RR R (I.apply f xs) (I.apply f ys)
  leaf : ∀ {sc sc' : Names} s ph, SR R (sc.lookup s) (sc'.lookup s) → RR R (I.leaf sc s ph) (I.leaf sc' s ph)
  quant : ∀ h vs {b b'}, R b b' → RR R (I.quant h vs b) (I.quant h vs b')
  bv : ∀ n w, RR R (I.bv n w) (I.bv n w)
  fpc : ∀ w e s, RR R (I.fpc w e s) (I.fpc w e s)
  fp : ∀ {xs ys}, All2 R xs ys → RR R (I.fp xs) (I.fp ys)
  constArr : ∀ s {v v'}, R v v' → RR R (I.constArr s v) (I.constArr s v')
  asArray : ∀ a, RR R (I.asArray a) (I.asArray a)
  rootObj : ∀ {e e'} i, R e e' → RR R (I.rootObj e i) (I.rootObj e' i)
  rootInt : ∀ {xs ys}, All2 R xs ys → RR R (I.rootInt xs) (I.rootInt ys)
  ran : ∀ {xs ys}, All2 R xs ys → RR R (I.ran xs) (I.ran ys)

mutual
/-- the names bound by lets, in the order of the text -/
def letNames : T (Option D) → List (List Char)
  | .mk (.lets ns) cs => ns ++ letNamesL cs
  | .mk _ cs => letNamesL cs
/-- the same for a list -/
def letNamesL : List (T (Option D)) → List (List Char)
  | [] => []
  | t :: ts => letNames t ++ letNamesL ts
end

mutual
/-- No quantifier binds a name of `all`; a name of `all` occurs only where it is in `live`, which is extended by the lets on the way.  A let
binds something.  The index of a `root-obj` is a numeral and not a term (then it is read as one). -/
def InScope (all live : List (List Char)) : T (Option D) → Prop
  | .mk (.sym s _) _ => s ∈ all → s ∈ live
  | .mk (.app op _) cs => op ≠ cs!"root-obj" ∧ InScopeL all live cs
  | .mk (.quant _ vs) cs => (∀ v ∈ vs, v.1 ∉ all) ∧ InScopeL all live cs
  | .mk (.lets ns) cs => ns ≠ [] ∧ InScopeLets all live ns cs
  | .mk _ cs => InScopeL all live cs
/-- the same for a list -/
def InScopeL (all live : List (List Char)) : List (T (Option D)) → Prop
  | [] => True
  | t :: ts => InScope all live t ∧ InScopeL all live ts
/-- the values of a let and its body: a name is live from the next value on -/
def InScopeLets (all live : List (List Char)) : List (List Char) → List (T (Option D)) → Prop
  | n :: ns, v :: vs => InScope all live v ∧ InScopeLets all (n :: live) ns vs
  | [], b :: _ => InScope all live b
  | _, [] => True
end

/-- **well scoped**: a name is bound by at most one let, by no quantifier as well, and does not occur outside its let -/
def WellScoped (t : T (Option D)) : Prop := (letNames t).Nodup ∧ InScope (letNames t) [] t

/-! ## Lemmas -/

theorem RR.bind {α β γ δ : Type} {R : α → β → Prop} {Q : γ → δ → Prop} {x : Res α} {y : Res β} {f : α → Res γ} {g : β → Res δ}
    (h : RR R x y) (hf : ∀ a b, R a b → RR Q (f a) (g b)) : RR Q (x >>= f) (y >>= g) := by
  cases h
  · exact hf _ _ (by assumption)
  · exact .throw
  · exact .abort
  · exact .ub
  · exact .diverge

theorem All2.length {α β : Type} {R : α → β → Prop} {xs : List α} {ys : List β} (h : All2 R xs ys) : xs.length = ys.length := by
  induction h with
  | nil => rfl
  | cons _ _ ih => simp [ih]

theorem All2.take {α β : Type} {R : α → β → Prop} {xs : List α} {ys : List β} (h : All2 R xs ys) (n : Nat) : All2 R (xs.take n) (ys.take n) := by
  induction h generalizing n with
  | nil => simp; exact .nil
  | cons h _ ih => cases n with
    | zero => exact .nil
    | succ n => exact .cons h (ih n)

theorem All2.drop {α β : Type} {R : α → β → Prop} {xs : List α} {ys : List β} (h : All2 R xs ys) (n : Nat) : All2 R (xs.drop n) (ys.drop n) := by
  induction h generalizing n with
  | nil => simp; exact .nil
  | cons h t ih => cases n with
    | zero => exact .cons h t
    | succ n => exact ih n

theorem All2.get {α β : Type} {R : α → β → Prop} {xs : List α} {ys : List β} (h : All2 R xs ys) (i : Nat) :
    (xs[i]? = none ∧ ys[i]? = none) ∨ ∃ a b, xs[i]? = some a ∧ ys[i]? = some b ∧ R a b := by
  induction h generalizing i with
  | nil => simp
  | cons h t ih => cases i with
    | zero => exact .inr ⟨_, _, rfl, rfl, h⟩
    | succ i => simpa using ih i

variable {I : Ctors} {R : N → N → Prop}

theorem select_rr {as as' ps ps' : List N} (ha : All2 R as as') (hp : All2 R ps ps') :
    ∀ s : List Sel, RR (All2 R) (select as ps s) (select as' ps' s)
  | [] => .ok .nil
  | .p i :: s => by
    rcases hp.get i with ⟨h1, h2⟩ | ⟨a, b, h1, h2, hr⟩ <;> simp only [select, h1, h2]
    · exact .ub
    · exact (select_rr ha hp s).bind fun xs ys h => .ok (.cons hr h)
  | .a i :: s => by
    rcases ha.get i with ⟨h1, h2⟩ | ⟨a, b, h1, h2, hr⟩ <;> simp only [select, h1, h2]
    · exact .ub
    · exact (select_rr ha hp s).bind fun xs ys h => .ok (.cons hr h)

theorem pairs_rr (hI : Respects I R) (c : K) : ∀ {xs ys : List N}, All2 R xs ys → RR (All2 R) (pairs I c xs) (pairs I c ys)
  | _, _, .nil => .ok .nil
  | _, _, .cons _ .nil => .ok .nil
  | _, _, .cons h1 (.cons h2 h3) => by
    simp only [pairs]
    exact (hI.op c (.cons h1 (.cons h2 .nil))).bind fun r r' hr => (pairs_rr hI c (.cons h2 h3)).bind fun rs rs' hs => .ok (.cons hr hs)

theorem runCase_rr (hI : Respects I R) {as as' ps ps' : List N} (ha : All2 R as as') (hp : All2 R ps ps') (d : Disp) :
    RR R (runCase I as ps d) (runCase I as' ps' d) := by
  cases d with
  | all c => exact hI.op c hp
  | sel c s => exact (select_rr ha hp s).bind fun xs ys h => hI.op c h
  | log =>
    cases hp with
    | nil => exact .abort
    | cons h1 t =>
      cases t with
      | nil => exact hI.op _ (.cons h1 .nil)
      | cons h2 t =>
        cases t with
        | nil => exact hI.op _ (.cons h1 (.cons h2 .nil))
        | cons h3 t => exact .abort
  | opt12 c =>
    cases hp with
    | nil => exact .abort
    | cons h1 t =>
      cases t with
      | nil => exact hI.op _ (.cons h1 .nil)
      | cons h2 t =>
        cases t with
        | nil => exact hI.op _ (.cons h1 (.cons h2 .nil))
        | cons h3 t => exact .abort
  | chain c =>
    have key := (pairs_rr hI c hp).bind (f := fun rs => I.op .AND rs) (g := fun rs => I.op .AND rs) fun rs rs' h => hI.op .AND h
    cases hp with
    | nil => exact key
    | cons h1 t =>
      cases t with
      | nil => exact key
      | cons h2 t =>
        cases t with
        | nil => exact hI.op _ (.cons h1 (.cons h2 .nil))
        | cons h3 t => exact key
  | toFp =>
    cases ha with
    | nil =>
      cases hp with
      | nil => exact .abort
      | cons h1 t =>
        cases t with
        | nil => exact .abort
        | cons h2 t =>
          cases t with
          | nil => exact .abort
          | cons h3 t =>
            cases t with
            | nil => exact hI.op _ (.cons h1 (.cons h2 (.cons h3 .nil)))
            | cons h4 t => exact .abort
    | cons a1 u =>
      cases u with
      | nil =>
        cases hp with
        | nil => exact .abort
        | cons h1 t =>
          cases t with
          | nil => exact .abort
          | cons h2 t =>
            cases t with
            | nil => exact .abort
            | cons h3 t =>
              cases t with
              | nil => exact hI.op _ (.cons h1 (.cons h2 (.cons h3 .nil)))
              | cons h4 t => exact .abort
      | cons a2 u =>
        cases u with
        | nil =>
          cases hp with
          | nil => exact .abort
          | cons h1 t =>
            cases t with
            | nil => exact hI.op _ (.cons a1 (.cons a2 (.cons h1 .nil)))
            | cons h2 t =>
              cases t with
              | nil => exact hI.op _ (.cons a1 (.cons a2 (.cons h1 (.cons h2 .nil))))
              | cons h3 t => exact .abort
        | cons a3 u =>
          cases hp with
          | nil => exact .abort
          | cons h1 t =>
            cases t with
            | nil => exact .abort
            | cons h2 t =>
              cases t with
              | nil => exact .abort
              | cons h3 t =>
                cases t with
                | nil => exact hI.op _ (.cons h1 (.cons h2 (.cons h3 .nil)))
                | cons h4 t => exact .abort
  | toFpUnsigned =>
    cases ha with
    | nil => cases hp <;> exact .abort
    | cons a1 u =>
      cases u with
      | nil => cases hp <;> exact .abort
      | cons a2 u =>
        cases u with
        | nil =>
          cases hp with
          | nil => exact .abort
          | cons h1 t =>
            cases t with
            | nil => exact .abort
            | cons h2 t =>
              cases t with
              | nil => exact hI.op _ (.cons h1 (.cons h2 (.cons a1 (.cons a2 .nil))))
              | cons h3 t => exact .abort
        | cons a3 u => cases hp <;> exact .abort
  | unknown => exact .abort

theorem callOper_rr (hI : Respects I R) {op : List Char} (hop : op ≠ cs!"root-obj") {as as' ps ps' : List N} (ha : All2 R as as')
    (hp : All2 R ps ps') : RR R (callOper I op as ps) (callOper I op as' ps') := by
  have key : RR R (parseOper I op as ps) (parseOper I op as' ps') := by
    unfold parseOper
    by_cases h : I.isFun op = true
    · rw [if_pos h, if_pos h]; exact hI.apply op hp
    · rw [if_neg h, if_neg h, if_neg hop, if_neg hop]; exact runCase_rr hI ha hp _
  unfold callOper
  cases ha with
  | nil =>
    simp only [List.isEmpty_nil, if_true]
    split
    · exact runCase_rr hI .nil hp _
    · exact key
  | cons a u => exact key

/-! ## The simulation -/

/-- the names in scope in the two modes: a live name stands for related values, a name that no let binds for the same -/
structure Inv (R : N → N → Prop) (all live : List (List Char)) (seen scP scE : Names) : Prop where
  live : ∀ s ∈ live, ∃ v m, seen.lookup s = some (.val v) ∧ scE.lookup s = some (.val m) ∧ R v m
  other : ∀ s, s ∉ all → seen.lookup s = none ∧ SR R (scP.lookup s) (scE.lookup s)

theorem lookup_append (a b : Names) (s : List Char) : (a ++ b).lookup s = (a.lookup s).or (b.lookup s) := by
  induction a with
  | nil => simp
  | cons p a ih =>
    obtain ⟨k, v⟩ := p
    rw [List.cons_append, List.lookup_cons, List.lookup_cons]
    split <;> simp [ih]

/-- what the state becomes: only the names bound by the lets read are new -/
def LFrame (d : Bool) (st st' : LSt) (ns : List (List Char)) : Prop := d = true → ∀ s, s ∉ ns → st'.lets.lookup s = st.lets.lookup s

theorem Inv.sr {all live : List (List Char)} {seen scP scE : Names} (h : Inv R all live seen scP scE) {s : List Char}
    (hs : s ∈ all → s ∈ live) : SR R ((seen ++ scP).lookup s) (scE.lookup s) := by
  rw [lookup_append]
  by_cases hl : s ∈ live
  · obtain ⟨v, m, h1, h2, h3⟩ := h.live s hl
    rw [h1, h2]
    exact .val h3
  · obtain ⟨h1, h2⟩ := h.other s fun ha => hl (hs ha)
    rw [h1]
    exact h2

theorem Inv.frame {all live : List (List Char)} {d : Bool} {st st' : LSt} {scP scE : Names} {ns : List (List Char)}
    (h : Inv R all live (st.seen d) scP scE) (hf : LFrame d st st' ns) (h1 : ∀ s ∈ ns, s ∈ all) (h2 : ∀ s ∈ ns, s ∉ live) :
    Inv R all live (st'.seen d) scP scE := by
  cases d with
  | false => exact h
  | true =>
    refine ⟨fun s hs => ?_, fun s hs => ?_⟩
    · obtain ⟨v, m, e1, e2, e3⟩ := h.live s hs
      exact ⟨v, m, (hf rfl s fun hn => h2 s hn hs).trans e1, e2, e3⟩
    · obtain ⟨e1, e2⟩ := h.other s hs
      exact ⟨(hf rfl s fun hn => hs (h1 s hn)).trans e1, e2⟩

/-- the node of an expression stands for what the body stands for -/
theorem close_rr (hI : Respects I R) {x : List N × N} {m : N} (h : R x.2 m) : R (close x) m := by
  obtain ⟨ls, b⟩ := x
  cases ls with
  | nil => exact h
  | cons l ls => exact hI.chain l ls h

/-- what the names of a tree are to the state when the tree is read -/
structure LFresh (all live : List (List Char)) (d : Bool) (st : LSt) (ns : List (List Char)) : Prop where
  nodup : ns.Nodup
  sub : ∀ s ∈ ns, s ∈ all
  dead : ∀ s ∈ ns, s ∉ live
  new : d = true → ∀ s ∈ ns, st.lets.lookup s = none

theorem LFresh.left {all live : List (List Char)} {d : Bool} {st : LSt} {a b : List (List Char)} (h : LFresh all live d st (a ++ b)) :
    LFresh all live d st a :=
  ⟨(List.nodup_append.mp h.nodup).1, fun s hs => h.sub s (List.mem_append_left _ hs), fun s hs => h.dead s (List.mem_append_left _ hs),
    fun hd s hs => h.new hd s (List.mem_append_left _ hs)⟩

theorem LFresh.right {all live : List (List Char)} {d : Bool} {st st' : LSt} {a b : List (List Char)} (h : LFresh all live d st (a ++ b))
    (hf : LFrame d st st' a) : LFresh all live d st' b :=
  ⟨(List.nodup_append.mp h.nodup).2.1, fun s hs => h.sub s (List.mem_append_right _ hs), fun s hs => h.dead s (List.mem_append_right _ hs),
    fun hd s hs => by
      rw [hf hd s fun ha => (List.nodup_append.mp h.nodup).2.2 s ha s hs rfl]
      exact h.new hd s (List.mem_append_right _ hs)⟩

theorem LFrame.trans {d : Bool} {st st1 st2 : LSt} {a b : List (List Char)} (h1 : LFrame d st st1 a) (h2 : LFrame d st1 st2 b) :
    LFrame d st st2 (a ++ b) := fun hd s hs => by
  rw [h2 hd s fun h => hs (List.mem_append_right _ h), h1 hd s fun h => hs (List.mem_append_left _ h)]

theorem Inv.quant {all live : List (List Char)} {seen scP scE : Names} (h : Inv R all live seen scP scE) (hl : ∀ s ∈ live, s ∈ all)
    {vs : List (List Char × Option D)} (hv : ∀ v ∈ vs, v.1 ∉ all) :
    Inv R all live seen (vs.reverse.map (fun v => (v.1, .var v.2)) ++ scP) (vs.reverse.map (fun v => (v.1, .var v.2)) ++ scE) := by
  have key : ∀ (l : List (List Char × Option D)) (s : List Char), (∀ v ∈ l, v.1 ≠ s) →
      (l.map (fun v => (v.1, (Stands.var v.2 : Stands)))).lookup s = none := by
    intro l s
    induction l with
    | nil => intro _; rfl
    | cons a l ih =>
      intro hs
      rw [List.map_cons, List.lookup_cons, ih fun v hv => hs v (List.mem_cons_of_mem _ hv)]
      have : (s == a.1) = false := by
        rw [beq_eq_false_iff_ne]; exact fun e => hs a List.mem_cons_self e.symm
      rw [this]
  refine ⟨fun s hs => ?_, fun s hs => ?_⟩
  · obtain ⟨v, m, h1, h2, h3⟩ := h.live s hs
    refine ⟨v, m, h1, ?_, h3⟩
    rw [lookup_append, key _ s, h2]
    · rfl
    · intro v hv' e
      exact hv v (List.mem_reverse.mp hv') (e ▸ hl s hs)
  · obtain ⟨h1, h2⟩ := h.other s hs
    refine ⟨h1, ?_⟩
    rw [lookup_append, lookup_append]
    have var : ∀ (l : List (List Char × Option D)) x, (l.map (fun v => (v.1, (Stands.var v.2 : Stands)))).lookup s = some x → ∃ e, x = .var e := by
      intro l
      induction l with
      | nil => intro x h; cases h
      | cons a l ih =>
        intro x h
        rw [List.map_cons, List.lookup_cons] at h
        split at h
        · cases h; exact ⟨_, rfl⟩
        · exact ih x h
    cases hx : (vs.reverse.map (fun v => (v.1, (Stands.var v.2 : Stands)))).lookup s with
    | none => exact h2
    | some x =>
      obtain ⟨e, rfl⟩ := var _ _ hx
      exact .var

mutual
theorem simC (hI : Respects I R) (all : List (List Char)) : (t : T (Option D)) → ∀ (live : List (List Char)) (d : Bool) (scP scE : Names)
    (st : LSt), Inv R all live (st.seen d) scP scE → (∀ s ∈ live, s ∈ all) → (d = false → live = []) → InScope all live t →
    LFresh all live d st (letNames t) →
    RR (fun x m => R x.1.2 m ∧ LFrame d st x.2 (letNames t)) (buildC I d scP st t) (build I scE t)
  | .mk tag cs => by
    intro live d scP scE st inv hl hd hs hf
    have leafC : ∀ {A : Res N}, RR R A A → RR (fun x m => R x.1.2 m ∧ LFrame d st x.2 (letNames (.mk tag cs)))
        (do let r ← A; return ((([] : List N), r), st)) A := by
      intro A h
      cases A with
      | ok a =>
        cases h with
        | ok h => exact .ok ⟨h, fun _ _ _ => rfl⟩
      | throw => exact .throw
      | abort => exact .abort
      | ub => exact .ub
      | diverge => exact .diverge
    have listC : ∀ {sc sc' : Names} {f g : List N → Res N} (ih : RR (fun x ys => All2 R x.1 ys ∧ LFrame d st x.2 (letNames (.mk tag cs)))
        (buildPL I d sc st cs) (buildL I sc' cs)), (∀ xs ys, All2 R xs ys → RR R (f xs) (g ys)) →
        RR (fun x m => R x.1.2 m ∧ LFrame d st x.2 (letNames (.mk tag cs)))
          (do let (xs, st) ← buildPL I d sc st cs; let r ← f xs; return ((([] : List N), r), st)) (do let xs ← buildL I sc' cs; g xs) := by
      intro sc sc' f g ih hfg
      refine ih.bind ?_
      rintro ⟨xs, st'⟩ ys ⟨h1, h2⟩
      have := hfg xs ys h1
      show RR _ (f xs >>= fun r => Res.ok ((([] : List N), r), st')) (g ys)
      generalize f xs = A at this ⊢
      generalize g ys = B at this ⊢
      cases this with
      | ok h => exact .ok ⟨h, h2⟩
      | throw => exact .throw
      | abort => exact .abort
      | ub => exact .ub
      | diverge => exact .diverge
    cases tag with
    | sym s ph =>
      simp only [InScope] at hs
      simp only [buildC, build]
      have := hI.leaf s ph (inv.sr hs)
      generalize I.leaf (st.seen d ++ scP) s ph = A at this ⊢
      generalize I.leaf scE s ph = B at this ⊢
      cases this with
      | ok h => exact .ok ⟨h, fun _ _ _ => rfl⟩
      | throw => exact .throw
      | abort => exact .abort
      | ub => exact .ub
      | diverge => exact .diverge
    | app op n =>
      simp only [InScope] at hs
      simp only [buildC, build]
      exact listC (f := fun xs => callOper I op (xs.take n) (xs.drop n)) (g := fun xs => callOper I op (xs.take n) (xs.drop n))
        (simL hI all cs live d scP scE st inv hl hd hs.2 hf) fun xs ys h => callOper_rr hI hs.1 (h.take n) (h.drop n)
    | quant h vs =>
      simp only [InScope] at hs
      have ih := simL hI all cs live d _ _ st (inv.quant hl hs.1) hl hd hs.2 hf
      simp only [buildC, build]
      refine ih.bind ?_
      rintro ⟨xs, st'⟩ ys ⟨h1, h2⟩
      cases h1 with
      | nil => exact .ub
      | cons h1 t =>
        cases t with
        | nil =>
          dsimp only
          have := hI.quant h vs h1
          generalize I.quant h vs _ = A at this ⊢
          generalize I.quant h vs _ = B at this ⊢
          cases this with
          | ok h => exact .ok ⟨h, h2⟩
          | throw => exact .throw
          | abort => exact .abort
          | ub => exact .ub
          | diverge => exact .diverge
        | cons _ _ => exact .ub
    | lets ns =>
      simp only [InScope] at hs
      simp only [buildC, build]
      have inv' : Inv R all live ((st.enter d).seen true) scP scE := by
        cases d with
        | true => exact inv
        | false => exact inv
      have new : ∀ s ∈ letNames (.mk (.lets ns) cs), (st.enter d).lets.lookup s = none := by
        intro s h
        cases d with
        | true => exact hf.new rfl s h
        | false => rfl
      have := simLv hI all cs ns live scP scE (st.enter d) [] inv' hl hs.2 ⟨hf.nodup, hf.sub, hf.dead, fun _ => new⟩ (.inl hs.1)
      generalize buildLv I scP (st.enter d) [] ns cs = A at this ⊢
      generalize buildLets I scE ns cs = B at this ⊢
      cases this with
      | ok h =>
        refine .ok ⟨h.1, fun hd s hs => ?_⟩
        have := h.2 rfl s hs
        subst hd
        exact this
      | throw => exact .throw
      | abort => exact .abort
      | ub => exact .ub
      | diverge => exact .diverge
    | bv n w => simp only [buildC, build]; exact leafC (hI.bv n w)
    | fpc w e s => simp only [buildC, build]; exact leafC (hI.fpc w e s)
    | fp =>
      simp only [InScope] at hs
      simp only [buildC, build]
      exact listC (f := I.fp) (g := I.fp) (simL hI all cs live d scP scE st inv hl hd hs hf) fun xs ys h => hI.fp h
    | constArr s =>
      simp only [InScope] at hs
      have ih := simL hI all cs live d scP scE st inv hl hd hs hf
      simp only [buildC, build]
      refine ih.bind ?_
      rintro ⟨xs, st'⟩ ys ⟨h1, h2⟩
      cases h1 with
      | nil => exact .ub
      | cons h1 t =>
        cases t with
        | nil =>
          dsimp only
          have := hI.constArr s h1
          generalize I.constArr s _ = A at this ⊢
          generalize I.constArr s _ = B at this ⊢
          cases this with
          | ok h => exact .ok ⟨h, h2⟩
          | throw => exact .throw
          | abort => exact .abort
          | ub => exact .ub
          | diverge => exact .diverge
        | cons _ _ => exact .ub
    | asArray a => simp only [buildC, build]; exact leafC (hI.asArray a)
    | named o =>
      simp only [InScope] at hs
      have ih := simL hI all cs live d scP scE st inv hl hd hs hf
      simp only [buildC, build]
      refine ih.bind ?_
      rintro ⟨xs, st'⟩ ys ⟨h1, h2⟩
      cases h1 with
      | nil => exact .ub
      | cons h1 t =>
        cases t with
        | nil => exact .ok ⟨h1, h2⟩
        | cons _ _ => exact .ub
    | rootObj i =>
      simp only [InScope] at hs
      have ih := simL hI all cs live d scP scE st inv hl hd hs hf
      simp only [buildC, build]
      refine ih.bind ?_
      rintro ⟨xs, st'⟩ ys ⟨h1, h2⟩
      cases h1 with
      | nil => exact .ub
      | cons h1 t =>
        cases t with
        | nil =>
          dsimp only
          have := hI.rootObj i h1
          generalize I.rootObj _ i = A at this ⊢
          generalize I.rootObj _ i = B at this ⊢
          cases this with
          | ok h => exact .ok ⟨h, h2⟩
          | throw => exact .throw
          | abort => exact .abort
          | ub => exact .ub
          | diverge => exact .diverge
        | cons _ _ => exact .ub
    | rootInt =>
      simp only [InScope] at hs
      simp only [buildC, build]
      exact listC (f := I.rootInt) (g := I.rootInt) (simL hI all cs live d scP scE st inv hl hd hs hf) fun xs ys h => hI.rootInt h
    | ran =>
      simp only [InScope] at hs
      simp only [buildC, build]
      exact listC (f := I.ran) (g := I.ran) (simL hI all cs live d scP scE st inv hl hd hs hf) fun xs ys h => hI.ran h
theorem simL (hI : Respects I R) (all : List (List Char)) : (ts : List (T (Option D))) → ∀ (live : List (List Char)) (d : Bool)
    (scP scE : Names) (st : LSt), Inv R all live (st.seen d) scP scE → (∀ s ∈ live, s ∈ all) → (d = false → live = []) →
    InScopeL all live ts → LFresh all live d st (letNamesL ts) →
    RR (fun x ys => All2 R x.1 ys ∧ LFrame d st x.2 (letNamesL ts)) (buildPL I d scP st ts) (buildL I scE ts)
  | [] => by
    intro live d scP scE st inv hl hd hs hf
    simp only [buildPL, buildL]
    exact .ok ⟨.nil, fun _ _ _ => rfl⟩
  | t :: ts => by
    intro live d scP scE st inv hl hd hs hf
    simp only [InScopeL] at hs
    simp only [letNamesL] at hf ⊢
    simp only [buildPL, buildL]
    refine (simC hI all t live d scP scE st inv hl hd hs.1 hf.left).bind ?_
    rintro ⟨x, st1⟩ y ⟨h1, h2⟩
    refine (simL hI all ts live d scP scE st1 (inv.frame h2 hf.left.sub hf.left.dead) hl hd hs.2 (hf.right h2)).bind ?_
    rintro ⟨xs, st2⟩ ys ⟨h3, h4⟩
    exact .ok ⟨.cons (close_rr hI h1) h3, h2.trans h4⟩
theorem simLv (hI : Respects I R) (all : List (List Char)) : (cs : List (T (Option D))) → ∀ (ns : List (List Char)) (live : List (List Char))
    (scP scE : Names) (st : LSt) (vars : List N), Inv R all live (st.seen true) scP scE → (∀ s ∈ live, s ∈ all) →
    InScopeLets all live ns cs → LFresh all live true st (ns ++ letNamesL cs) → (ns ≠ [] ∨ vars ≠ []) →
    RR (fun x m => R x.1.2 m ∧ LFrame true st x.2 (ns ++ letNamesL cs)) (buildLv I scP st vars ns cs) (buildLets I scE ns cs)
  | [] => by
    intro ns live scP scE st vars inv hl hs hf hv
    cases ns <;> simp only [buildLv, buildLets] <;> exact .ub
  | v :: vs => by
    intro ns live scP scE st vars inv hl hs hf hv
    cases ns with
    | nil =>
      simp only [InScopeLets] at hs
      simp only [buildLv, buildLets]
      rcases hv with hv | hv
      · exact absurd rfl hv
      · cases vars with
        | nil => exact absurd rfl hv
        | cons w ws =>
          simp only [bindList, Res.ok_bind]
          simp only [List.nil_append, letNamesL] at hf ⊢
          have := simC hI all v live true scP scE st inv hl (by simp) hs hf.left
          generalize buildC I true scP st v = A at this ⊢
          generalize build I scE v = B at this ⊢
          cases this with
          | ok h => exact .ok ⟨h.1, fun hd s hs => h.2 hd s fun h' => hs (List.mem_append_left _ h')⟩
          | throw => exact .throw
          | abort => exact .abort
          | ub => exact .ub
          | diverge => exact .diverge
    | cons n ns =>
      simp only [InScopeLets] at hs
      simp only [buildLv, buildLets]
      simp only [letNamesL] at hf ⊢
      have nd := hf.nodup
      have hfv : LFresh all live true st (letNames v) := by
        refine ⟨?_, fun s h => hf.sub s ?_, fun s h => hf.dead s ?_, fun hd s h => hf.new hd s ?_⟩
        · exact (List.nodup_append.mp (List.nodup_append.mp nd).2.1).1
        all_goals exact List.mem_append_right _ (List.mem_append_left _ h)
      have nv : n ∉ letNames v := by
        intro h
        exact (List.nodup_append.mp nd).2.2 n List.mem_cons_self n (List.mem_append_left _ h) rfl
      refine (simC hI all v live true scP scE st inv hl (by simp) hs.1 hfv).bind ?_
      rintro ⟨x, st1⟩ y ⟨h1, h2⟩
      have inv1 := inv.frame h2 hfv.sub hfv.dead
      have hn : st1.lets.lookup n = none := by
        rw [h2 rfl n nv]; exact hf.new rfl n (List.mem_append_left _ List.mem_cons_self)
      have eb : bindVar st1 n (close x) = (letVar st1.counter n (close x),
          { st1 with lets := (n, .val (letVar st1.counter n (close x))) :: st1.lets }) := by
        unfold bindVar; rw [hn]; rfl
      rw [eb]
      dsimp only
      have nl : n ∉ live := hf.dead n (List.mem_append_left _ List.mem_cons_self)
      have na : n ∈ all := hf.sub n (List.mem_append_left _ List.mem_cons_self)
      have inv2 : Inv R all (n :: live) (({ st1 with lets := (n, .val (letVar st1.counter n (close x))) :: st1.lets } : LSt).seen true) scP
          ((n, .val y) :: scE) := by
        refine ⟨fun s hs => ?_, fun s hs => ?_⟩
        · by_cases e : s = n
          · subst e
            refine ⟨letVar st1.counter s (close x), y, ?_, ?_, hI.var _ (close_rr hI h1)⟩
            · simp [LSt.seen, List.lookup_cons]
            · simp [List.lookup_cons]
          · have hs' : s ∈ live := by
              rcases List.mem_cons.mp hs with h | h
              · exact absurd h e
              · exact h
            obtain ⟨a, b, e1, e2, e3⟩ := inv1.live s hs'
            have e' : (s == n) = false := beq_eq_false_iff_ne.mpr e
            refine ⟨a, b, ?_, ?_, e3⟩
            · simp only [LSt.seen, if_true, List.lookup_cons, e'] at e1 ⊢; exact e1
            · simp only [List.lookup_cons, e']; exact e2
        · have e : s ≠ n := fun e => hs (e ▸ na)
          have e' : (s == n) = false := beq_eq_false_iff_ne.mpr e
          obtain ⟨e1, e2⟩ := inv1.other s hs
          refine ⟨?_, ?_⟩
          · simp only [LSt.seen, if_true, List.lookup_cons, e'] at e1 ⊢; exact e1
          · simp only [List.lookup_cons, e']; exact e2
      have hl2 : ∀ s ∈ n :: live, s ∈ all := by
        intro s h
        rcases List.mem_cons.mp h with h | h
        · exact h ▸ na
        · exact hl s h
      have nd2 : (ns ++ letNamesL vs).Nodup := by
        rw [List.cons_append, List.nodup_cons] at nd
        have := List.nodup_append.mp nd.2
        refine List.nodup_append.mpr ⟨this.1, (List.nodup_append.mp this.2.1).2.1, fun a ha b hb => this.2.2 a ha b (List.mem_append_right _ hb)⟩
      have mem2 : ∀ s ∈ ns ++ letNamesL vs, s ∈ n :: ns ++ (letNames v ++ letNamesL vs) ∧ s ≠ n ∧ s ∉ letNames v := by
        intro s h
        rw [List.cons_append, List.nodup_cons] at nd
        rcases List.mem_append.mp h with h | h
        · exact ⟨List.mem_append_left _ (List.mem_cons_of_mem _ h), fun e => nd.1 (e ▸ List.mem_append_left _ h),
            fun h' => (List.nodup_append.mp nd.2).2.2 s h s (List.mem_append_left _ h') rfl⟩
        · exact ⟨List.mem_append_right _ (List.mem_append_right _ h),
            fun e => nd.1 (e ▸ List.mem_append_right _ (List.mem_append_right _ h)),
            fun h' => (List.nodup_append.mp (List.nodup_append.mp nd.2).2.1).2.2 s h' s h rfl⟩
      have hf2 : LFresh all (n :: live) true { st1 with lets := (n, .val (letVar st1.counter n (close x))) :: st1.lets } (ns ++ letNamesL vs) := by
        refine ⟨nd2, fun s h => hf.sub s (mem2 s h).1, fun s h => ?_, fun _ s h => ?_⟩
        · intro h'
          rcases List.mem_cons.mp h' with e | h'
          · exact (mem2 s h).2.1 e
          · exact hf.dead s (mem2 s h).1 h'
        · have e' : (s == n) = false := beq_eq_false_iff_ne.mpr (mem2 s h).2.1
          simp only [List.lookup_cons, e']
          rw [h2 rfl s (mem2 s h).2.2]
          exact hf.new rfl s (mem2 s h).1
      have := simLv hI all vs ns (n :: live) scP ((n, .val y) :: scE) _ (vars ++ [letVar st1.counter n (close x)]) inv2 hl2 hs.2 hf2
        (.inr (by simp))
      generalize buildLv I scP _ _ ns vs = A at this ⊢
      generalize buildLets I ((n, .val y) :: scE) ns vs = B at this ⊢
      cases this with
      | ok h =>
        refine .ok ⟨h.1, fun hd s hs => ?_⟩
        have e : s ≠ n := fun e => hs (e ▸ List.mem_append_left _ List.mem_cons_self)
        have e' : (s == n) = false := beq_eq_false_iff_ne.mpr e
        rw [h.2 rfl s]
        · simp only [List.lookup_cons, e']
          exact h2 rfl s fun h' => hs (List.mem_append_right _ (List.mem_append_left _ h'))
        · intro h'
          rcases List.mem_append.mp h' with h' | h'
          · exact hs (List.mem_append_left _ (List.mem_cons_of_mem _ h'))
          · exact hs (List.mem_append_right _ (List.mem_append_right _ h'))
      | throw => exact .throw
      | abort => exact .abort
      | ub => exact .ub
      | diverge => exact .diverge
end

/-! ## C76 -/

/-- **the two modes agree on a well-scoped term**: both fail alike, or make nodes of which the one with lets stands for the other; whatever
"stands for" means, if it sees through lets and the constructors keep it -/
theorem modes_agree_partial (hI : Respects I R) (sc : Names) (hsc : ∀ s v, sc.lookup s = some (.val v) → R v v) (st : LSt)
    (t : T (Option D)) (ht : WellScoped t) :
    RR (fun x m => R x.1 m) (buildP I false sc st t) (build I sc t) := by
  have h := simC hI (letNames t) t [] false sc sc st ⟨by simp, fun s _ => ⟨rfl, by
      rcases h : sc.lookup s with _ | (e | v)
      · exact .none
      · exact .var
      · exact .val (hsc s v h)⟩⟩ (by simp) (fun _ => rfl) ht.2
    ⟨ht.1, fun _ h => h, by simp, by simp⟩
  unfold buildP
  generalize buildC I false sc st t = A at h ⊢
  generalize build I sc t = B at h ⊢
  cases h with
  | ok h => exact .ok (close_rr hI h.1)
  | throw => exact .throw
  | abort => exact .abort
  | ub => exact .ub
  | diverge => exact .diverge

/-! ### From the text -/

mutual
/-- the names bound by lets do not depend on the sorts -/
theorem letNames_map {σ : Type} (f : σ → Option D) : ∀ t : T σ, letNames (t.map f) = t.names
  | .mk g cs => by
    cases g <;> simp only [T.map, Tag.map, letNames, T.names, Tag.names, letNamesL_map f cs, List.nil_append]
theorem letNamesL_map {σ : Type} (f : σ → Option D) : ∀ ts : List (T σ), letNamesL (mapL f ts) = namesL ts
  | [] => rfl
  | t :: ts => by simp only [mapL, letNamesL, namesL, letNames_map f t, letNamesL_map f ts]
end

/-- **C76, from the text**: for every text of a term, in any layout, `mkExpr` with the option on and off reads the text, and what it builds
with the option on stands for what it builds with the option off. -/
theorem modes_text_partial (hI : Respects I R) {decl : Decl} (hg : GoodDecl decl) (p p' : P) (hk : Keys decl p.keys) (hk' : Keys decl p'.keys)
    (hph : p'.ph = p.ph) {x : Sexp} {t : T D} (hx : Reads decl p.ph x t) (hb : ∀ n ∈ t.names, n ∉ p.bound) (hb' : ∀ n ∈ t.names, n ∉ p'.bound)
    (ht : WellScoped (t.map some)) {g tx r : List Char} (h0 : Skip g) (hl : Lay false x tx) (hr : SepX false x r)
    (sc : Names) (hsc : ∀ s v, sc.lookup s = some (.val v) → R v v) (st : LSt) :
    ∃ (tk te : T Srt) (q q' : P) (fuel : Nat),
      (∀ m, fuel ≤ m → mkExpr true m p (g ++ (tx ++ r)) = .ok (tk, q)) ∧ (∀ m, fuel ≤ m → mkExpr false m p' (g ++ (tx ++ r)) = .ok (te, q')) ∧
      RR (fun a m => R a.1 m) (buildP I false sc st (tk.map sortOf)) (build I sc (te.map sortOf)) := by
  have hn : t.names.Nodup := by
    have := ht.1
    rwa [letNames_map] at this
  obtain ⟨tk, q, k, e1, e2⟩ := mkExpr_reads_partial true hg p hk hx hn hb h0 hl hr
  rw [← hph] at hx
  obtain ⟨te, q', k', f1, f2⟩ := mkExpr_reads_partial false hg p' hk' hx hn hb' h0 hl hr
  refine ⟨tk, te, q, q', k + k', fun m hm => e2 m (by omega), fun m hm => f2 m (by omega), ?_⟩
  unfold Same at e1 f1
  rw [e1, f1]
  exact modes_agree_partial hI sc hsc st _ ht

/-! ### With a meaning of terms -/

/-- A meaning of nodes that lets do not change, and that the constructors respect: operands of the same sorts and meanings give nodes of the
same sort and meaning.  With `V` the functions from assignments to values this covers quantifiers. -/
structure Meaning (I : Ctors) (V : Type) (ev : N → V) : Prop where
  var : ∀ name s n, ev (.mk .LET_BIND_VAR name s [n]) = ev n
  chain : ∀ name s l ls n, ev (.mk .LET_CHAIN name s (l :: ls ++ [n])) = ev n
  ctors : ∀ R, (∀ n m, R n m ↔ n.sort = m.sort ∧ ev n = ev m) →
    (∀ k xs ys, All2 R xs ys → RR R (I.op k xs) (I.op k ys)) ∧
    (∀ f xs ys, All2 R xs ys → RR R (I.apply f xs) (I.apply f ys)) ∧
    (∀ (sc sc' : Names) s ph, SR R (sc.lookup s) (sc'.lookup s) → RR R (I.leaf sc s ph) (I.leaf sc' s ph)) ∧
    (∀ h vs b b', R b b' → RR R (I.quant h vs b) (I.quant h vs b')) ∧
    (∀ xs ys, All2 R xs ys → RR R (I.fp xs) (I.fp ys)) ∧
    (∀ s v v', R v v' → RR R (I.constArr s v) (I.constArr s v')) ∧
    (∀ e e' i, R e e' → RR R (I.rootObj e i) (I.rootObj e' i)) ∧
    (∀ xs ys, All2 R xs ys → RR R (I.rootInt xs) (I.rootInt ys)) ∧
    (∀ xs ys, All2 R xs ys → RR R (I.ran xs) (I.ran ys))

theorem RR.refl {α : Type} {R : α → α → Prop} (h : ∀ a, R a a) (x : Res α) : RR R x x := by
  cases x with
  | ok a => exact .ok (h a)
  | throw => exact .throw
  | abort => exact .abort
  | ub => exact .ub
  | diverge => exact .diverge

/-- **the option `parsing_preserve_let` does not change the meaning of a well-scoped term** -/
theorem modes_same_meaning_partial {V : Type} {ev : N → V} (hM : Meaning I V ev) (sc : Names) (st : LSt) (t : T (Option D)) (ht : WellScoped t) :
    (∃ n m st', buildP I false sc st t = .ok (n, st') ∧ build I sc t = .ok m ∧ n.sort = m.sort ∧ ev n = ev m) ∨
    (∀ n, build I sc t ≠ .ok n) ∧ (∀ r, buildP I false sc st t ≠ .ok r) := by
  have key := hM.ctors (fun n m => n.sort = m.sort ∧ ev n = ev m) fun n m => Iff.rfl
  have hI : Respects I fun n m => n.sort = m.sort ∧ ev n = ev m := by
    refine ⟨fun {n m} name h => ⟨h.1, (hM.var name n.sort n).trans h.2⟩, fun {n m} l ls h => ⟨h.1, (hM.chain [] n.sort l ls n).trans h.2⟩,
      fun k _ _ h => key.1 k _ _ h, fun f _ _ h => key.2.1 f _ _ h, fun s ph h => key.2.2.1 _ _ s ph h, fun q vs _ _ h => key.2.2.2.1 q vs _ _ h,
      fun _ _ => RR.refl (fun _ => ⟨rfl, rfl⟩) _, fun _ _ _ => RR.refl (fun _ => ⟨rfl, rfl⟩) _, fun h => key.2.2.2.2.1 _ _ h,
      fun s _ _ h => key.2.2.2.2.2.1 s _ _ h, fun _ => RR.refl (fun _ => ⟨rfl, rfl⟩) _, fun i h => key.2.2.2.2.2.2.1 _ _ i h,
      fun h => key.2.2.2.2.2.2.2.1 _ _ h, fun h => key.2.2.2.2.2.2.2.2 _ _ h⟩
  have h := modes_agree_partial hI sc (fun _ _ _ => ⟨rfl, rfl⟩) st t ht
  generalize buildP I false sc st t = A at h ⊢
  generalize build I sc t = B at h ⊢
  cases h with
  | ok h => exact .inl ⟨_, _, _, rfl, rfl, h.1, h.2⟩
  | throw => exact .inr ⟨by simp, by simp⟩
  | abort => exact .inr ⟨by simp, by simp⟩
  | ub => exact .inr ⟨by simp, by simp⟩
  | diverge => exact .inr ⟨by simp, by simp⟩

/-! ### Constructors that simplify nothing -/

mutual
/-- let variables replaced by their values and chains by their bodies -/
def unlet : N → N
  | .mk k name s cs =>
    if k = .LET_BIND_VAR then (match unletL cs with | [x] => x | xs => .mk k name s xs)
    else if k = .LET_CHAIN then (match (unletL cs).getLast? with | some b => b | none => .mk k name s [])
    else .mk k name s (unletL cs)
/-- the same for a list -/
def unletL : List N → List N
  | [] => []
  | n :: ns => unlet n :: unletL ns
end

theorem unletL_eq : ∀ ns : List N, unletL ns = ns.map unlet
  | [] => rfl
  | n :: ns => by rw [unletL, unletL_eq ns]; rfl

/-- constructors that make the node and nothing else; there is none for the nodes of lets -/
def rawCtors : Ctors where
  op k cs := if k = .LET_BIND_VAR ∨ k = .LET_CHAIN then .abort else .ok (.mk k (kindName k) BOOL_SORT cs)
  isFun n := n == cs!"f"
  apply n cs := .ok (.mk .UF_APPLY n INT_SORT cs)
  leaf sc n _ :=
    match sc.lookup n with
    | some (.var s) => .ok (.mk .QUANT_VAR n (srtOf s) [])
    | some (.val v) => .ok v
    | none => if n.all Char.isDigit then .ok (.mk .CONST n INT_SORT []) else .ok (.mk .VAR n INT_SORT [])
  quant h vs b :=
    .ok (.mk (if h = cs!"forall" then .FORALL else .EXISTS) h BOOL_SORT (b :: vs.map fun v => .mk .QUANT_VAR v.1 (srtOf v.2) []))
  bv n _ := .ok (.mk .CONST n BOOL_SORT [])
  fpc n _ _ := .ok (.mk .CONST n BOOL_SORT [])
  fp cs := .ok (.mk .CONST cs!"(fp_bit_representation)" BOOL_SORT cs)
  constArr _ v := .ok (.mk .CONST_ARRAY [] BOOL_SORT [v])
  asArray n := .ok (.mk .VAR n BOOL_SORT [])
  rootObj e _ := .ok e
  rootInt cs := .ok (.mk .ROOT_OF_WITH_INTERVAL [] BOOL_SORT cs)
  ran cs := .ok (.mk .REAL_ALGEBRAIC_NUMBER [] BOOL_SORT cs)

theorem all2_unlet {xs ys : List N} (h : All2 (fun n m => unlet n = m) xs ys) : ys = unletL xs := by
  induction h with
  | nil => rfl
  | cons h _ ih => rw [unletL, h, ih]

theorem unlet_plain {k : K} (h1 : k ≠ .LET_BIND_VAR) (h2 : k ≠ .LET_CHAIN) (name : List Char) (s : Srt) (cs : List N) :
    unlet (.mk k name s cs) = .mk k name s (unletL cs) := by rw [unlet, if_neg h1, if_neg h2]

theorem raw_respects : Respects rawCtors fun n m => unlet n = m := by
  have leaf0 : ∀ k name s, k ≠ K.LET_BIND_VAR → k ≠ K.LET_CHAIN → unlet (.mk k name s []) = .mk k name s [] := by
    intro k name s h1 h2; rw [unlet_plain h1 h2]; rfl
  refine ⟨?_, ?_, ?_, ?_, ?_, ?_, ?_, ?_, ?_, ?_, ?_, ?_, ?_, ?_⟩
  · rintro n m name rfl; simp [unlet, unletL]
  · rintro n m l ls rfl
    rw [unlet, if_neg (by decide), if_pos rfl, unletL_eq, List.map_append, show [n].map unlet = [unlet n] from rfl, List.getLast?_concat]
  · intro k xs ys h
    rw [all2_unlet h]
    show RR _ (if k = .LET_BIND_VAR ∨ k = .LET_CHAIN then Res.abort else _) (if k = .LET_BIND_VAR ∨ k = .LET_CHAIN then Res.abort else _)
    by_cases hk : k = .LET_BIND_VAR ∨ k = .LET_CHAIN
    · rw [if_pos hk, if_pos hk]; exact .abort
    · rw [if_neg hk, if_neg hk]; exact .ok (unlet_plain (fun e => hk (.inl e)) (fun e => hk (.inr e)) _ _ _)
  · intro f xs ys h
    rw [all2_unlet h]
    exact .ok (unlet_plain (by decide) (by decide) _ _ _)
  · intro sc sc' s ph h
    simp only [rawCtors]
    generalize sc.lookup s = a at h ⊢
    generalize sc'.lookup s = b at h ⊢
    cases h with
    | none =>
      dsimp only
      split
      · exact .ok (leaf0 _ _ _ (by decide) (by decide))
      · exact .ok (leaf0 _ _ _ (by decide) (by decide))
    | var => exact .ok (leaf0 _ _ _ (by decide) (by decide))
    | val h => exact .ok h
  · rintro h vs b b' rfl
    have e : unletL (vs.map fun v => N.mk .QUANT_VAR v.1 (srtOf v.2) []) = vs.map fun v => N.mk .QUANT_VAR v.1 (srtOf v.2) [] := by
      rw [unletL_eq, List.map_map]
      exact List.map_congr_left fun v _ => leaf0 _ _ _ (by decide) (by decide)
    refine .ok ?_
    rw [unlet_plain (by split <;> decide) (by split <;> decide), unletL, e]
  · exact fun n w => .ok (leaf0 _ _ _ (by decide) (by decide))
  · exact fun w e s => .ok (leaf0 _ _ _ (by decide) (by decide))
  · intro xs ys h
    rw [all2_unlet h]
    exact .ok (unlet_plain (by decide) (by decide) _ _ _)
  · rintro s v v' rfl
    exact .ok (unlet_plain (by decide) (by decide) _ _ _)
  · exact fun a => .ok (leaf0 _ _ _ (by decide) (by decide))
  · exact fun i h => .ok h
  · intro xs ys h
    rw [all2_unlet h]
    exact .ok (unlet_plain (by decide) (by decide) _ _ _)
  · intro xs ys h
    rw [all2_unlet h]
    exact .ok (unlet_plain (by decide) (by decide) _ _ _)

/-- **where nothing is simplified, replacing the variables of the kept lets gives exactly the expanded term** -/
theorem unlet_kept_partial (st : LSt) (t : T (Option D)) (ht : WellScoped t) :
    RR (fun x m => unlet x.1 = m) (buildP rawCtors false [] st t) (build rawCtors [] t) :=
  modes_agree_partial raw_respects [] (by simp) st t ht

/-! ### Concrete cases -/

/-- the term without its lets is a meaning of this kind -/
theorem raw_meaning : Meaning rawCtors N unlet := by
  refine ⟨fun name s n => by simp [unlet, unletL], fun name s l ls n => ?_, fun R hR => ?_⟩
  · rw [unlet, if_neg (by decide), if_pos rfl, unletL_eq, List.map_append, show [n].map unlet = [unlet n] from rfl, List.getLast?_concat]
  have all : ∀ xs ys, All2 R xs ys → unletL xs = unletL ys := by
    intro xs ys h
    induction h with
    | nil => rfl
    | cons h _ ih => rw [unletL, unletL, ((hR _ _).mp h).2, ih]
  have refl : ∀ n, R n n := fun n => (hR n n).mpr ⟨rfl, rfl⟩
  have node : ∀ {k : K} {name : List Char} {s : Srt} {xs ys : List N}, k ≠ .LET_BIND_VAR → k ≠ .LET_CHAIN → unletL xs = unletL ys →
      R (.mk k name s xs) (.mk k name s ys) := by
    intro k name s xs ys h1 h2 h
    exact (hR _ _).mpr ⟨rfl, by rw [unlet_plain h1 h2, unlet_plain h1 h2, h]⟩
  refine ⟨fun k xs ys h => ?_, fun f xs ys h => .ok (node (by decide) (by decide) (all _ _ h)), fun sc sc' s ph h => ?_, fun q vs b b' h => .ok ?_,
    fun xs ys h => .ok (node (by decide) (by decide) (all _ _ h)), fun s v v' h => .ok (node (by decide) (by decide) (all _ _ (.cons h .nil))),
    fun e e' i h => .ok h, fun xs ys h => .ok (node (by decide) (by decide) (all _ _ h)),
    fun xs ys h => .ok (node (by decide) (by decide) (all _ _ h))⟩
  · show RR _ (if k = .LET_BIND_VAR ∨ k = .LET_CHAIN then Res.abort else _) (if k = .LET_BIND_VAR ∨ k = .LET_CHAIN then Res.abort else _)
    by_cases hk : k = .LET_BIND_VAR ∨ k = .LET_CHAIN
    · rw [if_pos hk, if_pos hk]; exact .abort
    · rw [if_neg hk, if_neg hk]; exact .ok (node (fun e => hk (.inl e)) (fun e => hk (.inr e)) (all _ _ h))
  · simp only [rawCtors]
    generalize sc.lookup s = a at h ⊢
    generalize sc'.lookup s = b at h ⊢
    cases h with
    | none => dsimp only; split <;> exact .ok (refl _)
    | var => exact .ok (refl _)
    | val h => exact .ok h
  · refine node (by split <;> decide) (by split <;> decide) ?_
    rw [unletL, unletL, ((hR _ _).mp h).2]


/-- the tree of a word -/
def sy (s : List Char) : T (Option D) := .mk (.sym s false) []

/-- `(let ((x (f a)) (y (f x))) (let ((z (f y))) (and z (forall ((w Int)) (< w x)) (let ((v z)) v))))` -/
def mt : T (Option D) :=
  .mk (.lets [cs!"x", cs!"y"]) [.mk (.app cs!"f" 0) [sy cs!"a"], .mk (.app cs!"f" 0) [sy cs!"x"],
    .mk (.lets [cs!"z"]) [.mk (.app cs!"f" 0) [sy cs!"y"], .mk (.app cs!"and" 0) [sy cs!"z",
      .mk (.quant cs!"forall" [(cs!"w", none)]) [.mk (.app cs!"<" 0) [sy cs!"w", sy cs!"x"]], .mk (.lets [cs!"v"]) [sy cs!"z", sy cs!"v"]]]]

theorem mt_scoped : WellScoped mt := by
  refine ⟨by decide +kernel, ?_⟩
  have e : letNames mt = [cs!"x", cs!"y", cs!"z", cs!"v"] := by decide +kernel
  rw [e]
  simp [mt, sy, InScope, InScopeL, InScopeLets]

example : ∃ n st', buildP rawCtors false [] ⟨0, []⟩ mt = .ok (n, st') ∧ build rawCtors [] mt = .ok (unlet n) ∧ n.kind = .LET_CHAIN := by
  have h := unlet_kept_partial ⟨0, []⟩ mt mt_scoped
  have e : ∃ n st', buildP rawCtors false [] ⟨0, []⟩ mt = .ok (n, st') ∧ n.kind = .LET_CHAIN := ⟨_, _, rfl, rfl⟩
  obtain ⟨n, st', e, hk⟩ := e
  rw [e] at h
  generalize build rawCtors [] mt = B at h ⊢
  cases h with
  | ok h => exact ⟨n, st', e, by rw [← h], hk⟩

example := modes_same_meaning_partial raw_meaning [] ⟨0, []⟩ mt mt_scoped

/-- `(let ((x (f a)) (y x)) (and x y))` -/
def mx : Sexp := .list [.atom cs!"let", .list [.list [.atom cs!"x", .list [.atom cs!"f", .atom cs!"a"]], .list [.atom cs!"y", .atom cs!"x"]],
  .list [.atom cs!"and", .atom cs!"x", .atom cs!"y"]]

/-- its tree -/
def mxt : T D := .mk (.lets [cs!"x", cs!"y"]) ([.mk (.app cs!"f" 0) [.mk (.sym cs!"a" false) []], .mk (.sym cs!"x" false) []] ++
  [.mk (.app cs!"and" 0) [.mk (.sym cs!"x" false) [], .mk (.sym cs!"y" false) []]])

example (st : LSt) : ∃ (tk te : T Srt) (q q' : P) (fuel : Nat),
    (∀ m, fuel ≤ m → mkExpr true m ⟨⟨[], .symbol, 1⟩, [], [], 0, false⟩ cs!"(let ((x (f a)) (y x)) (and x y))" = .ok (tk, q)) ∧
    (∀ m, fuel ≤ m → mkExpr false m ⟨⟨[], .symbol, 1⟩, [], [], 0, false⟩ cs!"(let ((x (f a)) (y x)) (and x y))" = .ok (te, q')) ∧
    RR (fun a m => unlet a.1 = m) (buildP rawCtors false [] st (tk.map sortOf)) (build rawCtors [] (te.map sortOf)) := by
  have hw : WellScoped (mxt.map some) := by
    refine ⟨by decide +kernel, ?_⟩
    have e : letNames (mxt.map some) = [cs!"x", cs!"y"] := by decide +kernel
    rw [e]
    simp [mxt, T.map, mapL, Tag.map, InScope, InScopeL, InScopeLets]
  have hx : Reads [] false mx mxt :=
    .lets (.cons (.app (by decide +kernel) (.cons .sym .nil)) (.cons .sym .nil)) (.app (by decide +kernel) (.cons .sym (.cons .sym .nil)))
  have ht : Toks mx := by
    simp only [mx, Toks, ToksL, and_true]
    refine ⟨plainB_tok (by decide +kernel), ⟨⟨plainB_tok (by decide +kernel), plainB_tok (by decide +kernel), plainB_tok (by decide +kernel)⟩,
      plainB_tok (by decide +kernel), plainB_tok (by decide +kernel)⟩, plainB_tok (by decide +kernel), plainB_tok (by decide +kernel), plainB_tok (by decide +kernel)⟩
  have h := modes_text_partial raw_respects (decl := []) (goodDecl (by simp [declNames]) (by simp)) ⟨⟨[], .symbol, 1⟩, [], [], 0, false⟩
    ⟨⟨[], .symbol, 1⟩, [], [], 0, false⟩ ⟨by simp, by simp⟩ ⟨by simp, by simp⟩ rfl hx (by simp) (by simp) hw .nil (lay_flat false ht) (r := [])
    (by trivial) [] (by simp) st
  exact h

/-! ### Where the modes differ -/

/-- `(let ((x a)) (forall ((x Int)) (f x)))`: kept, the `x` below the quantifier is the let variable; expanded, it is the variable of the
quantifier -/
theorem quantified_let_violated (st : LSt) :
    ∃ t : T (Option D), (letNames t).Nodup ∧ ∃ n m st', buildP rawCtors false [] st t = .ok (n, st') ∧ build rawCtors [] t = .ok m ∧
      unlet n = .mk .FORALL cs!"forall" BOOL_SORT [.mk .UF_APPLY cs!"f" INT_SORT [.mk .VAR cs!"a" INT_SORT []], .mk .QUANT_VAR cs!"x" (srtOf none) []] ∧
      m = .mk .FORALL cs!"forall" BOOL_SORT [.mk .UF_APPLY cs!"f" INT_SORT [.mk .QUANT_VAR cs!"x" (srtOf none) []],
        .mk .QUANT_VAR cs!"x" (srtOf none) []] :=
  ⟨.mk (.lets [cs!"x"]) [sy cs!"a", .mk (.quant cs!"forall" [(cs!"x", none)]) [.mk (.app cs!"f" 0) [sy cs!"x"]]], by decide +kernel,
    _, _, _, rfl, rfl, rfl, rfl⟩

/-- `(let ((x a)) (and (let ((y b)) y) y))`: kept, the last `y` is the let variable; expanded, it is the `y` of the script -/
theorem escaping_let_violated (st : LSt) :
    ∃ t : T (Option D), (letNames t).Nodup ∧ ∃ n m st', buildP rawCtors false [] st t = .ok (n, st') ∧ build rawCtors [] t = .ok m ∧
      unlet n = .mk .AND cs!"and" BOOL_SORT [.mk .VAR cs!"b" INT_SORT [], .mk .VAR cs!"b" INT_SORT []] ∧
      m = .mk .AND cs!"and" BOOL_SORT [.mk .VAR cs!"b" INT_SORT [], .mk .VAR cs!"y" INT_SORT []] :=
  ⟨.mk (.lets [cs!"x"]) [sy cs!"a", .mk (.app cs!"and" 0) [.mk (.lets [cs!"y"]) [sy cs!"b", sy cs!"y"], sy cs!"y"]], by decide +kernel,
    _, _, _, rfl, rfl, rfl, rfl⟩

end SMT.Parse
