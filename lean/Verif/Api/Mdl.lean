import Verif.Basic
import Verif.Term.Model

/-! # Models (`src/model.cpp`, `include/model.h`; C36)

A model keeps a vector of variables, a vector of values and an index from names to positions.  Nodes that serve as variables
are represented by their name and an identity; values are terms. -/

namespace SMT.Mdl

/-- a node used as a variable: what `getName()` returns, and which node it is -/
structure Var where
  name : String
  node : Nat
  deriving DecidableEq

/-- the fields of `class Model` (`include/model.h:131-134`); `idx` is the `unordered_map`, latest binding first -/
structure M where
  idx : List (String × Nat)
  vars : List Var
  vals : List Term

/-- `Model::Model()` (`src/model.cpp:32-34`) -/
def new : M := ⟨[], [], []⟩

/-- `Model::add(node, value)` (`src/model.cpp:46-55`); indexing past the end of the vector is undefined -/
def add (m : M) (x : Var) (v : Term) : Res M :=
  match m.idx.lookup x.name with
  | some i => if i < m.vals.length then .ok { m with vals := m.vals.set i v } else .ub
  | none => .ok ⟨(x.name, m.vars.length) :: m.idx, m.vars ++ [x], m.vals ++ [v]⟩

/-- `Model::add(name, value)` (`src/model.cpp:57-60`) in the default (Release) build, where `condAssert` does nothing
(`include/asserting.h:34-43`): `map[name]` on a missing name inserts position 0. -/
def addName (m : M) (n : String) (v : Term) : Res M :=
  match m.idx.lookup n with
  | some i => if i < m.vals.length then .ok { m with vals := m.vals.set i v } else .ub
  | none =>
    if 0 < m.vals.length then .ok ⟨(n, 0) :: m.idx, m.vars, m.vals.set 0 v⟩ else .ub

/-- `Model::get(name)` and `Model::get(node)` (`src/model.cpp:62-74`) -/
def get (m : M) (n : String) : Term :=
  match m.idx.lookup n with
  | some i => m.vals[i]?.getD .unknown
  | none => .unknown

/-- `Model::addVar` (`src/model.cpp:76-83`) -/
def addVar (m : M) (x : Var) : M :=
  match m.idx.lookup x.name with
  | some _ => m
  | none => ⟨(x.name, m.vars.length) :: m.idx, m.vars ++ [x], m.vals ++ [.unknown]⟩

/-- the loop of `isFull` (`src/model.cpp:86-90`) over positions `0 … n-1` -/
def isFull (m : M) : Bool := (List.range m.vars.length).all fun i => !(m.vals[i]?.getD .unknown).isUnknown

/-- `Model::isEmpty` (`src/model.cpp:94-104`) -/
def isEmpty (m : M) : Bool :=
  if m.vars.length == 0 then true else (List.range m.vars.length).all fun i => (m.vals[i]?.getD .unknown).isUnknown

/-- `Model::clear` (`src/model.cpp:106-110`) -/
def clear (_ : M) : M := new

/-- `Model::clearValues` (`src/model.cpp:112-116`) -/
def clearValues (m : M) : M :=
  { m with vals := (List.range m.vars.length).foldl (fun vs i => vs.set i .unknown) m.vals }

/-- `Model::size` (`src/model.cpp:118-120`) -/
def size (m : M) : Nat := m.vars.length

/-- `Model::getPairs` (`src/model.cpp:130-136`) -/
def getPairs (m : M) : List (String × Term) :=
  (List.range m.vars.length).map fun i => ((m.vars[i]?.map Var.name).getD "", m.vals[i]?.getD .unknown)

/-- one call that changes a model -/
inductive Op where
  | add (x : Var) (v : Term)
  | addName (n : String) (v : Term)
  | addVar (x : Var)
  | clearValues
  | clear

/-- effect of a call -/
def step (m : M) : Op → Res M
  | .add x v => add m x v
  | .addName n v => addName m n v
  | .addVar x => .ok (addVar m x)
  | .clearValues => .ok (clearValues m)
  | .clear => .ok (clear m)

/-- effect of a history, oldest call first -/
def run : M → List Op → Res M
  | m, [] => .ok m
  | m, o :: os => (step m o).bind fun m' => run m' os

/-! ## Specification: what a history means, latest call first -/

/-- the variables in order of first insertion since the last `clear` -/
def specVars : List Op → List Var
  | [] => []
  | .add x _ :: h | .addVar x :: h =>
    if x.name ∈ (specVars h).map Var.name then specVars h else specVars h ++ [x]
  | .addName _ _ :: h => specVars h
  | .clearValues :: h => specVars h
  | .clear :: _ => []

/-- the last value given to a name; `unknown` if there was none since the values were cleared -/
def specGet : List Op → String → Term
  | [], _ => .unknown
  | .add x v :: h, n => if x.name = n then v else specGet h n
  | .addName m v :: h, n => if m = n then v else specGet h n
  | .addVar _ :: h, n => specGet h n
  | .clearValues :: _, _ => .unknown
  | .clear :: _, _ => .unknown

/-- `add(name, value)` is only used on names the model already has (what its assertion demands) -/
def Legal : List Op → Prop
  | [] => True
  | .addName n _ :: h => n ∈ (specVars h).map Var.name ∧ Legal h
  | _ :: h => Legal h

/-! ## Proof -/

structure Inv (m : M) (h : List Op) : Prop where
  vars : m.vars = specVars h
  len : m.vals.length = m.vars.length
  idx : ∀ n i, m.idx.lookup n = some i ↔ ∃ x : Var, m.vars[i]? = some x ∧ x.name = n
  val : ∀ (i : Nat) (x : Var), m.vars[i]? = some x → m.vals[i]? = some (specGet h x.name)
  out : ∀ n, n ∉ (specVars h).map Var.name → specGet h n = .unknown
  uniq : ((specVars h).map Var.name).Nodup

theorem lookup_cons' (n m : String) (i : Nat) (l : List (String × Nat)) :
    List.lookup n ((m, i) :: l) = if n = m then some i else l.lookup n := by
  rw [List.lookup_cons]
  by_cases h : n = m
  · simp [h]
  · rw [beq_eq_false_iff_ne.mpr h, if_neg h]

theorem mem_names {l : List Var} {n : String} : n ∈ l.map Var.name ↔ ∃ (i : Nat) (x : Var), l[i]? = some x ∧ x.name = n := by
  simp only [List.mem_map]
  constructor
  · rintro ⟨x, hx, rfl⟩
    obtain ⟨i, hi⟩ := List.mem_iff_getElem?.mp hx
    exact ⟨i, x, hi, rfl⟩
  · rintro ⟨i, x, hi, rfl⟩
    exact ⟨x, List.mem_of_getElem? hi, rfl⟩

theorem uniq_pos {l : List Var} (h : (l.map Var.name).Nodup) {i j : Nat} {x y : Var} (hi : l[i]? = some x)
    (hj : l[j]? = some y) (e : x.name = y.name) : i = j := by
  have hi' := List.getElem?_eq_some_iff.mp hi
  have hj' := List.getElem?_eq_some_iff.mp hj
  obtain ⟨a, ha⟩ := hi'
  obtain ⟨b, hb⟩ := hj'
  rw [List.nodup_iff_pairwise_ne, List.pairwise_map, List.pairwise_iff_getElem] at h
  rcases Nat.lt_trichotomy i j with hlt | rfl | hlt
  · exact absurd (by rw [ha, hb]; exact e) (h i j a b hlt)
  · rfl
  · exact absurd (by rw [ha, hb]; exact e.symm) (h j i b a hlt)

theorem set_foldl (vs : List Term) (n : Nat) (h : vs.length = n) :
    (List.range n).foldl (fun vs i => vs.set i .unknown) vs = List.replicate n .unknown := by
  have key : ∀ k, k ≤ n → (List.range k).foldl (fun vs i => vs.set i .unknown) vs =
      List.replicate k Term.unknown ++ vs.drop k := by
    intro k
    induction k with
    | zero => intro _; simp
    | succ k ih =>
      intro hk
      rw [List.range_succ, List.foldl_append, ih (by omega)]
      simp only [List.foldl_cons, List.foldl_nil]
      have hk' : k < vs.length := by omega
      rw [List.set_append_right _ _ (by simp), List.length_replicate, Nat.sub_self, List.drop_eq_getElem_cons hk']
      simp only [List.set_cons_zero]
      rw [List.replicate_succ', List.append_assoc]; rfl
  have := key n (Nat.le_refl _)
  rw [this, ← h, List.drop_length, List.append_nil]

theorem inv_new : Inv new [] := by
  constructor <;> simp [new, specVars, specGet]

/-- extending the vectors by a variable with a new name -/
theorem inv_push {m : M} {h : List Op} (iv : Inv m h) (x : Var) (v : Term) (h' : List Op)
    (hn : x.name ∉ (specVars h).map Var.name) (e1 : specVars h' = specVars h ++ [x]) (e2 : specGet h' x.name = v)
    (e3 : ∀ n, n ≠ x.name → specGet h' n = specGet h n) :
    Inv ⟨(x.name, m.vars.length) :: m.idx, m.vars ++ [x], m.vals ++ [v]⟩ h' := by
  have hnm : x.name ∉ m.vars.map Var.name := by rw [iv.vars]; exact hn
  constructor
  · simp only [iv.vars, e1]
  · simp [iv.len]
  · intro n i
    simp only [lookup_cons']
    by_cases hnx : n = x.name
    · subst hnx
      rw [if_pos rfl]
      constructor
      · intro he; cases he; exact ⟨x, by simp, rfl⟩
      · rintro ⟨y, hy, hxy⟩
        by_cases hi : i < m.vars.length
        · rw [List.getElem?_append_left hi] at hy
          exact absurd (mem_names.mpr ⟨i, y, hy, hxy⟩) hnm
        · have : i < (m.vars ++ [x]).length := (List.getElem?_eq_some_iff.mp hy).1
          simp at this
          congr 1; omega
    · rw [if_neg hnx, iv.idx]
      constructor
      · rintro ⟨y, hy, hxy⟩
        exact ⟨y, by rw [List.getElem?_append_left (List.getElem?_eq_some_iff.mp hy).1]; exact hy, hxy⟩
      · rintro ⟨y, hy, hxy⟩
        by_cases hi : i < m.vars.length
        · rw [List.getElem?_append_left hi] at hy; exact ⟨y, hy, hxy⟩
        · rw [List.getElem?_append_right (by omega)] at hy
          have : i - m.vars.length = 0 := by
            have := (List.getElem?_eq_some_iff.mp hy).1; simp at this; omega
          rw [this] at hy; simp at hy; subst hy; exact absurd hxy.symm hnx
  · intro i y hy
    by_cases hi : i < m.vars.length
    · rw [List.getElem?_append_left hi] at hy
      have hne : y.name ≠ x.name := fun e => hnm (mem_names.mpr ⟨i, y, hy, e⟩)
      show (m.vals ++ [v])[i]? = _
      rw [List.getElem?_append_left (by rw [iv.len]; exact hi), e3 _ hne]
      exact iv.val i y hy
    · rw [List.getElem?_append_right (by omega)] at hy
      have h0 : i - m.vars.length = 0 := by
        have := (List.getElem?_eq_some_iff.mp hy).1; simp at this; omega
      rw [h0] at hy; simp at hy; subst hy
      show (m.vals ++ [v])[i]? = _
      rw [List.getElem?_append_right (by rw [iv.len]; omega), iv.len, h0, e2]; rfl
  · intro n hn'
    rw [e1] at hn'
    simp only [List.map_append, List.mem_append, not_or, List.map_cons, List.map_nil, List.mem_singleton] at hn'
    rw [e3 n hn'.2]; exact iv.out n hn'.1
  · rw [e1, List.map_append, List.nodup_append]
    exact ⟨iv.uniq, by simp, by rintro a ha b hb rfl; simp only [List.map_cons, List.map_nil, List.mem_singleton] at hb; exact hn (hb ▸ ha)⟩

/-- overwriting the value of a variable the model has -/
theorem inv_set {m : M} {h : List Op} (iv : Inv m h) (n : String) (i : Nat) (v : Term) (h' : List Op)
    (hl : m.idx.lookup n = some i) (e1 : specVars h' = specVars h) (e2 : specGet h' n = v)
    (e3 : ∀ k, k ≠ n → specGet h' k = specGet h k) :
    i < m.vals.length ∧ Inv { m with vals := m.vals.set i v } h' := by
  obtain ⟨x, hx, hxn⟩ := (iv.idx n i).mp hl
  have hi : i < m.vals.length := by rw [iv.len]; exact (List.getElem?_eq_some_iff.mp hx).1
  refine ⟨hi, ?_⟩
  constructor
  · rw [e1]; exact iv.vars
  · simp [iv.len]
  · exact iv.idx
  · intro j y hy
    show (m.vals.set i v)[j]? = _
    by_cases hij : i = j
    · subst hij
      have : y = x := by have := hy.symm.trans hx; cases this; rfl
      subst this
      rw [List.getElem?_set_self hi, hxn, e2]
    · rw [List.getElem?_set_ne hij]
      have : y.name ≠ n := fun e => hij (uniq_pos (iv.vars ▸ iv.uniq) hx hy (hxn.trans e.symm))
      rw [e3 _ this]; exact iv.val j y hy
  · intro k hk
    rw [e1] at hk
    have : k ≠ n := fun e => hk (e ▸ (iv.vars ▸ mem_names.mpr ⟨i, x, hx, hxn⟩))
    rw [e3 k this]; exact iv.out k hk
  · rw [e1]; exact iv.uniq

theorem lookup_none {m : M} {h : List Op} (iv : Inv m h) (n : String) :
    m.idx.lookup n = none ↔ n ∉ (specVars h).map Var.name := by
  rw [← iv.vars]
  constructor
  · intro hl hm
    obtain ⟨i, x, hx, e⟩ := mem_names.mp hm
    rw [(iv.idx n i).mpr ⟨x, hx, e⟩] at hl; cases hl
  · intro hm
    cases hl : m.idx.lookup n with
    | none => rfl
    | some i =>
      obtain ⟨x, hx, e⟩ := (iv.idx n i).mp hl
      exact absurd (mem_names.mpr ⟨i, x, hx, e⟩) hm

theorem step_inv {m : M} {h : List Op} (iv : Inv m h) (o : Op) (hl : Legal (o :: h)) :
    ∃ m', step m o = .ok m' ∧ Inv m' (o :: h) := by
  cases o with
  | add x v =>
    cases hx : m.idx.lookup x.name with
    | some i =>
      have hmem : x.name ∈ (specVars h).map Var.name := by
        apply Decidable.byContradiction
        intro hc
        rw [(lookup_none iv _).mpr hc] at hx; cases hx
      obtain ⟨hi, iv'⟩ := inv_set iv x.name i v (.add x v :: h) hx (by simp only [specVars, if_pos hmem])
        (by simp only [specGet, if_true]) (fun k hk => by simp only [specGet, if_neg hk.symm])
      exact ⟨_, by simp only [step, add, hx, if_pos hi], iv'⟩
    | none =>
      have hn := (lookup_none iv _).mp hx
      exact ⟨_, by simp only [step, add, hx], inv_push iv x v (.add x v :: h) hn (by simp only [specVars, if_neg hn])
        (by simp only [specGet, if_true]) (fun k hk => by simp only [specGet, if_neg hk.symm])⟩
  | addName n v =>
    cases hx : m.idx.lookup n with
    | none => exact absurd hl.1 ((lookup_none iv _).mp hx)
    | some i =>
      obtain ⟨hi, iv'⟩ := inv_set iv n i v (.addName n v :: h) hx (by simp only [specVars])
        (by simp only [specGet, if_true]) (fun k hk => by simp only [specGet, if_neg hk.symm])
      exact ⟨_, by simp only [step, addName, hx, if_pos hi], iv'⟩
  | addVar x =>
    cases hx : m.idx.lookup x.name with
    | some i =>
      have hmem : x.name ∈ (specVars h).map Var.name := by
        apply Decidable.byContradiction
        intro hc
        rw [(lookup_none iv _).mpr hc] at hx; cases hx
      refine ⟨_, rfl, ?_⟩
      simp only [addVar, hx]
      exact ⟨by simp only [specVars, if_pos hmem]; exact iv.vars, iv.len, iv.idx, iv.val,
        by simp only [specVars, if_pos hmem]; exact iv.out, by simp only [specVars, if_pos hmem]; exact iv.uniq⟩
    | none =>
      have hn := (lookup_none iv _).mp hx
      refine ⟨_, rfl, ?_⟩
      simp only [addVar, hx]
      exact inv_push iv x .unknown (.addVar x :: h) hn (by simp only [specVars, if_neg hn]) (iv.out _ hn) (fun k hk => rfl)
  | clearValues =>
    refine ⟨_, rfl, ?_⟩
    simp only [clearValues, set_foldl m.vals m.vars.length iv.len]
    refine ⟨iv.vars, by simp, iv.idx, fun i x hx => ?_, fun n _ => rfl, iv.uniq⟩
    have := (List.getElem?_eq_some_iff.mp hx).1
    simp only [List.getElem?_replicate, if_pos this]; rfl
  | clear =>
    refine ⟨_, rfl, ?_⟩
    constructor <;> simp [clear, new, specVars, specGet]

theorem legal_tail {o : Op} {h : List Op} (hl : Legal (o :: h)) : Legal h := by
  cases o with
  | addName n v => exact hl.2
  | _ => exact hl

/-- running a history oldest-first from a state reached by `h` -/
theorem run_inv (os : List Op) : ∀ (m : M) (h : List Op), Inv m h → Legal (os.reverse ++ h) →
    ∃ m', run m os = .ok m' ∧ Inv m' (os.reverse ++ h) := by
  induction os with
  | nil => intro m h iv _; exact ⟨m, rfl, iv⟩
  | cons o os ih =>
    intro m h iv hl
    have e : (o :: os).reverse ++ h = os.reverse ++ (o :: h) := by simp
    rw [e] at hl ⊢
    have hl' : Legal (o :: h) := by
      have key : ∀ (l r : List Op), Legal (l ++ r) → Legal r := by
        intro l
        induction l with
        | nil => intro r h; exact h
        | cons a l ih => intro r h; exact ih r (legal_tail h)
      exact key _ _ hl
    obtain ⟨m1, e1, iv1⟩ := step_inv iv o hl'
    obtain ⟨m2, e2, iv2⟩ := ih m1 (o :: h) iv1 hl
    exact ⟨m2, by simp only [run, e1, Res.bind]; exact e2, iv2⟩

/-- **C36.**  After any history of calls, in which `add(name, value)` is used only for names the model has: no call fails;
`get` returns the last value given to the name (unknown if none); the listing has one entry per distinct name, in order of
first insertion, with that value; `size` is the number of distinct names; `isFull`/`isEmpty` say that all/none have values. -/
theorem model_exact_partial (os : List Op) (hl : Legal os.reverse) :
    ∃ m, run new os = .ok m ∧
      (∀ n, get m n = specGet os.reverse n) ∧
      m.vars = specVars os.reverse ∧ ((specVars os.reverse).map Var.name).Nodup ∧
      size m = (specVars os.reverse).length ∧
      getPairs m = (specVars os.reverse).map (fun x => (x.name, specGet os.reverse x.name)) ∧
      m.vals = (specVars os.reverse).map (fun x => specGet os.reverse x.name) ∧
      (isFull m = true ↔ ∀ x ∈ specVars os.reverse, specGet os.reverse x.name ≠ .unknown) ∧
      (isEmpty m = true ↔ ∀ x ∈ specVars os.reverse, specGet os.reverse x.name = .unknown) := by
  obtain ⟨m, e, iv⟩ := run_inv os new [] inv_new (by simpa using hl)
  rw [List.append_nil] at iv
  have hvals : m.vals = (specVars os.reverse).map (fun x => specGet os.reverse x.name) := by
    apply List.ext_getElem?
    intro i
    rw [List.getElem?_map, ← iv.vars]
    cases hi : m.vars[i]? with
    | some x => rw [iv.val i x hi]; rfl
    | none =>
      rw [List.getElem?_eq_none_iff] at hi
      simp only [Option.map_none, List.getElem?_eq_none_iff, iv.len]; exact hi
  have hall : ∀ f : Term → Bool, ((List.range m.vars.length).all fun i => f (m.vals[i]?.getD .unknown)) =
      (specVars os.reverse).all (fun x => f (specGet os.reverse x.name)) := by
    intro f
    rw [Bool.eq_iff_iff, List.all_eq_true, List.all_eq_true]
    constructor
    · intro h x hx
      rw [← iv.vars] at hx
      obtain ⟨i, hi⟩ := List.mem_iff_getElem?.mp hx
      have := h i (List.mem_range.mpr (List.getElem?_eq_some_iff.mp hi).1)
      rw [iv.val i x hi] at this; exact this
    · intro h i hi
      have hi' := List.getElem?_eq_getElem (List.mem_range.mp hi)
      rw [iv.val i _ hi']
      exact h _ (iv.vars ▸ List.mem_of_getElem? hi')
  refine ⟨m, e, ?_, iv.vars, iv.uniq, by unfold size; rw [iv.vars], ?_, hvals, ?_, ?_⟩
  · intro n
    unfold get
    cases hl : m.idx.lookup n with
    | none => exact (iv.out n ((lookup_none iv n).mp hl)).symm
    | some i =>
      obtain ⟨x, hx, e⟩ := (iv.idx n i).mp hl
      simp only [iv.val i x hx, e, Option.getD_some]
  · unfold getPairs
    apply List.ext_getElem?
    intro i
    rw [List.getElem?_map, List.getElem?_map, ← iv.vars]
    cases hi : m.vars[i]? with
    | some x =>
      rw [List.getElem?_range (List.getElem?_eq_some_iff.mp hi).1]
      simp only [Option.map_some, hi, Option.getD_some, iv.val i x hi]
    | none =>
      have hi' := List.getElem?_eq_none_iff.mp hi
      rw [show (List.range m.vars.length)[i]? = none by simpa using hi']; rfl
  · unfold isFull
    rw [hall (fun t => !t.isUnknown), List.all_eq_true]
    constructor
    · intro h x hx e; have := h x hx; rw [e] at this; simp [Term.isUnknown] at this
    · intro h x hx
      have := h x hx
      cases ht : specGet os.reverse x.name <;> first | rfl | exact absurd ht this
  · have hc := hall Term.isUnknown
    have : isEmpty m = (List.range m.vars.length).all fun i => (m.vals[i]?.getD .unknown).isUnknown := by
      unfold isEmpty
      split
      · rename_i h0
        have : m.vars.length = 0 := by simpa using h0
        rw [this]; rfl
      · rfl
    rw [this, hc, List.all_eq_true]
    constructor
    · intro h x hx
      have := h x hx
      cases ht : specGet os.reverse x.name <;> rw [ht] at this <;> first | rfl | simp [Term.isUnknown] at this
    · intro h x hx; rw [h x hx]; rfl

/-- Non-vacuous: a history with two variables, an overwritten value and a cleared model before it. -/
example : Legal ([.add ⟨"z", 9⟩ .tt, .clear, .add ⟨"x", 0⟩ .tt, .addVar ⟨"y", 1⟩, .addName "x" .ff] : List Op).reverse ∧
    specVars ([.add ⟨"z", 9⟩ .tt, .clear, .add ⟨"x", 0⟩ .tt, .addVar ⟨"y", 1⟩, .addName "x" .ff] : List Op).reverse =
      [⟨"x", 0⟩, ⟨"y", 1⟩] ∧
    specGet ([.add ⟨"z", 9⟩ .tt, .clear, .add ⟨"x", 0⟩ .tt, .addVar ⟨"y", 1⟩, .addName "x" .ff] : List Op).reverse "x" =
      .ff := by
  simp [Legal, specVars, specGet]

/-- **C36, violated.**  `add(name, value)` for a name the model does not have overwrites the value of the first variable and
makes the name an alias of it; on an empty model it writes out of bounds. -/
theorem addName_violated (x : Var) (n : String) (v w : Term) (hn : n ≠ x.name) :
    (∃ m, run new [.add x v, .addName n w] = .ok m ∧ get m x.name = w ∧ get m n = w ∧ size m = 1) ∧
    run new [.addName n w] = .ub := by
  refine ⟨⟨⟨[(n, 0), (x.name, 0)], [x], [w]⟩, ?_, ?_, ?_, rfl⟩, rfl⟩
  · have hb : (n == x.name) = false := beq_eq_false_iff_ne.mpr hn
    simp [run, step, add, addName, new, Res.bind, List.lookup, hb]
  · have hb : (x.name == n) = false := beq_eq_false_iff_ne.mpr hn.symm
    simp [get, List.lookup, hb]
  · simp [get]

end SMT.Mdl
