import Verif.Term.Model
/-!
# Lemmas about `eval`
-/
namespace SMT
open Term

/-- value of a well-typed term -/
def val (ρ : Env) (t : Term) : Val := (eval ρ t).getD (.b false)
/-- Boolean value of a well-typed Boolean term -/
def bval (ρ : Env) (t : Term) : Bool := match eval ρ t with | some (.b x) => x | _ => false
/-- numeric value of a well-typed numeric term -/
def nval (ρ : Env) (t : Term) : Rat := match eval ρ t with | some (.n q) => q | _ => 0

/-- the term has a value -/
def Ev (ρ : Env) (t : Term) : Prop := ∃ v, eval ρ t = some v
/-- the term has a Boolean value -/
def IsB (ρ : Env) (t : Term) : Prop := ∃ x, eval ρ t = some (.b x)
/-- the term has a numeric value -/
def IsN (ρ : Env) (t : Term) : Prop := ∃ q, eval ρ t = some (.n q)

theorem IsB.eval {ρ : Env} {t : Term} (h : IsB ρ t) : eval ρ t = some (.b (bval ρ t)) := by
  obtain ⟨x, h⟩ := h; simp [bval, h]
theorem IsN.eval {ρ : Env} {t : Term} (h : IsN ρ t) : eval ρ t = some (.n (nval ρ t)) := by
  obtain ⟨x, h⟩ := h; simp [nval, h]
theorem Ev.eval {ρ : Env} {t : Term} (h : Ev ρ t) : eval ρ t = some (val ρ t) := by
  obtain ⟨x, h⟩ := h; simp [val, h]
theorem IsB.ev {ρ : Env} {t : Term} (h : IsB ρ t) : Ev ρ t := ⟨_, h.eval⟩
theorem IsN.ev {ρ : Env} {t : Term} (h : IsN ρ t) : Ev ρ t := ⟨_, h.eval⟩

theorem evalL_iff (ρ : Env) (ts : List Term) (vs : List Val) :
    evalL ρ ts = some vs ↔ (∀ t ∈ ts, Ev ρ t) ∧ vs = ts.map (val ρ) := by
  induction ts generalizing vs with
  | nil => simp [evalL, eq_comm]
  | cons t ts ih =>
    simp only [evalL, List.mem_cons, forall_eq_or_imp, List.map_cons]
    cases h : eval ρ t with
    | none => simp [Ev, h]
    | some v =>
      cases h2 : evalL ρ ts with
      | none =>
        simp only [reduceCtorEq, false_iff]
        intro ⟨⟨_, h3⟩, h4⟩
        have := (ih (ts.map (val ρ))).2 ⟨h3, rfl⟩
        rw [h2] at this; cases this
      | some us =>
        have := (ih us).1 h2
        simp only [Option.some.injEq]
        constructor
        · rintro rfl; exact ⟨⟨⟨v, h⟩, this.1⟩, by rw [← this.2]; simp [val, h]⟩
        · rintro ⟨_, rfl⟩; rw [← this.2]; simp [val, h]

theorem boolsOf_iff (vs : List Val) (bs : List Bool) :
    boolsOf vs = some bs ↔ vs = bs.map .b := by
  induction vs generalizing bs with
  | nil => simp [boolsOf, eq_comm]
  | cons v vs ih =>
    cases v with
    | b x =>
      simp only [boolsOf, Option.map_eq_some_iff]
      constructor
      · rintro ⟨a, h1, rfl⟩; simp [(ih a).1 h1]
      · intro h
        cases bs with
        | nil => simp at h
        | cons b bs => simp at h; exact ⟨bs, (ih bs).2 h.2, by simp [h.1]⟩
    | _ => simp [boolsOf]; cases bs <;> simp

theorem numsOf_iff (vs : List Val) (qs : List Rat) :
    numsOf vs = some qs ↔ vs = qs.map .n := by
  induction vs generalizing qs with
  | nil => simp [numsOf, eq_comm]
  | cons v vs ih =>
    cases v with
    | n x =>
      simp only [numsOf, Option.map_eq_some_iff]
      constructor
      · rintro ⟨a, h1, rfl⟩; simp [(ih a).1 h1]
      · intro h
        cases qs with
        | nil => simp at h
        | cons b bs => simp at h; exact ⟨bs, (ih bs).2 h.2, by simp [h.1]⟩
    | _ => simp [numsOf]; cases qs <;> simp

theorem evalL_bools (ρ : Env) (ts : List Term) (bs : List Bool) :
    evalL ρ ts = some (bs.map .b) ↔ (∀ t ∈ ts, IsB ρ t) ∧ bs = ts.map (bval ρ) := by
  induction ts generalizing bs with
  | nil => cases bs <;> simp [evalL]
  | cons t ts ih =>
    rw [evalL_iff]
    cases bs with
    | nil => simp
    | cons b bs =>
      have := ih bs
      rw [evalL_iff] at this
      simp only [List.mem_cons, forall_eq_or_imp, List.map_cons, List.cons.injEq]
      constructor
      · rintro ⟨⟨h1, h2⟩, h3, h4⟩
        have h5 : eval ρ t = some (.b b) := by rw [h1.eval, ← h3]
        have h6 := this.1 ⟨h2, h4⟩
        exact ⟨⟨⟨b, h5⟩, h6.1⟩, by simp [bval, h5], h6.2⟩
      · rintro ⟨⟨h1, h2⟩, h3, h4⟩
        have h6 := this.2 ⟨h2, h4⟩
        exact ⟨⟨h1.ev, h6.1⟩, by rw [val, h1.eval, h3]; rfl, h6.2⟩

theorem evalL_nums (ρ : Env) (ts : List Term) (bs : List Rat) :
    evalL ρ ts = some (bs.map .n) ↔ (∀ t ∈ ts, IsN ρ t) ∧ bs = ts.map (nval ρ) := by
  induction ts generalizing bs with
  | nil => cases bs <;> simp [evalL]
  | cons t ts ih =>
    rw [evalL_iff]
    cases bs with
    | nil => simp
    | cons b bs =>
      have := ih bs
      rw [evalL_iff] at this
      simp only [List.mem_cons, forall_eq_or_imp, List.map_cons, List.cons.injEq]
      constructor
      · rintro ⟨⟨h1, h2⟩, h3, h4⟩
        have h5 : eval ρ t = some (.n b) := by rw [h1.eval, ← h3]
        have h6 := this.1 ⟨h2, h4⟩
        exact ⟨⟨⟨b, h5⟩, h6.1⟩, by simp [nval, h5], h6.2⟩
      · rintro ⟨⟨h1, h2⟩, h3, h4⟩
        have h6 := this.2 ⟨h2, h4⟩
        exact ⟨⟨h1.ev, h6.1⟩, by rw [val, h1.eval, h3]; rfl, h6.2⟩

/-! ### What each operator application evaluates to -/

section
variable (ρ : Env) (ts : List Term) (s : Srt) (v : Val)

theorem bools_some (f : List Bool → Bool) :
    (match evalL ρ ts with
      | some vs => (boolsOf vs).map fun l => Val.b (f l)
      | none => none) = some v ↔
    (∀ t ∈ ts, IsB ρ t) ∧ v = .b (f (ts.map (bval ρ))) := by
  constructor
  · intro h
    cases h1 : evalL ρ ts with
    | none => rw [h1] at h; cases h
    | some vs =>
      rw [h1] at h
      cases h2 : boolsOf vs with
      | none => simp [h2] at h
      | some bs =>
        simp [h2] at h
        rw [(boolsOf_iff vs bs).1 h2] at h1
        have := (evalL_bools ρ ts bs).1 h1
        rw [← this.2]; exact ⟨this.1, h.symm⟩
  · rintro ⟨h1, rfl⟩
    rw [(evalL_bools ρ ts _).2 ⟨h1, rfl⟩]
    simp only [(boolsOf_iff _ _).2 rfl, Option.map_some]

theorem evalApp_and : evalApp ρ .and ts s = some v ↔
    (∀ t ∈ ts, IsB ρ t) ∧ v = .b ((ts.map (bval ρ)).all id) := bools_some ρ ts v _
theorem evalApp_or : evalApp ρ .or ts s = some v ↔
    (∀ t ∈ ts, IsB ρ t) ∧ v = .b ((ts.map (bval ρ)).any id) := bools_some ρ ts v _
theorem evalApp_xor : evalApp ρ .xor ts s = some v ↔
    (∀ t ∈ ts, IsB ρ t) ∧ v = .b ((ts.map (bval ρ)).foldl Bool.xor false) := bools_some ρ ts v _

theorem evalApp_implies : evalApp ρ .implies ts s = some v ↔
    2 ≤ ts.length ∧ (∀ t ∈ ts, IsB ρ t) ∧ v = .b (impChain (ts.map (bval ρ))) := by
  have h := bools_some ρ ts v impChain
  by_cases h2 : 2 ≤ ts.length
  · rw [show evalApp ρ .implies ts s = (match evalL ρ ts with
      | some vs => (boolsOf vs).map fun l => Val.b (impChain l)
      | none => none) from ?_, h]
    · simp [h2]
    · unfold evalApp
      cases h1 : evalL ρ ts with
      | none => rfl
      | some vs =>
        have := ((evalL_iff ρ ts vs).1 h1).2
        simp only [apply]
        rw [if_neg]; rw [this]; simp; omega
  · simp only [h2, false_and, iff_false]
    intro h3
    unfold evalApp at h3
    cases h1 : evalL ρ ts with
    | none => rw [h1] at h3; cases h3
    | some vs =>
      have := ((evalL_iff ρ ts vs).1 h1).2
      rw [h1] at h3
      simp only [apply] at h3
      rw [if_pos] at h3
      · cases h3
      · rw [this]; simp; omega

theorem nums_some (f : List Rat → Option Val) :
    (match evalL ρ ts with
      | some vs => (match numsOf vs with | some l => f l | none => none)
      | none => none) = some v ↔
    (∀ t ∈ ts, IsN ρ t) ∧ f (ts.map (nval ρ)) = some v := by
  constructor
  · intro h
    cases h1 : evalL ρ ts with
    | none => rw [h1] at h; cases h
    | some vs =>
      rw [h1] at h
      cases h2 : numsOf vs with
      | none => simp [h2] at h
      | some bs =>
        simp [h2] at h
        rw [(numsOf_iff vs bs).1 h2] at h1
        have := (evalL_nums ρ ts bs).1 h1
        rw [← this.2]; exact ⟨this.1, h⟩
  · rintro ⟨h1, h2⟩
    rw [(evalL_nums ρ ts _).2 ⟨h1, rfl⟩]
    simp only [(numsOf_iff _ _).2 rfl, h2]

/-- product of a list of numbers -/
def ratProd (l : List Rat) : Rat := l.foldr (· * ·) 1

theorem evalApp_add : evalApp ρ .add ts s = some v ↔
    ts ≠ [] ∧ (∀ t ∈ ts, IsN ρ t) ∧ v = .n ((ts.map (nval ρ)).sum) := by
  have h := nums_some ρ ts v (fun l => match l with | x :: l => some (.n (x + l.sum)) | [] => none)
  rw [show evalApp ρ .add ts s = _ from ?_, h]
  · cases ts <;> simp [eq_comm]
  · unfold evalApp; cases evalL ρ ts with
    | none => rfl
    | some vs =>
      simp only [apply]
      cases numsOf vs with
      | none => rfl
      | some l => cases l <;> rfl

theorem evalApp_mul : evalApp ρ .mul ts s = some v ↔
    ts ≠ [] ∧ (∀ t ∈ ts, IsN ρ t) ∧ v = .n (ratProd (ts.map (nval ρ))) := by
  have h := nums_some ρ ts v
    (fun l => match l with | x :: l => some (.n (x * l.foldr (· * ·) 1)) | [] => none)
  rw [show evalApp ρ .mul ts s = _ from ?_, h]
  · cases ts <;> simp [eq_comm, ratProd]
  · unfold evalApp; cases evalL ρ ts with
    | none => rfl
    | some vs =>
      simp only [apply]
      cases numsOf vs with
      | none => rfl
      | some l => cases l <;> rfl

/-- left-associative difference -/
def ratSub : List Rat → Rat
  | [] => 0
  | x :: l => x - l.sum

theorem evalApp_sub : evalApp ρ .sub ts s = some v ↔
    2 ≤ ts.length ∧ (∀ t ∈ ts, IsN ρ t) ∧ v = .n (ratSub (ts.map (nval ρ))) := by
  have h := nums_some ρ ts v
    (fun l => match l with | x :: y :: l => some (.n (x - (y :: l).sum)) | _ => none)
  rw [show evalApp ρ .sub ts s = _ from ?_, h]
  · rcases ts with _ | ⟨a, _ | ⟨b, l⟩⟩ <;> simp [eq_comm, ratSub]
  · unfold evalApp; cases evalL ρ ts with
    | none => rfl
    | some vs =>
      simp only [apply]
      cases numsOf vs with
      | none => rfl
      | some l => rcases l with _ | ⟨a, _ | ⟨b, l⟩⟩ <;> rfl

theorem evalApp_cmp (k : Kind) (r : Rat → Rat → Bool)
    (hk : ∀ vs, apply ρ k s vs = cmpChain r vs) : evalApp ρ k ts s = some v ↔
    2 ≤ ts.length ∧ (∀ t ∈ ts, IsN ρ t) ∧ v = .b (chain r (ts.map (nval ρ))) := by
  have h := nums_some ρ ts v
    (fun l => match l with | x :: y :: l => some (.b (chain r (x :: y :: l))) | _ => none)
  rw [show evalApp ρ k ts s = _ from ?_, h]
  · rcases ts with _ | ⟨a, _ | ⟨b, l⟩⟩ <;> simp [eq_comm]
  · unfold evalApp; cases evalL ρ ts with
    | none => rfl
    | some vs =>
      simp only [hk, cmpChain]
      cases numsOf vs with
      | none => rfl
      | some l => rcases l with _ | ⟨a, _ | ⟨b, l⟩⟩ <;> rfl

/-- comparison relation of a comparison kind -/
def cmpRel : Kind → Rat → Rat → Bool
  | .le => fun a b => decide (a ≤ b)
  | .lt => fun a b => decide (a < b)
  | .ge => fun a b => decide (a ≥ b)
  | .gt => fun a b => decide (a > b)
  | _ => fun _ _ => false

/-- one of the four comparison kinds -/
def isCmp : Kind → Bool
  | .le | .lt | .ge | .gt => true
  | _ => false

theorem evalApp_cmp' (k : Kind) (hk : isCmp k = true) : evalApp ρ k ts s = some v ↔
    2 ≤ ts.length ∧ (∀ t ∈ ts, IsN ρ t) ∧ v = .b (chain (cmpRel k) (ts.map (nval ρ))) := by
  cases k <;> simp [isCmp] at hk <;> exact evalApp_cmp ρ ts s v _ _ (fun _ => rfl)

theorem evalApp_neg : evalApp ρ .neg ts s = some v ↔
    ∃ t, ts = [t] ∧ IsN ρ t ∧ v = .n (-(nval ρ t)) := by
  unfold evalApp
  constructor
  · intro h
    cases h1 : evalL ρ ts with
    | none => rw [h1] at h; cases h
    | some vs =>
      rw [h1] at h
      obtain ⟨h2, h3⟩ := (evalL_iff ρ ts vs).1 h1
      simp only [apply] at h
      split at h
      · rename_i x
        rcases ts with _ | ⟨a, _ | ⟨b, l⟩⟩ <;> simp at h3
        have h5 : eval ρ a = some (.n x) := by
          rw [(h2 a (by simp)).eval, ← h3]
        refine ⟨a, rfl, ⟨x, h5⟩, ?_⟩
        simp [nval, h5]; simpa [eq_comm] using h
      · cases h
  · rintro ⟨t, rfl, h, rfl⟩
    simp [evalL, h.eval, apply]

theorem evalApp_not : evalApp ρ .not ts s = some v ↔
    ∃ t, ts = [t] ∧ IsB ρ t ∧ v = .b (!(bval ρ t)) := by
  unfold evalApp
  constructor
  · intro h
    cases h1 : evalL ρ ts with
    | none => rw [h1] at h; cases h
    | some vs =>
      rw [h1] at h
      obtain ⟨h2, h3⟩ := (evalL_iff ρ ts vs).1 h1
      simp only [apply] at h
      split at h
      · rename_i x
        rcases ts with _ | ⟨a, _ | ⟨b, l⟩⟩ <;> simp at h3
        have h5 : eval ρ a = some (.b x) := by
          rw [(h2 a (by simp)).eval, ← h3]
        refine ⟨a, rfl, ⟨x, h5⟩, ?_⟩
        simp [bval, h5]; simpa [eq_comm] using h
      · cases h
  · rintro ⟨t, rfl, h, rfl⟩
    simp [evalL, h.eval, apply]

theorem evalApp_ite : evalApp ρ .ite ts s = some v ↔
    ∃ c x y, ts = [c, x, y] ∧ IsB ρ c ∧ Ev ρ x ∧ Ev ρ y ∧ (val ρ x).sameSort (val ρ y) = true ∧
      v = if bval ρ c then val ρ x else val ρ y := by
  unfold evalApp
  constructor
  · intro h
    cases h1 : evalL ρ ts with
    | none => rw [h1] at h; cases h
    | some vs =>
      rw [h1] at h
      obtain ⟨h2, h3⟩ := (evalL_iff ρ ts vs).1 h1
      simp only [apply] at h
      split at h
      · rename_i c x y
        rcases ts with _ | ⟨a, _ | ⟨b, _ | ⟨d, _ | ⟨e, l⟩⟩⟩⟩ <;> simp at h3
        have h5 : eval ρ a = some (.b c) := by
          rw [(h2 a (by simp)).eval, ← h3.1]
        refine ⟨a, b, d, rfl, ⟨c, h5⟩, h2 b (by simp), h2 d (by simp), ?_⟩
        rw [← h3.2.1, ← h3.2.2]
        split at h
        · rename_i h6
          refine ⟨h6, ?_⟩
          simp [bval, h5]; simpa [eq_comm] using h
        · cases h
      · cases h
  · rintro ⟨c, x, y, rfl, hc, hx, hy, hs, rfl⟩
    simp [evalL, hc.eval, hx.eval, hy.eval, apply, hs]

end

theorem pairw_iff {α : Type} (r : α → α → Bool) (l : List α) :
    pairw r l = true ↔ l.Pairwise (fun a b => r a b = true) := by
  induction l with
  | nil => simp [pairw]
  | cons a l ih => simp [pairw, ih]

theorem sameSort_trans {a b c : Val} (h : a.sameSort b = true) (h2 : b.sameSort c = true) :
    a.sameSort c = true := by
  cases a <;> cases b <;> cases c <;> simp_all [Val.sameSort]
theorem sameSort_symm {a b : Val} (h : a.sameSort b = true) : b.sameSort a = true := by
  cases a <;> cases b <;> simp_all [Val.sameSort]
theorem sameSort_refl (a : Val) : a.sameSort a = true := by
  cases a <;> simp [Val.sameSort]

/-- all elements of one sort, at least two -/
theorem homog_iff (l : List Val) : homog l = true ↔
    2 ≤ l.length ∧ ∀ a ∈ l, ∀ b ∈ l, a.sameSort b = true := by
  rcases l with _ | ⟨x, _ | ⟨y, l⟩⟩
  · simp [homog]
  · simp [homog]
  · simp only [homog, List.all_eq_true]
    constructor
    · intro h
      refine ⟨by simp, ?_⟩
      have h' : ∀ a ∈ x :: y :: l, x.sameSort a = true := by
        intro a ha
        rcases List.mem_cons.1 ha with rfl | ha
        · exact sameSort_refl _
        · exact h a ha
      intro a ha b hb
      exact sameSort_trans (sameSort_symm (h' a ha)) (h' b hb)
    · rintro ⟨_, h⟩ a ha
      exact h x (by simp) a (by simp [ha])

theorem chain_eq_iff (l : List Val) : chain (fun a b => decide (a = b)) l = true ↔
    ∀ a ∈ l, ∀ b ∈ l, a = b := by
  induction l with
  | nil => simp [chain]
  | cons x l ih =>
    cases l with
    | nil => simp [chain]
    | cons y l =>
      simp only [chain, Bool.and_eq_true, decide_eq_true_eq, ih]
      constructor
      · rintro ⟨rfl, h⟩ a ha b hb
        apply h
        · simpa using ha
        · simpa using hb
      · intro h
        exact ⟨h _ (by simp) _ (by simp), fun a ha b hb => h a (by simp [ha]) b (by simp [hb])⟩

theorem evalApp_eq (ρ : Env) (ts : List Term) (s : Srt) (v : Val) :
    evalApp ρ .eq ts s = some v ↔
    2 ≤ ts.length ∧ (∀ t ∈ ts, Ev ρ t) ∧
      (∀ t ∈ ts, ∀ u ∈ ts, (val ρ t).sameSort (val ρ u) = true) ∧
      v = .b (decide (∀ t ∈ ts, ∀ u ∈ ts, val ρ t = val ρ u)) := by
  unfold evalApp
  have key : homog (ts.map (val ρ)) = true ↔ 2 ≤ ts.length ∧
      (∀ t ∈ ts, ∀ u ∈ ts, (val ρ t).sameSort (val ρ u) = true) := by
    rw [homog_iff]; simp
  have key2 : chain (fun a b => decide (a = b)) (ts.map (val ρ)) =
      decide (∀ t ∈ ts, ∀ u ∈ ts, val ρ t = val ρ u) := by
    rw [Bool.eq_iff_iff, chain_eq_iff]; simp
  constructor
  · intro h
    cases h1 : evalL ρ ts with
    | none => rw [h1] at h; cases h
    | some vs =>
      rw [h1] at h
      obtain ⟨h2, rfl⟩ := (evalL_iff ρ ts vs).1 h1
      simp only [apply] at h
      split at h
      · rename_i h3
        have := key.1 h3
        refine ⟨this.1, h2, this.2, ?_⟩
        rw [key2] at h; simpa [eq_comm] using h
      · cases h
  · rintro ⟨h1, h2, h3, rfl⟩
    rw [(evalL_iff ρ ts _).2 ⟨h2, rfl⟩]
    simp only [apply]
    rw [if_pos (key.2 ⟨h1, h3⟩), key2]

theorem evalApp_distinct (ρ : Env) (ts : List Term) (s : Srt) (v : Val) :
    evalApp ρ .distinct ts s = some v ↔
    2 ≤ ts.length ∧ (∀ t ∈ ts, Ev ρ t) ∧
      (∀ t ∈ ts, ∀ u ∈ ts, (val ρ t).sameSort (val ρ u) = true) ∧
      v = .b (decide (ts.Pairwise (fun t u => val ρ t ≠ val ρ u))) := by
  unfold evalApp
  have key : homog (ts.map (val ρ)) = true ↔ 2 ≤ ts.length ∧
      (∀ t ∈ ts, ∀ u ∈ ts, (val ρ t).sameSort (val ρ u) = true) := by
    rw [homog_iff]; simp
  have key2 : pairw (fun a b => decide (a ≠ b)) (ts.map (val ρ)) =
      decide (ts.Pairwise (fun t u => val ρ t ≠ val ρ u)) := by
    rw [Bool.eq_iff_iff, pairw_iff, List.pairwise_map]; simp
  constructor
  · intro h
    cases h1 : evalL ρ ts with
    | none => rw [h1] at h; cases h
    | some vs =>
      rw [h1] at h
      obtain ⟨h2, rfl⟩ := (evalL_iff ρ ts vs).1 h1
      simp only [apply] at h
      split at h
      · rename_i h3
        have := key.1 h3
        refine ⟨this.1, h2, this.2, ?_⟩
        rw [key2] at h; simpa [eq_comm] using h
      · cases h
  · rintro ⟨h1, h2, h3, rfl⟩
    rw [(evalL_iff ρ ts _).2 ⟨h2, rfl⟩]
    simp only [apply]
    rw [if_pos (key.2 ⟨h1, h3⟩), key2]

/-! ### Sorts of values -/

theorem guardSort_some {s : Srt} {o : Option Val} {v : Val} :
    guardSort s o = some v ↔ o = some v ∧ v.hasSort s = true := by
  cases o with
  | none => simp [guardSort]
  | some x =>
    simp only [guardSort]
    constructor
    · intro h; split at h
      · simp at h; subst h; simp_all
      · cases h
    · rintro ⟨h1, h2⟩; simp at h1; subst h1; simp [h2]

theorem eval_app (ρ : Env) (k : Kind) (s : Srt) (ts : List Term) :
    eval ρ (.app k s ts) = guardSort s (evalApp ρ k ts s) := by
  simp only [eval, evalApp]
  cases evalL ρ ts <;> simp [guardSort]

theorem eval_hasSort {ρ : Env} {t : Term} {v : Val} (h : eval ρ t = some v) :
    v.hasSort t.sort = true := by
  cases t with
  | tt => simp [eval] at h; subst h; rfl
  | ff => simp [eval] at h; subst h; rfl
  | cint i => simp [eval] at h; subst h; rfl
  | creal _ q => simp [eval] at h; subst h; rfl
  | clit s x => simp only [eval] at h; exact (guardSort_some.1 h).2
  | var vk s x => simp only [eval] at h; exact (guardSort_some.1 h).2
  | app k s ts => rw [eval_app] at h; exact (guardSort_some.1 h).2
  | unknown => simp [eval] at h
  | err => simp [eval] at h

theorem IsB.sort {ρ : Env} {t : Term} (h : IsB ρ t) : t.sort = .bool := by
  have := eval_hasSort h.eval
  cases h2 : t.sort <;> simp_all [Val.hasSort]
theorem IsN.sort {ρ : Env} {t : Term} (h : IsN ρ t) : t.sort.isNum = true := by
  have := eval_hasSort h.eval
  cases h2 : t.sort <;> simp_all [Val.hasSort, Srt.isNum]
theorem Ev.isB {ρ : Env} {t : Term} (h : Ev ρ t) (hs : t.sort = .bool) : IsB ρ t := by
  obtain ⟨v, h⟩ := h
  have := eval_hasSort h
  rw [hs] at this
  cases v with
  | b x => exact ⟨x, h⟩
  | n q => simp [Val.hasSort] at this
  | u a b => simp [Val.hasSort] at this
theorem Ev.isN {ρ : Env} {t : Term} (h : Ev ρ t) (hs : t.sort.isNum = true) : IsN ρ t := by
  obtain ⟨v, h⟩ := h
  have := eval_hasSort h
  cases v with
  | n q => exact ⟨q, h⟩
  | b x => cases h2 : t.sort <;> simp_all [Val.hasSort, Srt.isNum]
  | u a b => simp [Val.hasSort, hs] at this

end SMT
