import Verif.Term.Props

/-!
# The rewriter (C27)

`src/rewriter.cpp`, `include/rewriter.h:46-108`, `include/op_dispatcher.h:80-107`.

Rule handlers are functions from nodes to nodes.  A kind with neither a handler nor a fallback makes the dispatcher return a null
pointer (an assertion in debug builds); the model has rule sets with a fallback, as `installDefaultRewriteRules` makes them.
-/

namespace SMT.Rewrite
open SMT SMT.Term

/-- registered handlers (`include/op_dispatcher.h:58-76`) -/
structure Rules where
  on : Kind → Option (Term → Term)
  other : Term → Term

/-- `OpDispatcher::dispatch` (`include/op_dispatcher.h:88-107`) -/
def dispatch (r : Rules) (t : Term) : Term :=
  match t with
  | .app k _ _ => match r.on k with
    | some h => h t
    | none => r.other t
  | t => r.other t

/-- `rebuildLike` (`src/rewriter.cpp:9-25`).  Making a node with unchanged children finds the old node. -/
def rebuild (old : Term) (kids : List Term) : Term :=
  match old with
  | .app k s ts => if kids.length ≠ ts.length then .app k s ts else .app k s kids
  | t => t

/-- The memo table: newest entry first. -/
abbrev Memo := List (Term × Term)

mutual
/-- `Rewriter::rewriteOnce` (`src/rewriter.cpp:31-48`) -/
def once (r : Rules) : Term → Memo → Term × Memo
  | .app k s ts, m =>
    match m.lookup (.app k s ts) with
    | some t => (t, m)
    | none =>
      let p := onceL r ts m
      let result := dispatch r (rebuild (.app k s ts) p.1)
      (result, (.app k s ts, result) :: p.2)
  | t, m =>
    match m.lookup t with
    | some u => (u, m)
    | none => (dispatch r t, (t, dispatch r t) :: m)
/-- the loop over the children -/
def onceL (r : Rules) : List Term → Memo → List Term × Memo
  | [], m => ([], m)
  | t :: ts, m =>
    let p := once r t m
    let q := onceL r ts p.2
    (p.1 :: q.1, q.2)
end

/-- the rounds of `Rewriter::rewrite` (`src/rewriter.cpp:55-63`); the memo table is cleared at the start of each round -/
def rounds (r : Rules) : Nat → Term → Term
  | 0, cur => cur
  | n + 1, cur =>
    let next := (once r cur []).1
    if next = cur then next else rounds r n next

/-- `Rewriter::rewrite` (`src/rewriter.cpp:50-64`) with the memo table left by earlier calls -/
def rewrite (r : Rules) (t : Term) (m : Memo := []) (fix : Bool := true) (max : Nat := 256) : Term :=
  if fix then rounds r max t else (once r t m).1

/-- `ruleNOT` (`src/rewriter.cpp:67-81`) -/
def ruleNot (n : Term) : Term :=
  match n with
  | .app _ _ (a :: _) =>
    match a with
    | .app .not _ (x :: _) => x
    | .tt => .ff
    | .ff => .tt
    | a => rebuild n [a]
  | n => n

/-- `ruleAND` (`src/rewriter.cpp:83-106`) -/
def ruleAnd (n : Term) : Term :=
  match n with
  | .app _ _ [l, r] =>
    if l.isFalse || r.isFalse then .ff
    else if l.isTrue then r
    else if r.isTrue then l
    else if l = r then l
    else rebuild n [l, r]
  | n => n

/-- `isZero` (`src/rewriter.cpp:108-113`): a literal named `0` or `0.0`; the name of an integer literal is its decimal form -/
def isZero : Term → Bool
  | .cint i => i == 0
  | .creal x _ => x == "0" || x == "0.0"
  | .clit _ x => x == "0" || x == "0.0"
  | _ => false

/-- `ruleADD` (`src/rewriter.cpp:115-134`) -/
def ruleAdd (n : Term) : Term :=
  match n with
  | .app _ _ [l, r] => if isZero l then r else if isZero r then l else rebuild n [l, r]
  | n => n

/-- `installDefaultRewriteRules` (`src/rewriter.cpp:133-149`); `ruleFallback` rebuilds the node with its own children -/
def defaultRules : Rules where
  on
    | .not => some ruleNot
    | .and => some ruleAnd
    | .add => some ruleAdd
    | _ => none
  other n := rebuild n n.children

/-! ## Any rules -/

/-- the handlers keep the value of every node under the assignment -/
def Keeps (ρ : Env) (r : Rules) : Prop := ∀ t v, eval ρ t = some v → eval ρ (dispatch r t) = some v

/-- the entries of the memo table keep the value -/
def MemoOk (ρ : Env) (m : Memo) : Prop := ∀ t u, m.lookup t = some u → ∀ v, eval ρ t = some v → eval ρ u = some v

theorem memoOk_cons {ρ : Env} {m : Memo} {t u : Term} (h : MemoOk ρ m) (ht : ∀ v, eval ρ t = some v → eval ρ u = some v) :
    MemoOk ρ ((t, u) :: m) := by
  intro x y hx v hv
  rw [List.lookup_cons] at hx
  by_cases e : x = t
  · subst e
    simp only [BEq.rfl, Option.some.injEq] at hx
    subst hx
    exact ht v hv
  · have hb : (x == t) = false := by simp [e]
    rw [hb] at hx
    exact h x y hx v hv

mutual
theorem once_keeps (ρ : Env) (r : Rules) (hr : Keeps ρ r) : (t : Term) → (m : Memo) → MemoOk ρ m →
    MemoOk ρ (once r t m).2 ∧ ∀ v, eval ρ t = some v → eval ρ (once r t m).1 = some v
  | .app k s ts, m, hm => by
    simp only [once]
    cases hq : m.lookup (.app k s ts) with
    | some u => exact ⟨hm, hm _ _ hq⟩
    | none =>
      simp only
      obtain ⟨h1, h2, h3⟩ := onceL_keeps ρ r hr ts m hm
      have key : ∀ v, eval ρ (.app k s ts) = some v → eval ρ (dispatch r (rebuild (.app k s ts) (onceL r ts m).1)) = some v := by
        intro v hv
        apply hr
        simp only [rebuild, h2, ne_eq, not_true, if_false]
        simp only [eval] at hv ⊢
        cases he : evalL ρ ts with
        | none => rw [he] at hv; cases hv
        | some vs => rw [he] at hv; rw [h3 vs he]; exact hv
      exact ⟨memoOk_cons h1 key, key⟩
  | .tt, m, hm => leaf_keeps ρ r hr .tt m hm rfl
  | .ff, m, hm => leaf_keeps ρ r hr .ff m hm rfl
  | .cint i, m, hm => leaf_keeps ρ r hr (.cint i) m hm rfl
  | .creal x q, m, hm => leaf_keeps ρ r hr (.creal x q) m hm rfl
  | .clit s x, m, hm => leaf_keeps ρ r hr (.clit s x) m hm rfl
  | .var k s x, m, hm => leaf_keeps ρ r hr (.var k s x) m hm rfl
  | .unknown, m, hm => leaf_keeps ρ r hr .unknown m hm rfl
  | .err, m, hm => leaf_keeps ρ r hr .err m hm rfl
theorem onceL_keeps (ρ : Env) (r : Rules) (hr : Keeps ρ r) : (ts : List Term) → (m : Memo) → MemoOk ρ m →
    MemoOk ρ (onceL r ts m).2 ∧ (onceL r ts m).1.length = ts.length ∧
      ∀ vs, evalL ρ ts = some vs → evalL ρ (onceL r ts m).1 = some vs
  | [], m, hm => ⟨hm, rfl, fun _ h => h⟩
  | t :: ts, m, hm => by
    obtain ⟨h1, h2⟩ := once_keeps ρ r hr t m hm
    obtain ⟨h3, h4, h5⟩ := onceL_keeps ρ r hr ts _ h1
    simp only [onceL]
    refine ⟨h3, by simp [h4], fun vs hv => ?_⟩
    simp only [evalL] at hv ⊢
    cases he : eval ρ t with
    | none => rw [he] at hv; cases hv
    | some v =>
      cases hl : evalL ρ ts with
      | none => rw [he, hl] at hv; cases hv
      | some ws => rw [he, hl] at hv; rw [h2 v he, h5 ws hl]; exact hv
theorem leaf_keeps (ρ : Env) (r : Rules) (hr : Keeps ρ r) (t : Term) (m : Memo) (hm : MemoOk ρ m)
    (hl : once r t m = match m.lookup t with | some u => (u, m) | none => (dispatch r t, (t, dispatch r t) :: m)) :
    MemoOk ρ (once r t m).2 ∧ ∀ v, eval ρ t = some v → eval ρ (once r t m).1 = some v := by
  rw [hl]
  cases hq : m.lookup t with
  | some u => exact ⟨hm, hm _ _ hq⟩
  | none => exact ⟨memoOk_cons hm (hr t), hr t⟩
end

theorem memoOk_nil (ρ : Env) : MemoOk ρ [] := by intro t u h; cases h

/-- **C27.**  With any rules that each keep the value of a node, rewriting keeps the value, whatever the bound on the rounds, with
and without the fixpoint loop, over a memo table filled by earlier calls with the same rules. -/
theorem rewrite_sound_rules (ρ : Env) (r : Rules) (hr : Keeps ρ r) (m : Memo) (hm : MemoOk ρ m) (fix : Bool) (max : Nat) (t : Term)
    (v : Val) (h : eval ρ t = some v) : eval ρ (rewrite r t m fix max) = some v ∧ MemoOk ρ (once r t m).2 := by
  refine ⟨?_, (once_keeps ρ r hr t m hm).1⟩
  cases fix with
  | false => exact (once_keeps ρ r hr t m hm).2 v h
  | true =>
    simp only [rewrite, if_true]
    induction max generalizing t with
    | zero => exact h
    | succ n ih =>
      simp only [rounds]
      have h1 := (once_keeps ρ r hr t [] (memoOk_nil ρ)).2 v h
      split
      · exact h1
      · exact ih _ h1

/-! ## The default rules -/

/-- a real literal named `0` or `0.0` has the value zero -/
def ZeroNames : Term → Prop
  | .creal x q => x = "0" ∨ x = "0.0" → q = 0
  | _ => True

theorem and_ev {ρ : Env} {s : Srt} {l r : Term} {v : Val} (h : eval ρ (.app .and s [l, r]) = some v) :
    ∃ a b, eval ρ l = some (.b a) ∧ eval ρ r = some (.b b) ∧ v = .b (a && b) := by
  simp only [eval, evalL] at h
  cases h1 : eval ρ l with
  | none => rw [h1] at h; cases h
  | some x =>
    cases h2 : eval ρ r with
    | none => rw [h1, h2] at h; cases h
    | some y =>
      rw [h1, h2] at h
      simp only [guardSort_some, SMT.apply] at h
      cases x with
      | b a => cases y with
        | b b => exact ⟨a, b, rfl, rfl, by simpa [boolsOf] using h.1.symm⟩
        | _ => simp [boolsOf] at h
      | _ => simp [boolsOf] at h

theorem ruleNot_keeps (ρ : Env) (s : Srt) (ts : List Term) (v : Val) (h : eval ρ (.app .not s ts) = some v) :
    eval ρ (ruleNot (.app .not s ts)) = some v := by
  have key : ∃ a x, ts = [a] ∧ eval ρ a = some (.b x) ∧ v = .b (!x) := by
    simp only [eval] at h
    match ts, h with
    | [], h => simp [evalL, SMT.apply, guardSort] at h
    | [a], h =>
      simp only [evalL] at h
      cases he : eval ρ a with
      | none => rw [he] at h; cases h
      | some y =>
        rw [he] at h
        simp only [guardSort_some, SMT.apply] at h
        cases y with
        | b x => exact ⟨a, x, rfl, he, by simpa using h.1.symm⟩
        | n q => simp at h
        | u s x => simp at h
    | a :: b :: l, h =>
      cases hq : evalL ρ (a :: b :: l) with
      | none => rw [hq] at h; cases h
      | some vs =>
        have hl : ∃ x y l, vs = x :: y :: l := by
          rw [evalL_iff] at hq
          exact ⟨_, _, _, hq.2⟩
        obtain ⟨x, y, l, rfl⟩ := hl
        rw [hq] at h
        simp [SMT.apply, guardSort] at h
  obtain ⟨a, x, rfl, ha, rfl⟩ := key
  simp only [ruleNot]
  split
  · rename_i s' y ys
    have : ∃ z, eval ρ y = some (.b z) ∧ x = !z := by
      simp only [eval] at ha
      cases ys with
      | nil =>
        simp only [evalL] at ha
        cases he : eval ρ y with
        | none => rw [he] at ha; cases ha
        | some w =>
          rw [he] at ha
          simp only [guardSort_some, SMT.apply] at ha
          cases w with
          | b z => exact ⟨z, rfl, by simpa using ha.1.symm⟩
          | n q => simp at ha
          | u s x => simp at ha
      | cons y' ys =>
        cases hq : evalL ρ (y :: y' :: ys) with
        | none => rw [hq] at ha; cases ha
        | some vs =>
          have hl : ∃ x y l, vs = x :: y :: l := by
            rw [evalL_iff] at hq
            exact ⟨_, _, _, hq.2⟩
          obtain ⟨x, y, l, rfl⟩ := hl
          rw [hq] at ha
          simp [SMT.apply, guardSort] at ha
    obtain ⟨z, hz, rfl⟩ := this
    simpa using hz
  · simp only [eval, Option.some.injEq, Val.b.injEq] at ha
    subst ha; rfl
  · simp only [eval, Option.some.injEq, Val.b.injEq] at ha
    subst ha; rfl
  · simpa [rebuild] using h

theorem ruleAnd_keeps (ρ : Env) (s : Srt) (ts : List Term) (v : Val) (h : eval ρ (.app .and s ts) = some v) :
    eval ρ (ruleAnd (.app .and s ts)) = some v := by
  unfold ruleAnd
  split
  · rename_i k s' l r e
    cases e
    obtain ⟨a, b, ha, hb, rfl⟩ := and_ev h
    have ef : ∀ t : Term, t.isFalse = true → t = .ff := by intro t ht; cases t <;> simp [Term.isFalse] at ht ⊢
    have et : ∀ t : Term, t.isTrue = true → t = .tt := by intro t ht; cases t <;> simp [Term.isTrue] at ht ⊢
    split
    · rename_i hf
      rw [Bool.or_eq_true] at hf
      rcases hf with hf | hf
      · rw [ef l hf] at ha
        simp only [eval, Option.some.injEq, Val.b.injEq] at ha
        subst ha; rfl
      · rw [ef r hf] at hb
        simp only [eval, Option.some.injEq, Val.b.injEq] at hb
        subst hb; simp [eval]
    · split
      · rename_i ht
        rw [et l ht] at ha
        simp only [eval, Option.some.injEq, Val.b.injEq] at ha
        subst ha; simpa using hb
      · split
        · rename_i ht
          rw [et r ht] at hb
          simp only [eval, Option.some.injEq, Val.b.injEq] at hb
          subst hb; simpa using ha
        · split
          · rename_i e
            subst e
            rw [ha] at hb
            simp only [Option.some.injEq, Val.b.injEq] at hb
            subst hb; simpa using ha
          · simpa [rebuild] using h
  · exact h

theorem isZero_ev {ρ : Env} {t : Term} {q : Rat} (hz : isZero t = true) (hn : ZeroNames t) (h : eval ρ t = some (.n q)) : q = 0 := by
  cases t with
  | cint i =>
    simp only [isZero, beq_iff_eq] at hz
    simp only [eval, Option.some.injEq, Val.n.injEq] at h
    subst hz; rw [← h]; rfl
  | creal x p =>
    simp only [isZero, Bool.or_eq_true, beq_iff_eq] at hz
    simp only [eval, Option.some.injEq, Val.n.injEq] at h
    rw [← h]; exact hn hz
  | clit s x =>
    simp only [eval, guardSort_some] at h
    cases s <;> simp at h
  | _ => simp [isZero] at hz

theorem ruleAdd_keeps (ρ : Env) (s : Srt) (ts : List Term) (v : Val) (hn : ∀ t ∈ ts, ZeroNames t) (h : eval ρ (.app .add s ts) = some v) :
    eval ρ (ruleAdd (.app .add s ts)) = some v := by
  unfold ruleAdd
  split
  · rename_i k s' l r e
    cases e
    have key : ∃ p q, eval ρ l = some (.n p) ∧ eval ρ r = some (.n q) ∧ v = .n (p + q) := by
      have h' := h
      simp only [eval, evalL] at h'
      cases h1 : eval ρ l with
      | none => rw [h1] at h'; cases h'
      | some x =>
        cases h2 : eval ρ r with
        | none => rw [h1, h2] at h'; cases h'
        | some y =>
          rw [h1, h2] at h'
          simp only [guardSort_some, SMT.apply] at h'
          cases x with
          | n a => cases y with
            | n b => exact ⟨a, b, rfl, rfl, by simpa [numsOf, Rat.add_zero] using h'.1.symm⟩
            | _ => simp [numsOf] at h'
          | _ => simp [numsOf] at h'
    obtain ⟨p, q, hp, hq, rfl⟩ := key
    split
    · rename_i hz
      rw [isZero_ev hz (hn l (by simp)) hp, Rat.zero_add]; exact hq
    · split
      · rename_i hz
        rw [isZero_ev hz (hn r (by simp)) hq, Rat.add_zero]; exact hp
      · simpa [rebuild] using h
  · exact h

mutual
/-- every real literal in the term named `0` or `0.0` has the value zero -/
def ZeroOk : Term → Prop
  | .creal x q => x = "0" ∨ x = "0.0" → q = 0
  | .app _ _ ts => ZeroOkL ts
  | _ => True
/-- `ZeroOk` for each term of a list -/
def ZeroOkL : List Term → Prop
  | [] => True
  | t :: ts => ZeroOk t ∧ ZeroOkL ts
end

theorem zeroOkL_mem {ts : List Term} (h : ZeroOkL ts) : ∀ t ∈ ts, ZeroOk t := by
  induction ts with
  | nil => intro t ht; cases ht
  | cons a ts ih =>
    intro t ht
    simp only [ZeroOkL] at h
    rcases List.mem_cons.mp ht with rfl | ht
    · exact h.1
    · exact ih h.2 t ht

theorem zeroOkL_of {ts : List Term} (h : ∀ t ∈ ts, ZeroOk t) : ZeroOkL ts := by
  induction ts with
  | nil => simp [ZeroOkL]
  | cons a ts ih => simp only [ZeroOkL]; exact ⟨h a List.mem_cons_self, ih fun t ht => h t (List.mem_cons_of_mem _ ht)⟩

theorem zeroOk_names {t : Term} (h : ZeroOk t) : ZeroNames t := by
  cases t <;> simp_all [ZeroOk, ZeroNames]

theorem rebuild_self (t : Term) : rebuild t t.children = t := by
  cases t <;> simp [rebuild, Term.children]

/-- the default rules, restricted to well-named terms -/
theorem default_keeps (ρ : Env) (t : Term) (hz : ZeroOk t) : ZeroOk (dispatch defaultRules t) ∧
    ∀ v, eval ρ t = some v → eval ρ (dispatch defaultRules t) = some v := by
  have hid : ∀ t, dispatch defaultRules t = t → ZeroOk t → ZeroOk (dispatch defaultRules t) ∧
      ∀ v, eval ρ t = some v → eval ρ (dispatch defaultRules t) = some v := by
    intro t e h; rw [e]; exact ⟨h, fun _ q => q⟩
  cases t with
  | app k s ts =>
    have hts := zeroOkL_mem (by simpa [ZeroOk] using hz : ZeroOkL ts)
    by_cases h1 : k = .not
    · subst h1
      refine ⟨?_, fun v h => ruleNot_keeps ρ s ts v h⟩
      show ZeroOk (ruleNot (.app .not s ts))
      unfold ruleNot
      split
      · rename_i k' s' a as e
        cases e
        have ha := hts a List.mem_cons_self
        split
        · rename_i y ys
          exact zeroOkL_mem (by simpa [ZeroOk] using ha) y List.mem_cons_self
        · simp [ZeroOk]
        · simp [ZeroOk]
        · simp only [rebuild]
          split
          · exact hz
          · simp only [ZeroOk, ZeroOkL]; exact ⟨ha, trivial⟩
      · exact hz
    · by_cases h2 : k = .and
      · subst h2
        refine ⟨?_, fun v h => ruleAnd_keeps ρ s ts v h⟩
        show ZeroOk (ruleAnd (.app .and s ts))
        unfold ruleAnd
        split
        · rename_i k' s' l r e
          cases e
          have hl := hts l (by simp)
          have hr := hts r (by simp)
          split
          · simp [ZeroOk]
          · split
            · exact hr
            · split
              · exact hl
              · split
                · exact hl
                · simpa [rebuild] using hz
        · exact hz
      · by_cases h3 : k = .add
        · subst h3
          refine ⟨?_, fun v h => ruleAdd_keeps ρ s ts v (fun t ht => zeroOk_names (hts t ht)) h⟩
          show ZeroOk (ruleAdd (.app .add s ts))
          unfold ruleAdd
          split
          · rename_i k' s' l r e
            cases e
            have hl := hts l (by simp)
            have hr := hts r (by simp)
            split
            · exact hr
            · split
              · exact hl
              · simpa [rebuild] using hz
          · exact hz
        · refine hid _ ?_ hz
          unfold dispatch
          have : defaultRules.on k = none := by cases k <;> simp_all [defaultRules]
          simp only [this]
          exact rebuild_self (.app k s ts)
  | _ => exact hid _ rfl hz

/-- the entries of the memo table keep well-named terms well-named and keep their values -/
def MemoZ (ρ : Env) (m : Memo) : Prop := ∀ t u, m.lookup t = some u → ZeroOk t → ZeroOk u ∧ ∀ v, eval ρ t = some v → eval ρ u = some v

theorem memoZ_cons {ρ : Env} {m : Memo} {t u : Term} (h : MemoZ ρ m) (ht : ZeroOk t → ZeroOk u ∧ ∀ v, eval ρ t = some v → eval ρ u = some v) :
    MemoZ ρ ((t, u) :: m) := by
  intro x y hx
  rw [List.lookup_cons] at hx
  by_cases e : x = t
  · subst e
    simp only [BEq.rfl, Option.some.injEq] at hx
    subst hx
    exact ht
  · have hb : (x == t) = false := by simp [e]
    rw [hb] at hx
    exact h x y hx

mutual
theorem onceD (ρ : Env) : (t : Term) → (m : Memo) → MemoZ ρ m → ZeroOk t →
    MemoZ ρ (once defaultRules t m).2 ∧ ZeroOk (once defaultRules t m).1 ∧
      ∀ v, eval ρ t = some v → eval ρ (once defaultRules t m).1 = some v
  | .app k s ts, m, hm, hz => by
    simp only [once]
    cases hq : m.lookup (.app k s ts) with
    | some u => exact ⟨hm, hm _ _ hq hz⟩
    | none =>
      simp only
      obtain ⟨h1, h2, h3, h4⟩ := onceDL ρ ts m hm (by simpa [ZeroOk] using hz)
      have hre : rebuild (.app k s ts) (onceL defaultRules ts m).1 = .app k s (onceL defaultRules ts m).1 := by simp [rebuild, h2]
      have hz' : ZeroOk (.app k s (onceL defaultRules ts m).1) := by simpa [ZeroOk] using h3
      obtain ⟨d1, d2⟩ := default_keeps ρ _ hz'
      have key : ∀ v, eval ρ (.app k s ts) = some v → eval ρ (dispatch defaultRules (rebuild (.app k s ts) (onceL defaultRules ts m).1)) = some v := by
        intro v hv
        rw [hre]
        apply d2
        simp only [eval] at hv ⊢
        cases he : evalL ρ ts with
        | none => rw [he] at hv; cases hv
        | some vs => rw [he] at hv; rw [h4 vs he]; exact hv
      rw [← hre] at d1
      exact ⟨memoZ_cons h1 fun _ => ⟨d1, key⟩, d1, key⟩
  | .tt, m, hm, hz => leafD ρ .tt m hm hz rfl
  | .ff, m, hm, hz => leafD ρ .ff m hm hz rfl
  | .cint i, m, hm, hz => leafD ρ (.cint i) m hm hz rfl
  | .creal x q, m, hm, hz => leafD ρ (.creal x q) m hm hz rfl
  | .clit s x, m, hm, hz => leafD ρ (.clit s x) m hm hz rfl
  | .var k s x, m, hm, hz => leafD ρ (.var k s x) m hm hz rfl
  | .unknown, m, hm, hz => leafD ρ .unknown m hm hz rfl
  | .err, m, hm, hz => leafD ρ .err m hm hz rfl
theorem onceDL (ρ : Env) : (ts : List Term) → (m : Memo) → MemoZ ρ m → ZeroOkL ts →
    MemoZ ρ (onceL defaultRules ts m).2 ∧ (onceL defaultRules ts m).1.length = ts.length ∧ ZeroOkL (onceL defaultRules ts m).1 ∧
      ∀ vs, evalL ρ ts = some vs → evalL ρ (onceL defaultRules ts m).1 = some vs
  | [], m, hm, _ => ⟨hm, rfl, by simp [onceL, ZeroOkL], fun _ h => h⟩
  | t :: ts, m, hm, hz => by
    simp only [ZeroOkL] at hz
    obtain ⟨h1, h2, h2'⟩ := onceD ρ t m hm hz.1
    obtain ⟨h3, h4, h5, h6⟩ := onceDL ρ ts _ h1 hz.2
    simp only [onceL]
    refine ⟨h3, by simp [h4], by simp only [ZeroOkL]; exact ⟨h2, h5⟩, fun vs hv => ?_⟩
    simp only [evalL] at hv ⊢
    cases he : eval ρ t with
    | none => rw [he] at hv; cases hv
    | some v =>
      cases hl : evalL ρ ts with
      | none => rw [he, hl] at hv; cases hv
      | some ws => rw [he, hl] at hv; rw [h2' v he, h6 ws hl]; exact hv
theorem leafD (ρ : Env) (t : Term) (m : Memo) (hm : MemoZ ρ m) (hz : ZeroOk t)
    (hl : once defaultRules t m = match m.lookup t with
      | some u => (u, m) | none => (dispatch defaultRules t, (t, dispatch defaultRules t) :: m)) :
    MemoZ ρ (once defaultRules t m).2 ∧ ZeroOk (once defaultRules t m).1 ∧
      ∀ v, eval ρ t = some v → eval ρ (once defaultRules t m).1 = some v := by
  rw [hl]
  obtain ⟨d1, d2⟩ := default_keeps ρ t hz
  cases hq : m.lookup t with
  | some u => exact ⟨hm, hm _ _ hq hz⟩
  | none => exact ⟨memoZ_cons hm fun _ => ⟨d1, d2⟩, d1, d2⟩
end

/-! ## The result is stable -/

mutual
/-- no default rule applies anywhere in the term -/
def Normal : Term → Prop
  | .app k s ts => dispatch defaultRules (.app k s ts) = .app k s ts ∧ NormalL ts
  | _ => True
/-- `Normal` for each term of a list -/
def NormalL : List Term → Prop
  | [] => True
  | t :: ts => Normal t ∧ NormalL ts
end

theorem normalL_mem {ts : List Term} (h : NormalL ts) : ∀ t ∈ ts, Normal t := by
  induction ts with
  | nil => intro t ht; cases ht
  | cons a ts ih =>
    intro t ht
    simp only [NormalL] at h
    rcases List.mem_cons.mp ht with rfl | ht
    · exact h.1
    · exact ih h.2 t ht

theorem dispatch_leaf (t : Term) (h : ∀ k s ts, t ≠ .app k s ts) : dispatch defaultRules t = t := by
  cases t with
  | app k s ts => exact absurd rfl (h k s ts)
  | _ => rfl

theorem dispatch_normal (k : Kind) (s : Srt) (ts : List Term) (h : NormalL ts) : Normal (dispatch defaultRules (.app k s ts)) := by
  have hm := normalL_mem h
  have hself : dispatch defaultRules (.app k s ts) = .app k s ts → Normal (dispatch defaultRules (.app k s ts)) := by
    intro e; rw [e]; simp only [Normal]; exact ⟨e, h⟩
  by_cases h1 : k = .not
  · subst h1
    show Normal (ruleNot (.app .not s ts))
    cases ts with
    | nil => exact hself rfl
    | cons a as =>
      have ha := hm a List.mem_cons_self
      by_cases e1 : ∃ s' y ys, a = .app .not s' (y :: ys)
      · obtain ⟨s', y, ys, rfl⟩ := e1
        simp only [Normal] at ha
        exact normalL_mem ha.2 y List.mem_cons_self
      · by_cases e2 : a = .tt
        · subst e2; simp [ruleNot, Normal]
        · by_cases e3 : a = .ff
          · subst e3; simp [ruleNot, Normal]
          · have : ruleNot (.app .not s (a :: as)) = rebuild (.app .not s (a :: as)) [a] := by
              simp only [ruleNot]
              split
              · exact absurd ⟨_, _, _, rfl⟩ e1
              · exact absurd rfl e2
              · exact absurd rfl e3
              · rfl
            have hr : rebuild (.app .not s (a :: as)) [a] = .app .not s (a :: as) := by
              simp only [rebuild]
              cases as with
              | nil => simp
              | cons b as => simp
            exact hself (this.trans hr)
  · by_cases h2 : k = .and
    · subst h2
      show Normal (ruleAnd (.app .and s ts))
      have hd : dispatch defaultRules (.app .and s ts) = ruleAnd (.app .and s ts) := rfl
      match ts, h, hm, hself, hd with
      | [l, r], _, hm, hself, hd =>
        have hl := hm l (by simp)
        have hr := hm r (by simp)
        by_cases c1 : (l.isFalse || r.isFalse) = true
        · simp [ruleAnd, c1, Normal]
        · by_cases c2 : l.isTrue = true
          · simp only [ruleAnd, if_neg c1, if_pos c2]; exact hr
          · by_cases c3 : r.isTrue = true
            · simp only [ruleAnd, if_neg c1, if_neg c2, if_pos c3]; exact hl
            · by_cases c4 : l = r
              · simp only [ruleAnd, if_neg c1, if_neg c2, if_neg c3, if_pos c4]; exact hl
              · exact hself (by rw [hd]; simp only [ruleAnd, if_neg c1, if_neg c2, if_neg c3, if_neg c4]; simp [rebuild])
      | [], _, _, hself, _ => exact hself rfl
      | [l], _, _, hself, _ => exact hself rfl
      | l :: r :: x :: l', _, _, hself, _ => exact hself rfl
    · by_cases h3 : k = .add
      · subst h3
        show Normal (ruleAdd (.app .add s ts))
        have hd : dispatch defaultRules (.app .add s ts) = ruleAdd (.app .add s ts) := rfl
        match ts, h, hm, hself, hd with
        | [l, r], _, hm, hself, hd =>
          have hl := hm l (by simp)
          have hr := hm r (by simp)
          by_cases c1 : isZero l = true
          · simp only [ruleAdd, if_pos c1]; exact hr
          · by_cases c2 : isZero r = true
            · simp only [ruleAdd, if_neg c1, if_pos c2]; exact hl
            · exact hself (by rw [hd]; simp only [ruleAdd, if_neg c1, if_neg c2]; simp [rebuild])
        | [], _, _, hself, _ => exact hself rfl
        | [l], _, _, hself, _ => exact hself rfl
        | l :: r :: x :: l', _, _, hself, _ => exact hself rfl
      · refine hself ?_
        unfold dispatch
        have : defaultRules.on k = none := by cases k <;> simp_all [defaultRules]
        simp only [this]
        exact rebuild_self (.app k s ts)

/-- the memo table holds normal results, and is the identity on normal terms -/
def MemoN (m : Memo) : Prop := ∀ t u, m.lookup t = some u → Normal u ∧ (Normal t → u = t)

theorem memoN_cons {m : Memo} {t u : Term} (h : MemoN m) (ht : Normal u ∧ (Normal t → u = t)) : MemoN ((t, u) :: m) := by
  intro x y hx
  rw [List.lookup_cons] at hx
  by_cases e : x = t
  · subst e
    simp only [BEq.rfl, Option.some.injEq] at hx
    subst hx
    exact ht
  · have hb : (x == t) = false := by simp [e]
    rw [hb] at hx
    exact h x y hx

mutual
theorem onceN : (t : Term) → (m : Memo) → MemoN m →
    MemoN (once defaultRules t m).2 ∧ Normal (once defaultRules t m).1 ∧ (Normal t → (once defaultRules t m).1 = t)
  | .app k s ts, m, hm => by
    simp only [once]
    cases hq : m.lookup (.app k s ts) with
    | some u => exact ⟨hm, hm _ _ hq⟩
    | none =>
      simp only
      obtain ⟨h1, h2, h3, h4⟩ := onceNL ts m hm
      have hre : rebuild (.app k s ts) (onceL defaultRules ts m).1 = .app k s (onceL defaultRules ts m).1 := by simp [rebuild, h2]
      rw [hre]
      have hn := dispatch_normal k s _ h3
      have hid : Normal (.app k s ts) → dispatch defaultRules (.app k s (onceL defaultRules ts m).1) = .app k s ts := by
        intro h; simp only [Normal] at h; rw [h4 h.2]; exact h.1
      exact ⟨memoN_cons h1 ⟨hn, hid⟩, hn, hid⟩
  | .tt, m, hm => leafN .tt m hm (by simp) rfl
  | .ff, m, hm => leafN .ff m hm (by simp) rfl
  | .cint i, m, hm => leafN (.cint i) m hm (by simp) rfl
  | .creal x q, m, hm => leafN (.creal x q) m hm (by simp) rfl
  | .clit s x, m, hm => leafN (.clit s x) m hm (by simp) rfl
  | .var k s x, m, hm => leafN (.var k s x) m hm (by simp) rfl
  | .unknown, m, hm => leafN .unknown m hm (by simp) rfl
  | .err, m, hm => leafN .err m hm (by simp) rfl
theorem onceNL : (ts : List Term) → (m : Memo) → MemoN m →
    MemoN (onceL defaultRules ts m).2 ∧ (onceL defaultRules ts m).1.length = ts.length ∧ NormalL (onceL defaultRules ts m).1 ∧
      (NormalL ts → (onceL defaultRules ts m).1 = ts)
  | [], m, hm => ⟨hm, rfl, by simp [onceL, NormalL], fun _ => rfl⟩
  | t :: ts, m, hm => by
    obtain ⟨h1, h2, h2'⟩ := onceN t m hm
    obtain ⟨h3, h4, h5, h6⟩ := onceNL ts _ h1
    simp only [onceL]
    refine ⟨h3, by simp [h4], by simp only [NormalL]; exact ⟨h2, h5⟩, fun h => ?_⟩
    simp only [NormalL] at h
    rw [h2' h.1, h6 h.2]
theorem leafN (t : Term) (m : Memo) (hm : MemoN m) (ht : ∀ k s ts, t ≠ .app k s ts)
    (hl : once defaultRules t m = match m.lookup t with
      | some u => (u, m) | none => (dispatch defaultRules t, (t, dispatch defaultRules t) :: m)) :
    MemoN (once defaultRules t m).2 ∧ Normal (once defaultRules t m).1 ∧ (Normal t → (once defaultRules t m).1 = t) := by
  rw [hl]
  have hn : Normal t := by cases t with
    | app k s ts => exact absurd rfl (ht k s ts)
    | _ => simp [Normal]
  cases hq : m.lookup t with
  | some u => exact ⟨hm, hm _ _ hq⟩
  | none =>
    rw [dispatch_leaf t ht]
    exact ⟨memoN_cons hm ⟨hn, fun _ => rfl⟩, hn, fun _ => rfl⟩
end

theorem memoN_nil : MemoN [] := by intro t u h; cases h

/-- **C27.**  With the default rules, rewriting keeps the value of every term whose literals named `0` and `0.0` are zero, under
every assignment. -/
theorem rewrite_sound (ρ : Env) (t : Term) (hz : ZeroOk t) (fix : Bool) (max : Nat) (v : Val) (h : eval ρ t = some v) :
    eval ρ (rewrite defaultRules t [] fix max) = some v := by
  have hnil : MemoZ ρ [] := by intro t u h; cases h
  cases fix with
  | false => exact (onceD ρ t [] hnil hz).2.2 v h
  | true =>
    simp only [rewrite, if_true]
    induction max generalizing t with
    | zero => exact h
    | succ n ih =>
      simp only [rounds]
      obtain ⟨_, h1, h2⟩ := onceD ρ t [] hnil hz
      split
      · exact h2 v h
      · exact ih _ h1 (h2 v h)

/-- **C27.**  With the default rules the loop stops at a fixpoint: rewriting the result again, with or without the loop, changes
nothing; two rounds are enough. -/
theorem rewrite_fixpoint (t : Term) (n : Nat) (k : Nat) (fix : Bool) :
    rewrite defaultRules (rewrite defaultRules t [] true (n + 1)) [] fix k = rewrite defaultRules t [] true (n + 1) ∧
    rewrite defaultRules t [] true (n + 1) = rewrite defaultRules t [] false := by
  have h1 := (onceN t [] memoN_nil).2.1
  have hstay : ∀ u, Normal u → ∀ n, rounds defaultRules n u = u := by
    intro u hu n
    cases n with
    | zero => rfl
    | succ n => simp only [rounds, (onceN u [] memoN_nil).2.2 hu, if_true]
  have h2 : rounds defaultRules (n + 1) t = (once defaultRules t []).1 := by
    simp only [rounds]
    split
    · rfl
    · exact hstay _ h1 n
  simp only [rewrite, if_true, Bool.false_eq_true, if_false, h2]
  refine ⟨?_, trivial⟩
  cases fix with
  | true => simp only [if_true]; exact hstay _ h1 k
  | false => simp only [Bool.false_eq_true, if_false]; exact (onceN _ [] memoN_nil).2.2 h1

example : rewrite defaultRules (.app .not .bool [.app .not .bool [.app .and .bool [bv "p", .app .and .bool [.tt, bv "p"]]]]) = bv "p" := by
  decide +kernel

example : ZeroOk (.app .add .real [.creal "0.0" 0, iv "x"]) := by simp [ZeroOk, ZeroOkL, iv]

end SMT.Rewrite
