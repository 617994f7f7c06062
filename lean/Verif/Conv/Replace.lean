import Verif.Conv.Elim
/-!
# C32: replacing atoms and nodes

The model of `replaceAtoms` / `replaceNodes`, a separate specification of "replace every occurrence",
and what relates them.
-/
namespace SMT

open Term

/-! ### model -/

mutual
/-- `replaceNodes(expr, node_map, visited, is_changed)` (`src/conv_parser.cpp:263-291`) with
`hit = node_map.find`, and `replaceAtoms` (`src/conv_parser.cpp:227-251`), which differs only in
requiring `isAtom` for a hit.  Returns the new node, the flag `is_changed` and `visited`.  A node found
in `visited` is returned without touching the flag. -/
def repl (c : Cfg) (hit : Term → Option Term) : Term → VMap → Term × Bool × VMap
  | .app k s ts, vis =>
    match vis.find (.app k s ts) with
    | some r => (r, false, vis)
    | none =>
      match hit (.app k s ts) with
      | some r => (r, true, (.app k s ts, r) :: vis)
      | none =>
        let p := replL c hit ts vis
        if p.2.1 then
          let r := mkOper c s k p.1
          (r, true, (.app k s ts, r) :: p.2.2)
        else (.app k s ts, false, (.app k s ts, .app k s ts) :: p.2.2)
  | t, vis =>
    match vis.find t with
    | some r => (r, false, vis)
    | none =>
      match hit t with
      | some r => (r, true, (t, r) :: vis)
      | none => (t, false, (t, t) :: vis)
/-- the operand loop (`src/conv_parser.cpp:236-243,272-279`) -/
def replL (c : Cfg) (hit : Term → Option Term) : List Term → VMap → List Term × Bool × VMap
  | [], vis => ([], false, vis)
  | t :: ts, vis =>
    let p := repl c hit t vis
    let q := replL c hit ts p.2.2
    (p.1 :: q.1, p.2.1 || q.2.1, q.2.2)
end

/-- `replaceNodes(expr, node_map)` (`src/conv_parser.cpp:253-261`): the new node if anything changed -/
def replaceNodes (c : Cfg) (m : VMap) (t : Term) : Term :=
  let p := repl c m.find t []
  if p.2.1 then p.1 else t

/-- `replaceAtoms(expr, atom_map)` (`src/conv_parser.cpp:217-225`) -/
def replaceAtoms (c : Cfg) (m : VMap) (t : Term) : Term :=
  let p := repl c (fun t => if isAtom t then m.find t else none) t []
  if p.2.1 then p.1 else t

/-! ### specification -/

mutual
/-- some occurrence is to be replaced -/
def hasHit (hit : Term → Option Term) : Term → Bool
  | .app k s ts => (hit (.app k s ts)).isSome || hasHitL hit ts
  | t => (hit t).isSome
/-- in the list -/
def hasHitL (hit : Term → Option Term) : List Term → Bool
  | [] => false
  | t :: ts => hasHit hit t || hasHitL hit ts
end

mutual
/-- Replace every topmost occurrence; the nodes above an occurrence are built again with `mkOper`, the
others stay. -/
def substAll (c : Cfg) (hit : Term → Option Term) : Term → Term
  | .app k s ts =>
    match hit (.app k s ts) with
    | some r => r
    | none => if hasHitL hit ts then mkOper c s k (substAllL c hit ts) else .app k s ts
  | t => (hit t).getD t
/-- in a list -/
def substAllL (c : Cfg) (hit : Term → Option Term) : List Term → List Term
  | [] => []
  | t :: ts => substAll c hit t :: substAllL c hit ts
end

mutual
/-- the occurrences, with repetitions, of nodes that are replaced or lie above a replaced node -/
def touched (hit : Term → Option Term) : Term → List Term
  | .app k s ts =>
    if (hit (.app k s ts)).isSome then [.app k s ts]
    else if hasHitL hit ts then .app k s ts :: touchedL hit ts else []
  | t => if (hit t).isSome then [t] else []
/-- in a list -/
def touchedL (hit : Term → Option Term) : List Term → List Term
  | [] => []
  | t :: ts => touched hit t ++ touchedL hit ts
end

/-! ### a relation kept by the walk -/

section
variable {c : Cfg} {hit : Term → Option Term} {P : Term → Prop} {R : Term → Term → Prop}

/-- what `visited` has to satisfy -/
def VInv (P : Term → Prop) (R : Term → Term → Prop) (m : VMap) : Prop :=
  ∀ k v, m.find k = some v → P k → R k v

theorem VInv.add {m : VMap} (h : VInv P R m) {k v : Term} (hv : P k → R k v) :
    VInv P R ((k, v) :: m) := by
  intro k' v' hf hP
  rw [VMap.find_cons] at hf
  split at hf
  · rename_i e; subst e; cases hf; exact hv hP
  · exact h _ _ hf hP

theorem replL_ch_ne {ts : List Term} {vis : VMap} (h : (replL c hit ts vis).2.1 = true) : ts ≠ [] := by
  rintro rfl; simp [replL] at h

theorem repl_rel (hrefl : ∀ t, P t → R t t) (hhit : ∀ t r, P t → hit t = some r → R t r)
    (hkid : ∀ k s ts, P (.app k s ts) → hit (.app k s ts) = none → ∀ t ∈ ts, P t)
    (hmk : ∀ k s ts rs, P (.app k s ts) → hit (.app k s ts) = none → ts ≠ [] → All2 R ts rs →
      R (.app k s ts) (mkOper c s k rs)) :
    ∀ (n : Nat) (t : Term) (vis : VMap), t.size ≤ n → P t → VInv P R vis →
      R t (repl c hit t vis).1 ∧ VInv P R (repl c hit t vis).2.2 := by
  intro n
  induction n with
  | zero => intro t _ h; cases t <;> simp [size] at h
  | succ n ih =>
    have hL : ∀ (ts : List Term), (∀ t ∈ ts, t.size ≤ n ∧ P t) → ∀ vis, VInv P R vis →
        All2 R ts (replL c hit ts vis).1 ∧ VInv P R (replL c hit ts vis).2.2 := by
      intro ts
      induction ts with
      | nil => intro _ vis h; exact ⟨.nil, h⟩
      | cons t ts ihl =>
        intro h vis hv
        obtain ⟨h1, h2⟩ := ih t vis (h t (by simp)).1 (h t (by simp)).2 hv
        obtain ⟨g1, g2⟩ := ihl (fun u hu => h u (by simp [hu])) _ h2
        simp only [replL]
        exact ⟨.cons h1 g1, g2⟩
    intro t vis hn hP hv
    cases t with
    | app k s ts =>
      rw [repl.eq_def]
      simp only
      split
      · rename_i r hr; exact ⟨hv _ _ hr hP, hv⟩
      · split
        · rename_i r hr; exact ⟨hhit _ _ hP hr, hv.add fun h => hhit _ _ h hr⟩
        · rename_i hno
          obtain ⟨h1, h2⟩ := hL ts (fun t ht => ⟨by
            have := size_child (k := k) (s := s) ht; omega, hkid _ _ _ hP hno t ht⟩) vis hv
          split
          · rename_i hch
            have := hmk k s ts _ hP hno (replL_ch_ne hch) h1
            exact ⟨this, h2.add fun _ => this⟩
          · exact ⟨hrefl _ hP, h2.add fun h => hrefl _ h⟩
    | _ =>
      rw [repl.eq_def]
      simp only
      split
      · rename_i r hr; exact ⟨hv _ _ hr hP, hv⟩
      · split
        · rename_i r hr; exact ⟨hhit _ _ hP hr, hv.add fun h => hhit _ _ h hr⟩
        · exact ⟨hrefl _ hP, hv.add fun h => hrefl _ h⟩

theorem VInv.nil : VInv P R [] := by intro k v h; simp [VMap.find] at h

end

/-! ### every occurrence is replaced when nothing that changes is shared -/

section
variable {c : Cfg} {hit : Term → Option Term}

theorem touched_hit : ∀ (n : Nat) (t : Term), t.size ≤ n →
    (hasHit hit t = true ↔ t ∈ touched hit t) := by
  intro n t _
  cases t with
  | app k s ts =>
    simp only [hasHit, touched]
    split
    · rename_i h; simp [h]
    · rename_i h
      split
      · rename_i h2; simp [h2]
      · rename_i h2; simp only [Bool.not_eq_true] at h h2; simp [h, h2]
  | _ => simp only [hasHit, touched]; split <;> simp_all

theorem substAll_noHit (t : Term) (h : hasHit hit t = false) : substAll c hit t = t := by
  cases t with
  | app k s ts =>
    simp only [hasHit, Bool.or_eq_false_iff] at h
    simp only [substAll]
    have : hit (.app k s ts) = none := by simpa using h.1
    rw [this]; simp [h.2]
  | _ => simp only [hasHit] at h; simp only [substAll]; rw [Option.isSome_eq_false_iff] at h; simp at h; simp [h]

/-- what the walk leaves in `visited` -/
structure RInv (c : Cfg) (hit : Term → Option Term) (todo : List Term) (m : VMap) : Prop where
  ok : ∀ k v, m.find k = some v → v = substAll c hit k
  fresh : ∀ k, (m.find k).isSome = true → hasHit hit k = true → k ∉ todo

theorem repl_full : ∀ (n : Nat) (t : Term) (vis : VMap) (rest : List Term), t.size ≤ n →
    (touched hit t ++ rest).Nodup → RInv c hit (touched hit t ++ rest) vis →
    (repl c hit t vis).1 = substAll c hit t ∧ (repl c hit t vis).2.1 = hasHit hit t ∧
      RInv c hit rest (repl c hit t vis).2.2 := by
  intro n
  induction n with
  | zero => intro t _ _ h; cases t <;> simp [size] at h
  | succ n ih =>
    have hL : ∀ (ts : List Term), (∀ t ∈ ts, t.size ≤ n) → ∀ vis rest,
        (touchedL hit ts ++ rest).Nodup → RInv c hit (touchedL hit ts ++ rest) vis →
        (replL c hit ts vis).1 = substAllL c hit ts ∧ (replL c hit ts vis).2.1 = hasHitL hit ts ∧
          RInv c hit rest (replL c hit ts vis).2.2 := by
      intro ts
      induction ts with
      | nil => intro _ vis rest _ h; exact ⟨rfl, rfl, by simpa [touchedL, replL] using h⟩
      | cons t ts ihl =>
        intro h vis rest hnd hv
        simp only [touchedL, List.append_assoc] at hnd hv
        obtain ⟨h1, h2, h3⟩ := ih t vis _ (h t (by simp)) hnd hv
        obtain ⟨g1, g2, g3⟩ := ihl (fun u hu => h u (by simp [hu])) _ rest
          (List.nodup_append.1 hnd).2.1 h3
        simp only [replL, substAllL, hasHitL]
        exact ⟨by rw [h1, g1], by rw [h2, g2], g3⟩
    have hdrop : ∀ {l rest : List Term} {m : VMap}, RInv c hit (l ++ rest) m → RInv c hit rest m := by
      intro l rest m h
      exact ⟨h.ok, fun k hk hh hm => h.fresh k hk hh (by simp [hm])⟩
    have hadd : ∀ {rest : List Term} {m : VMap} {k v : Term}, RInv c hit rest m →
        v = substAll c hit k → (hasHit hit k = true → k ∉ rest) → RInv c hit rest ((k, v) :: m) := by
      intro rest m k v h hv hk
      refine ⟨?_, ?_⟩
      · intro k' v' hf
        rw [VMap.find_cons] at hf
        split at hf
        · rename_i e; subst e; cases hf; exact hv
        · exact h.ok _ _ hf
      · intro k' hf hh
        rw [VMap.find_cons] at hf
        split at hf
        · rename_i e; subst e; exact hk hh
        · exact h.fresh _ hf hh
    have hvis : ∀ (t : Term) (vis : VMap) (rest : List Term) (r : Term), vis.find t = some r →
        RInv c hit (touched hit t ++ rest) vis →
        r = substAll c hit t ∧ false = hasHit hit t ∧ RInv c hit rest vis := by
      intro t vis rest r hr hv
      refine ⟨hv.ok _ _ hr, ?_, hdrop hv⟩
      cases hh : hasHit hit t with
      | false => rfl
      | true =>
        exact absurd (List.mem_append_left _ ((touched_hit _ t (Nat.le_refl _)).1 hh))
          (hv.fresh t (by simp [hr]) hh)
    intro t vis rest hn hnd hv
    cases t with
    | app k s ts =>
      rw [repl.eq_def]
      simp only
      split
      · rename_i r hr; exact hvis _ _ _ _ hr hv
      · split
        · rename_i r hr
          refine ⟨by simp [substAll, hr], by simp [hasHit, hr], ?_⟩
          have ht : touched hit (.app k s ts) = [.app k s ts] := by simp [touched, hr]
          rw [ht] at hv hnd
          exact hadd (hdrop hv) (by simp [substAll, hr]) fun _ => (List.nodup_cons.1 hnd).1
        · rename_i hvn hno
          have hsz : ∀ t ∈ ts, t.size ≤ n := fun t ht => by
            have := size_child (k := k) (s := s) ht; omega
          cases hh : hasHitL hit ts with
          | true =>
            have ht : touched hit (.app k s ts) = .app k s ts :: touchedL hit ts := by
              simp [touched, hno, hh]
            rw [ht] at hv hnd
            simp only [List.cons_append, List.nodup_cons] at hnd
            obtain ⟨h1, h2, h3⟩ := hL ts hsz vis rest hnd.2 (hdrop (l := [_]) hv)
            rw [hh] at h2
            have hs : mkOper c s k (replL c hit ts vis).1 = substAll c hit (.app k s ts) := by
              simp [substAll, hno, hh, h1]
            rw [if_pos h2]
            refine ⟨hs, by simp [hasHit, hno, hh], hadd h3 hs ?_⟩
            intro _ hm; exact hnd.1 (by simp [hm])
          | false =>
            have hsame : (.app k s ts : Term) = substAll c hit (.app k s ts) := by
              simp [substAll, hno, hh]
            -- nothing below is touched
            have hnil : ∀ l : List Term, hasHitL hit l = false → touchedL hit l = [] := by
              intro l
              induction l with
              | nil => intro _; rfl
              | cons a l ihl =>
                intro hl
                simp only [hasHitL, Bool.or_eq_false_iff] at hl
                have : touched hit a = [] := by
                  have h0 := hl.1
                  clear ihl hl
                  cases a <;> simp only [hasHit, Bool.or_eq_false_iff] at h0 <;>
                    simp [touched, h0]
                simp [touchedL, this, ihl hl.2]
            have ht0 : touchedL hit ts = [] := hnil ts hh
            have ht : touched hit (.app k s ts) = [] := by simp [touched, hno, hh]
            rw [ht, List.nil_append] at hv hnd
            obtain ⟨h1, h2, h3⟩ := hL ts hsz vis rest (by rw [ht0]; simpa using hnd)
              (by rw [ht0]; simpa using hv)
            rw [hh] at h2
            rw [if_neg (by rw [h2]; simp)]
            exact ⟨hsame, by simp [hasHit, hno, hh], hadd h3 hsame (by simp [hasHit, hno, hh])⟩
    | _ =>
      rw [repl.eq_def]
      simp only
      split
      · rename_i r hr; exact hvis _ _ _ _ hr hv
      · split
        · rename_i r hr
          refine ⟨by simp [substAll, hr], by simp [hasHit, hr], ?_⟩
          refine hadd (hdrop hv) (by simp [substAll, hr]) fun _ => ?_
          simp only [touched, hr, Option.isSome_some, if_true] at hnd
          exact (List.nodup_cons.1 hnd).1
        · rename_i hno
          exact ⟨by simp [substAll, hno], by simp [hasHit, hno],
            hadd (hdrop hv) (by simp [substAll, hno]) (by simp [hasHit, hno])⟩
end

end SMT
