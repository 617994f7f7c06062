import Verif.Conv.Elim
/-!
# C29: distribution and flattening
-/
namespace SMT

open Term

theorem dnfIn_binary : ∀ (n : Nat) (t : Term), t.size ≤ n → dnfIn t = true → binary t = true := by
  intro n
  induction n with
  | zero => intro t h; cases t <;> simp [size] at h
  | succ n ih =>
    intro t hn h
    cases t with
    | app k s ts =>
      have hL : dnfInL ts = true → binaryL ts = true := by
        intro hl; rw [binaryL_iff]; intro u hu
        have := size_child (k := k) (s := s) hu
        exact ih u (by omega) ((dnfInL_iff ts).1 hl u hu)
      have hnb := dnfIn_negBin h
      cases k <;> simp only [binary] <;>
        first
          | exact hnb
          | (simp only [dnfIn, Bool.and_eq_true] at h ⊢; first | exact hL h | exact ⟨h.1, hL h.2⟩)
    | _ => simp [binary, negBin]

theorem noCollapseL_iff (c : Cfg) (ts : List Term) :
    noCollapseL c ts = true ↔ ∀ t ∈ ts, noCollapse c t = true := by
  induction ts with
  | nil => simp [noCollapseL]
  | cons t ts ih => simp [noCollapseL, ih]

theorem distribL_map (c : Cfg) (ts : List Term) : distribL c ts = ts.map (distrib c) := by
  induction ts with
  | nil => rfl
  | cons t ts ih => simp [distribL, ih]

theorem isCubeTreeL_iff (ts : List Term) : isCubeTreeL ts = true ↔ ∀ t ∈ ts, isCubeTree t = true := by
  induction ts with
  | nil => simp [isCubeTreeL]
  | cons t ts ih => simp [isCubeTreeL, ih]

/-! ### meaning -/

theorem conj_val {ρ : Env} {t : Term} (h : IsB ρ t) :
    (∀ u ∈ conj t, IsB ρ u) ∧ (conj t).all (bval ρ) = bval ρ t := by
  unfold conj
  split
  · rename_i hA
    unfold isAnd at hA
    split at hA
    · obtain ⟨h1, h2⟩ := and_node h
      exact ⟨h1, h2.symm⟩
    · cases hA
  · simpa using h

theorem isOr_val {ρ : Env} {t : Term} (ho : isOr t = true) (h : IsB ρ t) :
    (∀ u ∈ t.children, IsB ρ u) ∧ t.children.any (bval ρ) = bval ρ t := by
  unfold isOr at ho
  split at ho
  · obtain ⟨h1, h2⟩ := or_node h
    exact ⟨h1, h2.symm⟩
  · cases ho

/-- value of a Boolean term, as a relation -/
def BV (ρ : Env) (t : Term) (b : Bool) : Prop := IsB ρ t ∧ bval ρ t = b

theorem and_append {c : Cfg} {ρ : Env} {l r : List Term} (hl : ∀ t ∈ l, IsB ρ t)
    (hr : ∀ t ∈ r, IsB ρ t) : BV ρ (mkAnd c (l ++ r)) (l.all (bval ρ) && r.all (bval ρ)) := by
  have := mkAnd_val c (ρ := ρ) (ts := l ++ r)
    (by intro t ht; exact (List.mem_append.1 ht).elim (hl t) (hr t))
  rw [List.all_append] at this
  exact ⟨⟨_, this⟩, bval_of this⟩

theorem any_map_and (f : Term → Bool) (b : Bool) (l : List Term) (g : Term → Term)
    (h : ∀ x ∈ l, f (g x) = (f x && b)) : (l.map g).any f = (l.any f && b) := by
  induction l with
  | nil => simp
  | cons x l ih =>
    simp only [List.map_cons, List.any_cons]
    rw [h x (by simp), ih fun y hy => h y (by simp [hy])]
    cases f x <;> cases b <;> simp

theorem distMerge_val {c : Cfg} {ρ : Env} {d : Term} {ands : List Term} (hd : IsB ρ d)
    (ho : isOr d = true) (ha : ∀ t ∈ ands, IsB ρ t) :
    BV ρ (distMerge c d ands) (bval ρ d && ands.all (bval ρ)) := by
  obtain ⟨h1, h2⟩ := isOr_val ho hd
  have h3 : ∀ x ∈ d.children, BV ρ (mkAnd c (conj x ++ ands)) (bval ρ x && ands.all (bval ρ)) := by
    intro x hx
    obtain ⟨h4, h5⟩ := conj_val (h1 x hx)
    rw [← h5]; exact and_append h4 ha
  have := mkOr_val c (ρ := ρ) (ts := d.children.map fun x => mkAnd c (conj x ++ ands)) (by
    intro t ht; obtain ⟨x, hx, rfl⟩ := List.mem_map.1 ht; exact (h3 x hx).1)
  rw [any_map_and (bval ρ) (ands.all (bval ρ)) _ _ fun x hx => (h3 x hx).2, h2] at this
  exact ⟨⟨_, this⟩, bval_of this⟩

theorem distProd_val {c : Cfg} {ρ : Env} {d o : Term} (hd : IsB ρ d) (ho : IsB ρ o)
    (hdo : isOr d = true) (hoo : isOr o = true) :
    BV ρ (distProd c d o) (bval ρ d && bval ρ o) := by
  obtain ⟨h1, h2⟩ := isOr_val hdo hd
  obtain ⟨g1, g2⟩ := isOr_val hoo ho
  have h3 : ∀ x ∈ d.children, ∀ y ∈ o.children,
      BV ρ (mkAnd c (conj x ++ conj y)) (bval ρ x && bval ρ y) := by
    intro x hx y hy
    obtain ⟨h4, h5⟩ := conj_val (h1 x hx)
    obtain ⟨h6, h7⟩ := conj_val (g1 y hy)
    rw [← h5, ← h7]; exact and_append h4 h6
  have := mkOr_val c (ρ := ρ)
    (ts := d.children.flatMap fun x => o.children.map fun y => mkAnd c (conj x ++ conj y)) (by
      intro t ht
      obtain ⟨x, hx, ht⟩ := List.mem_flatMap.1 ht
      obtain ⟨y, hy, rfl⟩ := List.mem_map.1 ht
      exact (h3 x hx y hy).1)
  have e : (d.children.flatMap fun x => o.children.map fun y => mkAnd c (conj x ++ conj y)).any
      (bval ρ) = (bval ρ d && bval ρ o) := by
    rw [← h2, ← g2, Bool.eq_iff_iff]
    simp only [List.any_eq_true, List.mem_flatMap, List.mem_map, Bool.and_eq_true]
    constructor
    · rintro ⟨_, ⟨x, hx, y, hy, rfl⟩, h⟩
      rw [(h3 x hx y hy).2, Bool.and_eq_true] at h
      exact ⟨⟨x, hx, h.1⟩, ⟨y, hy, h.2⟩⟩
    · rintro ⟨⟨x, hx, e1⟩, ⟨y, hy, e2⟩⟩
      exact ⟨_, ⟨x, hx, y, hy, rfl⟩, by rw [(h3 x hx y hy).2, e1, e2]; rfl⟩
  rw [e] at this
  exact ⟨⟨_, this⟩, bval_of this⟩

theorem distFold_val {c : Cfg} {ρ : Env} (ands : List Term) : ∀ (os : List Term) (d : Term),
    IsB ρ d → (∀ o ∈ os, IsB ρ o ∧ isOr o = true) → prodOK c ands d os = true →
    BV ρ (os.foldl (distProd c) d) (bval ρ d && os.all (bval ρ)) ∧
      (ands.isEmpty = true ∨ isOr (os.foldl (distProd c) d) = true) := by
  intro os
  induction os with
  | nil => intro d hd _ hp; simpa [BV, hd, prodOK] using hp
  | cons o os ih =>
    intro d hd ho hp
    simp only [prodOK, Bool.and_eq_true] at hp
    obtain ⟨h1, h2⟩ := distProd_val (c := c) hd (ho o (by simp)).1 hp.1 (ho o (by simp)).2
    obtain ⟨h3, h4⟩ := ih _ h1 (fun o h => ho o (by simp [h])) hp.2
    refine ⟨?_, h4⟩
    rw [h2] at h3
    simpa [Bool.and_assoc] using h3

theorem all_filter_split (f p : Term → Bool) (l : List Term) :
    ((l.filter p).all f && (l.filter fun t => !p t).all f) = l.all f := by
  induction l with
  | nil => rfl
  | cons x l ih =>
    simp only [List.filter_cons, List.all_cons, ← ih]
    cases h : p x <;> simp
    cases f x <;> simp
    cases f x <;> simp

theorem distrib_val (c : Cfg) (ρ : Env) : ∀ (n : Nat) (t : Term), t.size ≤ n → IsB ρ t →
    noCollapse c t = true → BV ρ (distrib c t) (bval ρ t) := by
  intro n
  induction n with
  | zero => intro t h; cases t <;> simp [size] at h
  | succ n ih =>
    intro t hn hB hc
    cases t with
    | app k s ts =>
      have hrefl : BV ρ (.app k s ts) (bval ρ (.app k s ts)) := ⟨hB, rfl⟩
      have hrec : (∀ t ∈ ts, IsB ρ t) → noCollapseL c ts = true →
          ∀ t ∈ ts, BV ρ (distrib c t) (bval ρ t) := by
        intro hk hl t ht
        have := size_child (k := k) (s := s) ht
        exact ih t (by omega) (hk t ht) ((noCollapseL_iff c ts).1 hl t ht)
      rw [distrib.eq_def]
      simp only
      split
      · exact hrefl
      · split
        · -- or
          obtain ⟨hk, hv⟩ := or_node hB
          have hr := hrec hk (by simpa [noCollapse] using hc)
          rw [distribL_map]
          have hex : ∀ t, IsB ρ t → (∀ u ∈ (if isOr t = true then t.children else [t]), IsB ρ u) ∧
              (if isOr t = true then t.children else [t]).any (bval ρ) = bval ρ t := by
            intro t ht
            split
            · rename_i h; exact isOr_val h ht
            · simpa using ht
          have := mkOr_val c (ρ := ρ) (ts := (ts.map (distrib c)).flatMap
              fun t => if isOr t = true then t.children else [t]) (by
            intro u hu
            obtain ⟨t', ht', hu⟩ := List.mem_flatMap.1 hu
            obtain ⟨t, ht, rfl⟩ := List.mem_map.1 ht'
            exact (hex _ (hr t ht).1).1 u hu)
          rw [show ((ts.map (distrib c)).flatMap
              fun t => if isOr t = true then t.children else [t]).any (bval ρ) = ts.any (bval ρ) by
            rw [List.any_flatMap, List.any_map, Bool.eq_iff_iff, List.any_eq_true, List.any_eq_true]
            refine exists_congr fun t => and_congr_right fun ht => ?_
            simp only [Function.comp]
            rw [(hex _ (hr t ht).1).2, (hr t ht).2], ← hv] at this
          exact ⟨⟨_, this⟩, bval_of this⟩
        · -- and
          obtain ⟨hk, hv⟩ := and_node hB
          simp only [noCollapse, Bool.and_eq_true] at hc
          obtain ⟨hc1, hc2⟩ := hc
          have hr := hrec hk hc1
          have hdB : ∀ t ∈ distribL c ts, IsB ρ t := by
            rw [distribL_map]; intro t ht; obtain ⟨u, hu, rfl⟩ := List.mem_map.1 ht
            exact (hr u hu).1
          have hall : (distribL c ts).all (bval ρ) = ts.all (bval ρ) := by
            rw [distribL_map, List.all_map, Bool.eq_iff_iff, List.all_eq_true, List.all_eq_true]
            exact forall_congr' fun t => imp_congr_right fun ht => by
              simp only [Function.comp]; rw [(hr t ht).2]
          have hsplit := all_filter_split (bval ρ) isOr (distribL c ts)
          rw [hall, ← hv] at hsplit
          generalize distribL c ts = D at *
          have hands : ∀ t ∈ D.filter (fun t => !isOr t), IsB ρ t :=
            fun t ht => hdB t (List.mem_filter.1 ht).1
          split
          · rename_i he
            rw [he] at hsplit
            simp only [List.all_nil, Bool.true_and] at hsplit
            have := mkAnd_val c hands
            rw [hsplit] at this
            exact ⟨⟨_, this⟩, bval_of this⟩
          · rename_i o os he
            rw [he] at hsplit hc2
            simp only at hc2
            have hos : ∀ x ∈ o :: os, IsB ρ x ∧ isOr x = true := by
              intro x hx; rw [← he] at hx; obtain ⟨h1, h2⟩ := List.mem_filter.1 hx
              exact ⟨hdB x h1, h2⟩
            obtain ⟨h1, h2⟩ := distFold_val (c := c) _ os o (hos o (by simp)).1
              (fun x hx => hos x (by simp [hx])) hc2
            rw [List.all_cons] at hsplit
            split
            · rename_i hem
              have : D.filter (fun t => !isOr t) = [] := by simpa using hem
              rw [this] at hsplit
              rw [← hsplit]; simpa using h1
            · rename_i hem
              have hor : isOr (os.foldl (distProd c) o) = true := by
                rcases h2 with h2 | h2
                · exact absurd h2 hem
                · exact h2
              have := distMerge_val (c := c) h1.1 hor hands
              rw [h1.2, hsplit] at this
              exact this
        · exact hrefl
    | _ => exact ⟨by simpa [distrib] using hB, by simp [distrib]⟩

theorem flat_cases {t : Term} (h : flat t = true) : isCubeTree t = true := by
  unfold isCubeTree; split
  · simp [flat] at h
  · exact h

/-! ### shape -/

/-- a formula below the top disjunction -/
def CT (t : Term) : Prop := isNNF t = true ∧ isCubeTree t = true

theorem CT_mkAnd (c : Cfg) (ts : List Term) (h : ∀ t ∈ ts, CT t) : CT (mkAnd c ts) := by
  refine ⟨isNNF_mkAnd c ts fun t ht => (h t ht).1, ?_⟩
  rcases mkAnd_cases c ts with h1 | h1 | h1 | h1 | ⟨l, h1, h2, _, h3⟩
  · rw [h1]; rfl
  · rw [h1]; rfl
  · rw [h1]; rfl
  · exact (h _ h1).2
  · rw [h1]; simp only [isCubeTree, isCubeTreeL_iff]
    exact fun t ht => (h t (h3 t ht).1).2

theorem isDNFTree_of_cube {t : Term} (h : isCubeTree t = true) : isDNFTree t = true := by
  unfold isDNFTree; split
  · simp [isCubeTree, flat] at h
  · exact h

/-- negation normal form with disjunctions at the top only -/
def DT (t : Term) : Prop := isNNF t = true ∧ isDNFTree t = true

theorem DT_mkOr (c : Cfg) (ts : List Term) (h : ∀ t ∈ ts, CT t) : DT (mkOr c ts) := by
  refine ⟨isNNF_mkOr c ts fun t ht => (h t ht).1, ?_⟩
  rcases mkOr_cases c ts with h1 | h1 | h1 | h1 | ⟨l, h1, h2, _, h3⟩
  · rw [h1]; rfl
  · rw [h1]; rfl
  · rw [h1]; rfl
  · exact isDNFTree_of_cube (h _ h1).2
  · rw [h1]; simp only [isDNFTree, List.all_eq_true]
    exact fun t ht => (h t (h3 t ht).1).2

theorem DT_or {t : Term} (ho : isOr t = true) (h : DT t) : ∀ u ∈ t.children, CT u := by
  unfold isOr at ho
  split at ho
  · obtain ⟨h1, h2⟩ := h
    simp only [isNNF, isNNFL_iff] at h1
    simp only [isDNFTree, List.all_eq_true] at h2
    exact fun u hu => ⟨h1 u hu, h2 u hu⟩
  · cases ho

theorem DT_nor {t : Term} (ho : isOr t = false) (h : DT t) : CT t := by
  refine ⟨h.1, ?_⟩
  have h2 := h.2
  unfold isDNFTree at h2
  split at h2
  · simp [isOr] at ho
  · exact h2

theorem CT_conj {t : Term} (h : CT t) : ∀ u ∈ conj t, CT u := by
  unfold conj
  split
  · rename_i hA
    unfold isAnd at hA
    split at hA
    · obtain ⟨h1, h2⟩ := h
      simp only [isNNF, isNNFL_iff] at h1
      simp only [isCubeTree, isCubeTreeL_iff] at h2
      exact fun u hu => ⟨h1 u hu, h2 u hu⟩
    · cases hA
  · simpa using h

theorem DT_distProd {c : Cfg} {d o : Term} (hd : ∀ u ∈ d.children, CT u)
    (ho : ∀ u ∈ o.children, CT u) : DT (distProd c d o) := by
  refine DT_mkOr c _ fun t ht => ?_
  obtain ⟨x, hx, ht⟩ := List.mem_flatMap.1 ht
  obtain ⟨y, hy, rfl⟩ := List.mem_map.1 ht
  refine CT_mkAnd c _ fun u hu => ?_
  rcases List.mem_append.1 hu with h | h
  · exact CT_conj (hd x hx) u h
  · exact CT_conj (ho y hy) u h

theorem DT_fold {c : Cfg} (ands : List Term) : ∀ (os : List Term) (d : Term), DT d →
    (∀ o ∈ os, DT o ∧ isOr o = true) → prodOK c ands d os = true →
    DT (os.foldl (distProd c) d) ∧
      (ands.isEmpty = true ∨ isOr (os.foldl (distProd c) d) = true) := by
  intro os
  induction os with
  | nil => intro d hd _ hp; simpa [hd, prodOK] using hp
  | cons o os ih =>
    intro d hd ho hp
    simp only [prodOK, Bool.and_eq_true] at hp
    obtain ⟨o1, o2⟩ := ho o (by simp)
    exact ih _ (DT_distProd (DT_or hp.1 hd) (DT_or o2 o1)) (fun o h => ho o (by simp [h])) hp.2

theorem distrib_shape (c : Cfg) : ∀ (n : Nat) (t : Term), t.size ≤ n → isNNF t = true →
    noCollapse c t = true → DT (distrib c t) := by
  intro n
  induction n with
  | zero => intro t h; cases t <;> simp [size] at h
  | succ n ih =>
    intro t hn hB hc
    have hflat : flat t = true → DT t := fun h => ⟨hB, isDNFTree_of_cube (flat_cases h)⟩
    cases t with
    | app k s ts =>
      have hrec : isNNFL ts = true → noCollapseL c ts = true → ∀ t ∈ ts, DT (distrib c t) := by
        intro hk hl t ht
        have := size_child (k := k) (s := s) ht
        exact ih t (by omega) ((isNNFL_iff ts).1 hk t ht) ((noCollapseL_iff c ts).1 hl t ht)
      rw [distrib.eq_def]
      simp only
      split
      · rename_i hla
        refine hflat ?_
        cases k <;> simp [flat]
        all_goals simp [isLiteral, isVBool, isCBool, isAtom, Term.isTrue, Term.isFalse] at hla
      · split
        · -- or
          have hr := hrec (by simpa [isNNF] using hB) (by simpa [noCollapse] using hc)
          rw [distribL_map]
          refine DT_mkOr c _ fun u hu => ?_
          obtain ⟨t', ht', hu⟩ := List.mem_flatMap.1 hu
          obtain ⟨t, ht, rfl⟩ := List.mem_map.1 ht'
          split at hu
          · rename_i ho; exact DT_or ho (hr t ht) u hu
          · rename_i ho; simp at hu; subst hu; exact DT_nor (by simpa using ho) (hr t ht)
        · -- and
          simp only [noCollapse, Bool.and_eq_true] at hc
          obtain ⟨hc1, hc2⟩ := hc
          have hr := hrec (by simpa [isNNF] using hB) hc1
          have hdB : ∀ t ∈ distribL c ts, DT t := by
            rw [distribL_map]; intro t ht; obtain ⟨u, hu, rfl⟩ := List.mem_map.1 ht
            exact hr u hu
          generalize distribL c ts = D at *
          have hands : ∀ t ∈ D.filter (fun t => !isOr t), CT t := by
            intro t ht
            obtain ⟨h1, h2⟩ := List.mem_filter.1 ht
            exact DT_nor (by simpa using h2) (hdB t h1)
          split
          · have := CT_mkAnd c _ hands
            exact ⟨this.1, isDNFTree_of_cube this.2⟩
          · rename_i o os he
            rw [he] at hc2
            simp only at hc2
            have hos : ∀ x ∈ o :: os, DT x ∧ isOr x = true := by
              intro x hx; rw [← he] at hx; obtain ⟨h1, h2⟩ := List.mem_filter.1 hx
              exact ⟨hdB x h1, h2⟩
            obtain ⟨h1, h2⟩ := DT_fold (c := c) _ os o (hos o (by simp)).1
              (fun x hx => hos x (by simp [hx])) hc2
            split
            · exact h1
            · rename_i hem
              have hor : isOr (os.foldl (distProd c) o) = true := by
                rcases h2 with h2 | h2
                · exact absurd h2 hem
                · exact h2
              refine DT_mkOr c _ fun t ht => ?_
              obtain ⟨x, hx, rfl⟩ := List.mem_map.1 ht
              refine CT_mkAnd c _ fun u hu => ?_
              rcases List.mem_append.1 hu with h | h
              · exact CT_conj (DT_or hor h1 x hx) u h
              · exact hands u h
        · rename_i h1 h2
          refine hflat ?_
          cases k <;> simp_all [flat]
    | _ => exact (by simpa [distrib] using hflat (by simp [flat]))

/-! ### flattening -/

theorem flatEach_map (c : Cfg) (ts : List Term) : flatEach c ts = ts.map (flattenDNF c) := by
  induction ts with
  | nil => rfl
  | cons t ts ih => simp [flatEach, ih]

theorem flatOr_eq (c : Cfg) (ts : List Term) :
    flatOr c ts = ts.flatMap fun t => if isOr t then t.children.map (flattenDNF c)
      else [flattenDNF c t] := by
  induction ts with
  | nil => simp [flatOr]
  | cons t ts ih =>
    rw [flatOr.eq_def]
    split
    · simp_all
    · rename_i h; simp only [List.cons.injEq] at h; obtain ⟨rfl, rfl⟩ := h
      simp [flatEach_map, ih, isOr, children]
    · rename_i hno h; simp only [List.cons.injEq] at h; obtain ⟨rfl, rfl⟩ := h
      have : isOr t = false := by
        unfold isOr; split
        · exact absurd rfl (hno _ _)
        · rfl
      simp [ih, this]

theorem flatAnd_eq (c : Cfg) (ts : List Term) :
    flatAnd c ts = ts.flatMap fun t => if isAnd t then t.children.map (flattenDNF c)
      else [flattenDNF c t] := by
  induction ts with
  | nil => simp [flatAnd]
  | cons t ts ih =>
    rw [flatAnd.eq_def]
    split
    · simp_all
    · rename_i h; simp only [List.cons.injEq] at h; obtain ⟨rfl, rfl⟩ := h
      simp [flatEach_map, ih, isAnd, children]
    · rename_i hno h; simp only [List.cons.injEq] at h; obtain ⟨rfl, rfl⟩ := h
      have : isAnd t = false := by
        unfold isAnd; split
        · exact absurd rfl (hno _ _)
        · rfl
      simp [ih, this]

theorem dedup_any (f : Term → Bool) (l : List Term) : (dedup l).any f = l.any f := by
  rw [Bool.eq_iff_iff]; simp [List.any_eq_true, mem_dedup]

theorem dedup_all (f : Term → Bool) (l : List Term) : (dedup l).all f = l.all f := by
  rw [Bool.eq_iff_iff]; simp [List.all_eq_true, mem_dedup]

theorem size_child2 {t u : Term} {ts : List Term} (h : t ∈ ts) (hu : u ∈ t.children) :
    u.size < sizeL ts + 1 := by
  have h1 := size_mem h
  cases t with
  | app k s l => simp only [children] at hu; have := size_child (k := k) (s := s) hu; omega
  | _ => simp [children] at hu

theorem flattenDNF_val (c : Cfg) (ρ : Env) : ∀ (n : Nat) (t : Term), t.size ≤ n → IsB ρ t →
    BV ρ (flattenDNF c t) (bval ρ t) := by
  intro n
  induction n with
  | zero => intro t h; cases t <;> simp [size] at h
  | succ n ih =>
    intro t hn hB
    rw [flattenDNF.eq_def]
    split
    · rename_i s ts
      obtain ⟨hk, hv⟩ := or_node hB
      have hsz : sizeL ts ≤ n := by simp [size] at hn; omega
      have h1 : (∀ u ∈ flatOr c ts, IsB ρ u) ∧ (flatOr c ts).any (bval ρ) = ts.any (bval ρ) := by
        have hone : ∀ t ∈ ts, (∀ u ∈ (if isOr t then t.children.map (flattenDNF c)
            else [flattenDNF c t]), IsB ρ u) ∧ (if isOr t then t.children.map (flattenDNF c)
            else [flattenDNF c t]).any (bval ρ) = bval ρ t := by
          intro t ht
          split
          · rename_i ho
            obtain ⟨a1, a2⟩ := isOr_val ho (hk t ht)
            have hh : ∀ u ∈ t.children, BV ρ (flattenDNF c u) (bval ρ u) := fun u hu =>
              ih u (by have := size_child2 ht hu; omega) (a1 u hu)
            refine ⟨?_, ?_⟩
            · intro u hu; obtain ⟨w, hw, rfl⟩ := List.mem_map.1 hu; exact (hh w hw).1
            · rw [← a2, List.any_map, Bool.eq_iff_iff, List.any_eq_true, List.any_eq_true]
              exact exists_congr fun t => and_congr_right fun ht => by
                simp only [Function.comp]; rw [(hh t ht).2]
          · have := ih t (by have := size_mem ht; omega) (hk t ht)
            simpa [BV] using this
        rw [flatOr_eq]
        refine ⟨?_, ?_⟩
        · intro u hu; obtain ⟨t, ht, hu⟩ := List.mem_flatMap.1 hu; exact (hone t ht).1 u hu
        · rw [List.any_flatMap, Bool.eq_iff_iff, List.any_eq_true, List.any_eq_true]
          exact exists_congr fun t => and_congr_right fun ht => by rw [(hone t ht).2]
      have h2 : ∀ u ∈ dedup (flatOr c ts), IsB ρ u := fun u hu => h1.1 u ((mem_dedup _ _).1 hu)
      have h3 : (dedup (flatOr c ts)).any (bval ρ) = bval ρ (.app .or s ts) := by
        rw [dedup_any, h1.2, hv]
      split
      · rename_i p hp
        rw [hp] at h2 h3
        exact ⟨h2 p (by simp), by simpa using h3⟩
      · have := mkOr_val c h2
        rw [h3] at this
        exact ⟨⟨_, this⟩, bval_of this⟩
    · rename_i s ts
      obtain ⟨hk, hv⟩ := and_node hB
      have hsz : sizeL ts ≤ n := by simp [size] at hn; omega
      have h1 : (∀ u ∈ flatAnd c ts, IsB ρ u) ∧ (flatAnd c ts).all (bval ρ) = ts.all (bval ρ) := by
        have hone : ∀ t ∈ ts, (∀ u ∈ (if isAnd t then t.children.map (flattenDNF c)
            else [flattenDNF c t]), IsB ρ u) ∧ (if isAnd t then t.children.map (flattenDNF c)
            else [flattenDNF c t]).all (bval ρ) = bval ρ t := by
          intro t ht
          split
          · rename_i ho
            have hcj := conj_val (hk t ht)
            rw [conj, if_pos ho] at hcj
            obtain ⟨a1, a2⟩ := hcj
            have hh : ∀ u ∈ t.children, BV ρ (flattenDNF c u) (bval ρ u) := fun u hu =>
              ih u (by have := size_child2 ht hu; omega) (a1 u hu)
            refine ⟨?_, ?_⟩
            · intro u hu; obtain ⟨w, hw, rfl⟩ := List.mem_map.1 hu; exact (hh w hw).1
            · rw [← a2, List.all_map, Bool.eq_iff_iff, List.all_eq_true, List.all_eq_true]
              exact forall_congr' fun t => imp_congr_right fun ht => by
                simp only [Function.comp]; rw [(hh t ht).2]
          · have := ih t (by have := size_mem ht; omega) (hk t ht)
            simpa [BV] using this
        rw [flatAnd_eq]
        refine ⟨?_, ?_⟩
        · intro u hu; obtain ⟨t, ht, hu⟩ := List.mem_flatMap.1 hu; exact (hone t ht).1 u hu
        · rw [List.all_flatMap, Bool.eq_iff_iff, List.all_eq_true, List.all_eq_true]
          exact forall_congr' fun t => imp_congr_right fun ht => by rw [(hone t ht).2]
      have h2 : ∀ u ∈ dedup (flatAnd c ts), IsB ρ u := fun u hu => h1.1 u ((mem_dedup _ _).1 hu)
      have h3 : (dedup (flatAnd c ts)).all (bval ρ) = bval ρ (.app .and s ts) := by
        rw [dedup_all, h1.2, hv]
      split
      · rename_i p hp
        rw [hp] at h2 h3
        exact ⟨h2 p (by simp), by simpa using h3⟩
      · have := mkAnd_val c h2
        rw [h3] at this
        exact ⟨⟨_, this⟩, bval_of this⟩
    · exact ⟨hB, rfl⟩

theorem flatten_cube (c : Cfg) : ∀ (n : Nat) (t : Term), t.size ≤ n → CT t →
    CT (flattenDNF c t) := by
  intro n
  induction n with
  | zero => intro t h; cases t <;> simp [size] at h
  | succ n ih =>
    intro t hn h
    rw [flattenDNF.eq_def]
    split
    · have := h.2; simp [isCubeTree, flat] at this
    · rename_i s ts
      have hk : ∀ t ∈ ts, CT t := by
        have := CT_conj h; simpa [conj, isAnd, children] using this
      have hsz : sizeL ts ≤ n := by simp [size] at hn; omega
      have h1 : ∀ u ∈ dedup (flatAnd c ts), CT u := by
        intro u hu
        rw [mem_dedup, flatAnd_eq] at hu
        obtain ⟨t, ht, hu⟩ := List.mem_flatMap.1 hu
        split at hu
        · rename_i ha
          obtain ⟨w, hw, rfl⟩ := List.mem_map.1 hu
          refine ih w (by have := size_child2 ht hw; omega) ?_
          exact CT_conj (hk t ht) w (by rw [conj, if_pos ha]; exact hw)
        · simp at hu; subst hu
          exact ih t (by have := size_mem ht; omega) (hk t ht)
      split
      · rename_i p hp; rw [hp] at h1; exact h1 p (by simp)
      · exact CT_mkAnd c _ h1
    · exact h

theorem flatten_shape (c : Cfg) (t : Term) (h : DT t) : DT (flattenDNF c t) := by
  cases ho : isOr t with
  | false =>
    have := flatten_cube c _ t (Nat.le_refl _) (DT_nor ho h)
    exact ⟨this.1, isDNFTree_of_cube this.2⟩
  | true =>
    have hk := DT_or ho h
    unfold isOr at ho
    split at ho
    · rename_i s ts
      simp only [children] at hk
      rw [flattenDNF]
      have h1 : ∀ u ∈ dedup (flatOr c ts), CT u := by
        intro u hu
        rw [mem_dedup, flatOr_eq] at hu
        obtain ⟨t, ht, hu⟩ := List.mem_flatMap.1 hu
        split at hu
        · rename_i ha
          have := (hk t ht).2
          unfold isOr at ha
          split at ha
          · simp [isCubeTree, flat] at this
          · cases ha
        · simp at hu; subst hu
          exact flatten_cube c _ t (Nat.le_refl _) (hk t ht)
      split
      · rename_i p hp; rw [hp] at h1
        have := h1 p (by simp)
        exact ⟨this.1, isDNFTree_of_cube this.2⟩
      · exact DT_mkOr c _ h1
    · cases ho

end SMT
