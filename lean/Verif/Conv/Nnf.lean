import Verif.Conv.Shape
/-!
# C28: negation normal form
-/
namespace SMT

open Term

theorem isNNFL_iff (ts : List Term) : isNNFL ts = true ↔ ∀ t ∈ ts, isNNF t = true := by
  induction ts with
  | nil => simp [isNNFL]
  | cons t ts ih => simp [isNNFL, ih]

theorem binaryL_iff (ts : List Term) : binaryL ts = true ↔ ∀ t ∈ ts, binary t = true := by
  induction ts with
  | nil => simp [binaryL]
  | cons t ts ih => simp [binaryL, ih]

theorem binary_top {t : Term} (h : binary t = true) : negBin t = true := by
  unfold binary at h
  split at h
  all_goals first | exact h | simp [negBin]

theorem nnfL_map (c : Cfg) (neg : Bool) (ts : List Term) : nnfL c neg ts = ts.map (nnf c neg) := by
  induction ts with
  | nil => simp [nnfL]
  | cons t ts ih => simp [nnfL, ih]

theorem all_map_not (ρ : Env) (f : Term → Term) (ts : List Term) (neg : Bool)
    (h : ∀ t ∈ ts, eval ρ (f t) = some (.b (neg ^^ bval ρ t))) :
    (∀ u ∈ ts.map f, IsB ρ u) ∧
      (ts.map f).all (bval ρ) = ts.all (fun t => neg ^^ bval ρ t) ∧
      (ts.map f).any (bval ρ) = ts.any (fun t => neg ^^ bval ρ t) := by
  refine ⟨?_, ?_, ?_⟩
  · intro u hu
    obtain ⟨t, ht, rfl⟩ := List.mem_map.1 hu
    exact ⟨_, h t ht⟩
  · rw [Bool.eq_iff_iff]; simp only [List.all_map, List.all_eq_true]
    exact forall_congr' fun t => forall_congr' fun ht => by
      simp only [Function.comp]; rw [bval_of (h t ht)]
  · rw [Bool.eq_iff_iff]; simp only [List.any_map, List.any_eq_true]
    exact exists_congr fun t => and_congr_right fun ht => by
      simp only [Function.comp]; rw [bval_of (h t ht)]

theorem nnf_val (c : Cfg) (ρ : Env) : ∀ (n : Nat) (t : Term) (neg : Bool), t.size ≤ n →
    DFit c t → binary t = true → IsB ρ t →
    eval ρ (nnf c neg t) = some (.b (neg ^^ bval ρ t)) := by
  intro n
  induction n with
  | zero => intro t _ h; cases t <;> simp [size] at h
  | succ n ih =>
    intro t neg hn hf hb h
    have leaf : eval ρ (if neg then mkNot c t else t) = some (.b (neg ^^ bval ρ t)) := by
      cases neg
      · simp [h.eval]
      · simp [mkNot_val c ρ t hf (binary_top hb) h]
    have hrec : ∀ (k : Kind) (s : Srt) (ts : List Term), t = .app k s ts → binaryL ts = true →
        ∀ u ∈ ts, IsB ρ u → ∀ m, eval ρ (nnf c m u) = some (.b (m ^^ bval ρ u)) := by
      rintro k s ts rfl hl u hu hB m
      have := size_child (k := k) (s := s) hu
      exact ih u m (by omega) (hf.child hu) ((binaryL_iff ts).1 hl u hu) hB
    unfold nnf
    split
    · rename_i s u us
      obtain ⟨v, hv, h1, h2⟩ := not_child h
      simp at hv; obtain ⟨rfl, rfl⟩ := hv
      rw [hrec _ _ _ rfl (by simpa [binary] using hb) u (by simp) h1, h2]
      cases neg <;> simp
    · rename_i s ts
      obtain ⟨h1, h2⟩ := and_node h
      have h3 := all_map_not ρ (nnf c neg) ts neg
        fun u hu => hrec _ _ _ rfl (by simpa [binary] using hb) u hu (h1 u hu) neg
      rw [nnfL_map, h2]
      cases neg
      · simp only [Bool.false_eq_true, if_false]
        rw [mkAnd_val c h3.1, h3.2.1]; simp
      · simp only [if_true]
        rw [mkOr_val c h3.1, h3.2.2]; simp [List.not_all_eq_any_not]
    · rename_i s ts
      obtain ⟨h1, h2⟩ := or_node h
      have h3 := all_map_not ρ (nnf c neg) ts neg
        fun u hu => hrec _ _ _ rfl (by simpa [binary] using hb) u hu (h1 u hu) neg
      rw [nnfL_map, h2]
      cases neg
      · simp only [Bool.false_eq_true, if_false]
        rw [mkOr_val c h3.1, h3.2.2]; simp
      · simp only [if_true]
        rw [mkAnd_val c h3.1, h3.2.1]; simp [List.not_any_eq_all_not]
    · rename_i s a b l
      simp only [binary, Bool.and_eq_true, beq_iff_eq] at hb
      have hl : l = [] := by cases l <;> simp_all
      subst hl
      obtain ⟨h1, h2, h3⟩ := implies_node2 h
      have ra := hrec _ _ _ rfl hb.2 a (by simp) h1
      have rb := hrec _ _ _ rfl hb.2 b (by simp) h2
      rw [h3]
      cases neg
      · simp only [Bool.false_eq_true, if_false]
        rw [mkOr_val]
        · simp [bval_of (ra true), bval_of (rb false)]
        · intro u hu; simp at hu; rcases hu with rfl | rfl
          · exact ⟨_, ra true⟩
          · exact ⟨_, rb false⟩
      · simp only [if_true]
        rw [mkAnd_val]
        · simp [bval_of (ra false), bval_of (rb true)]
        · intro u hu; simp at hu; rcases hu with rfl | rfl
          · exact ⟨_, ra false⟩
          · exact ⟨_, rb true⟩
    · rename_i s a b d l
      obtain ⟨a', b', d', he, h1, h2, h3, h4⟩ := ite_node h
      simp only [List.cons.injEq] at he
      obtain ⟨rfl, rfl, rfl, rfl⟩ := he
      have hb : binaryL [a, b, d] = true := by simpa [binary] using hb
      have ra := hrec _ _ _ rfl hb a (by simp) h1
      have rb := hrec _ _ _ rfl hb b (by simp) h2
      have rd := hrec _ _ _ rfl hb d (by simp) h3
      rw [if_pos (by simp [h2.sort]), h4]
      have e1 : eval ρ (mkAnd c [nnf c false a, nnf c neg b]) =
          some (.b (bval ρ a && (neg ^^ bval ρ b))) := by
        rw [mkAnd_val]
        · simp [bval_of (ra false), bval_of (rb neg)]
        · intro u hu; simp at hu; rcases hu with rfl | rfl
          · exact ⟨_, ra false⟩
          · exact ⟨_, rb neg⟩
      have e2 : eval ρ (mkAnd c [nnf c true a, nnf c neg d]) =
          some (.b (!bval ρ a && (neg ^^ bval ρ d))) := by
        rw [mkAnd_val]
        · simp [bval_of (ra true), bval_of (rd neg)]
        · intro u hu; simp at hu; rcases hu with rfl | rfl
          · exact ⟨_, ra true⟩
          · exact ⟨_, rd neg⟩
      rw [mkOr_val]
      · simp only [List.any_cons, List.any_nil, bval_of e1, bval_of e2]
        cases bval ρ a <;> simp
      · intro u hu; simp at hu; rcases hu with rfl | rfl
        · exact ⟨_, e1⟩
        · exact ⟨_, e2⟩
    · exact leaf

/-! ### shape -/

theorem isNNF_mkAnd (c : Cfg) (ts : List Term) (h : ∀ t ∈ ts, isNNF t = true) :
    isNNF (mkAnd c ts) = true := by
  rcases mkAnd_cases c ts with h1 | h1 | h1 | h1 | ⟨l, h1, _, _, h2⟩
  · simp [h1, isNNF]
  · simp [h1, isNNF]
  · simp [h1, isNNF, isConnective, isBIte]
  · exact h _ h1
  · rw [h1]; simp only [isNNF, isNNFL_iff]
    exact fun t ht => h t (h2 t ht).1

theorem isNNF_mkOr (c : Cfg) (ts : List Term) (h : ∀ t ∈ ts, isNNF t = true) :
    isNNF (mkOr c ts) = true := by
  rcases mkOr_cases c ts with h1 | h1 | h1 | h1 | ⟨l, h1, _, _, h2⟩
  · simp [h1, isNNF]
  · simp [h1, isNNF]
  · simp [h1, isNNF, isConnective, isBIte]
  · exact h _ h1
  · rw [h1]; simp only [isNNF, isNNFL_iff]
    exact fun t ht => h t (h2 t ht).1

theorem isNNF_leaf {t : Term} (h : isConnective t = false) : isNNF t = true := by
  unfold isNNF
  split <;> first | rfl | simp_all [isConnective]

theorem nnf_shape (c : Cfg) (ρ : Env) : ∀ (n : Nat) (t : Term) (neg : Bool), t.size ≤ n →
    binary t = true → IsB ρ t → isNNF (nnf c neg t) = true := by
  intro n
  induction n with
  | zero => intro t _ h; cases t <;> simp [size] at h
  | succ n ih =>
    intro t neg hn hb h
    have hrec : ∀ (k : Kind) (s : Srt) (ts : List Term), t = .app k s ts → binaryL ts = true →
        ∀ u ∈ ts, IsB ρ u → ∀ m, isNNF (nnf c m u) = true := by
      rintro k s ts rfl hl u hu hB m
      have := size_child (k := k) (s := s) hu
      exact ih u m (by omega) ((binaryL_iff ts).1 hl u hu) hB
    unfold nnf
    split
    · rename_i s u us
      obtain ⟨v, hv, h1, h2⟩ := not_child h
      simp at hv; obtain ⟨rfl, rfl⟩ := hv
      exact hrec _ _ _ rfl (by simpa [binary] using hb) u (by simp) h1 _
    · rename_i s ts
      obtain ⟨h1, h2⟩ := and_node h
      have h3 : ∀ u ∈ nnfL c neg ts, isNNF u = true := by
        rw [nnfL_map]; intro u hu
        obtain ⟨v, hv, rfl⟩ := List.mem_map.1 hu
        exact hrec _ _ _ rfl (by simpa [binary] using hb) v hv (h1 v hv) neg
      split
      · exact isNNF_mkOr c _ h3
      · exact isNNF_mkAnd c _ h3
    · rename_i s ts
      obtain ⟨h1, h2⟩ := or_node h
      have h3 : ∀ u ∈ nnfL c neg ts, isNNF u = true := by
        rw [nnfL_map]; intro u hu
        obtain ⟨v, hv, rfl⟩ := List.mem_map.1 hu
        exact hrec _ _ _ rfl (by simpa [binary] using hb) v hv (h1 v hv) neg
      split
      · exact isNNF_mkAnd c _ h3
      · exact isNNF_mkOr c _ h3
    · rename_i s a b l
      simp only [binary, Bool.and_eq_true, beq_iff_eq] at hb
      have hl : l = [] := by cases l <;> simp_all
      subst hl
      obtain ⟨h1, h2, h3⟩ := implies_node2 h
      have ra := hrec _ _ _ rfl hb.2 a (by simp) h1
      have rb := hrec _ _ _ rfl hb.2 b (by simp) h2
      split
      · refine isNNF_mkAnd c _ ?_
        intro u hu; simp at hu; rcases hu with rfl | rfl
        · exact ra _
        · exact rb _
      · refine isNNF_mkOr c _ ?_
        intro u hu; simp at hu; rcases hu with rfl | rfl
        · exact ra _
        · exact rb _
    · rename_i s a b d l
      obtain ⟨a', b', d', he, h1, h2, h3, h4⟩ := ite_node h
      simp only [List.cons.injEq] at he
      obtain ⟨rfl, rfl, rfl, rfl⟩ := he
      have hb : binaryL [a, b, d] = true := by simpa [binary] using hb
      have ra := hrec _ _ _ rfl hb a (by simp) h1
      have rb := hrec _ _ _ rfl hb b (by simp) h2
      have rd := hrec _ _ _ rfl hb d (by simp) h3
      rw [if_pos (by simp [h2.sort])]
      refine isNNF_mkOr c _ ?_
      intro u hu; simp at hu; rcases hu with rfl | rfl
      · refine isNNF_mkAnd c _ ?_
        intro u hu; simp at hu; rcases hu with rfl | rfl
        · exact ra _
        · exact rb _
      · refine isNNF_mkAnd c _ ?_
        intro u hu; simp at hu; rcases hu with rfl | rfl
        · exact ra _
        · exact rd _
    · rename_i x1 x2 x3 x4 x5
      by_cases hc : isConnective t = true
      · -- only the constants are left
        have : t = .tt ∨ t = .ff := by
          unfold isConnective at hc
          split at hc
          · simp
          · simp
          · rename_i s ts
            obtain ⟨v, rfl, _⟩ := not_child h
            exact absurd rfl (x1 s v [])
          · rename_i s ts; exact absurd rfl (x2 s ts)
          · rename_i s ts; exact absurd rfl (x3 s ts)
          · rename_i s a b l; exact absurd rfl (x4 s a b l)
          · unfold isBIte at hc
            split at hc
            · exact absurd rfl (x5 _ _ _ _ _)
            · cases hc
        rcases this with rfl | rfl <;> cases neg <;> simp [isNNF, mkNot, Term.sort]
      · have hc : isConnective t = false := by simpa using hc
        cases neg
        · simp only [Bool.false_eq_true, if_false]; exact isNNF_leaf hc
        · simp only [if_true]
          rcases mkNot_leaf c ρ t h (binary_top hb) hc with h1 | h1 | h1 | h1
          · simp [h1, isNNF]
          · simp [h1, isNNF]
          · exact isNNF_leaf h1
          · simp [h1, isNNF, hc]

end SMT
