import Verif.Conv.Walk
import Verif.Conv.PropsReplace
/-!
# C33, C34, C51: splitting and binarising comparisons, flattening assertions, removing nodes
-/
set_option linter.unusedSimpArgs false

namespace SMT.Conv

open Term

/-! ### C34: flattening -/

theorem sizeL_erase {a : Term} {l : List Term} (h : a ∈ l) : sizeL (l.erase a) + a.size = sizeL l := by
  induction l with
  | nil => cases h
  | cons b l ih =>
    by_cases e : b = a
    · subst e; simp [List.erase_cons_head, sizeL]; omega
    · have := ih (by simpa [Ne.symm e] using h)
      rw [List.erase_cons_tail (by simpa using e)]
      simp only [sizeL]; omega

theorem sizeL_sub : ∀ (l ts : List Term), l.Nodup → (∀ t ∈ l, t ∈ ts) → sizeL l ≤ sizeL ts := by
  intro l
  induction l with
  | nil => intro ts _ _; simp [sizeL]
  | cons a l ih =>
    intro ts hn h
    have ha : a ∈ ts := h a (by simp)
    have h1 := ih (ts.erase a) (List.nodup_cons.1 hn).2 (fun t ht => by
      have hne : t ≠ a := by rintro rfl; exact (List.nodup_cons.1 hn).1 ht
      exact (List.mem_erase_of_ne hne).2 (h t (by simp [ht])))
    have := sizeL_erase ha
    simp only [sizeL]; omega

theorem size_pos (t : Term) : 0 < t.size := by cases t <;> simp [size] <;> omega

theorem mkOr_size (c : Cfg) (ts : List Term) : (mkOr c ts).size ≤ 1 + sizeL ts := by
  rcases mkOr_cases c ts with h | h | h | h | ⟨l, h, _, h2, h3⟩
  · rw [h]; simp [size]
  · rw [h]; simp [size]
  · rw [h]; simp [size]
  · have := sizeL_erase h; omega
  · rw [h]; have := sizeL_sub l ts h2 fun t ht => (h3 t ht).1
    simp only [size]; omega

theorem drainAnd_size (ts : List Term) : sizeL (drainAnd ts) ≤ sizeL ts := by
  fun_induction drainAnd ts with
  | case1 => simp [sizeL]
  | case2 st s ts ih =>
    simp only [sizeL_append, sizeL_reverse, sizeL, size] at ih ⊢; omega
  | case3 st t _ ih => simp only [sizeL]; omega

theorem drainAnd_flat (ts : List Term) : ∀ t ∈ drainAnd ts, isAnd t = false := by
  fun_induction drainAnd ts with
  | case1 => simp
  | case2 st s ts ih => exact ih
  | case3 st t h ih =>
    intro u hu; simp only [List.mem_cons] at hu
    rcases hu with rfl | hu
    · unfold isAnd; split
      · exact absurd rfl (h _ _)
      · rfl
    · exact ih u hu

theorem drainAnd_val {ρ : Env} (ts : List Term) (h : ∀ t ∈ ts, IsB ρ t) :
    (∀ t ∈ drainAnd ts, IsB ρ t) ∧ (drainAnd ts).all (bval ρ) = ts.all (bval ρ) := by
  fun_induction drainAnd ts with
  | case1 => simp
  | case2 st s ts ih =>
    have h1 := and_node (h _ List.mem_cons_self)
    obtain ⟨i1, i2⟩ := ih (by
      intro t ht; simp only [List.mem_append, List.mem_reverse] at ht
      rcases ht with ht | ht
      · exact h1.1 t ht
      · exact h t (by simp [ht]))
    refine ⟨i1, ?_⟩
    rw [i2]
    simp only [List.all_append, List.all_reverse, List.all_cons, h1.2]
  | case3 st t _ ih =>
    obtain ⟨i1, i2⟩ := ih (fun u hu => h u (by simp [hu]))
    refine ⟨?_, by simp only [List.all_cons, i2]⟩
    intro u hu; simp only [List.mem_cons] at hu
    rcases hu with rfl | hu
    · exact h _ (by simp)
    · exact i1 u hu

theorem drainOr_size (ts : List Term) (ch : Bool) : sizeL (drainOr ts ch).1 ≤ sizeL ts ∧
    ((drainOr ts ch).2 = true → ch = false → sizeL (drainOr ts ch).1 < sizeL ts) := by
  fun_induction drainOr ts ch with
  | case1 ch => simp [sizeL]
  | case2 ch st s ts ih =>
    simp only [sizeL_append, sizeL_reverse, sizeL, size] at ih ⊢
    refine ⟨by omega, fun _ _ => by omega⟩
  | case3 ch st t _ p ih =>
    simp only [sizeL]
    have e : p = drainOr ch st := rfl
    rw [← e] at ih
    refine ⟨by omega, fun h1 h2 => ?_⟩
    have := ih.2 h1 h2; omega

theorem drainOr_ch (ts : List Term) (ch : Bool) (h : (drainOr ts ch).2 = false) :
    ch = false ∧ ∀ t ∈ ts, isOr t = false := by
  fun_induction drainOr ts ch with
  | case1 ch => simpa using h
  | case2 ch st s ts ih => exact absurd (ih h).1 (by simp)
  | case3 ch st t hn p ih =>
    obtain ⟨h1, h2⟩ := ih h
    refine ⟨h1, ?_⟩
    intro u hu; simp only [List.mem_cons] at hu
    rcases hu with rfl | hu
    · unfold isOr; split
      · exact absurd rfl (hn _ _)
      · rfl
    · exact h2 u hu

theorem drainOr_val {ρ : Env} (ts : List Term) (ch : Bool) (h : ∀ t ∈ ts, IsB ρ t) :
    (∀ t ∈ (drainOr ts ch).1, IsB ρ t) ∧ (drainOr ts ch).1.any (bval ρ) = ts.any (bval ρ) := by
  fun_induction drainOr ts ch with
  | case1 => simp
  | case2 ch st s ts ih =>
    have h1 := or_node (h _ List.mem_cons_self)
    obtain ⟨i1, i2⟩ := ih (by
      intro t ht; simp only [List.mem_append, List.mem_reverse] at ht
      rcases ht with ht | ht
      · exact h1.1 t ht
      · exact h t (by simp [ht]))
    refine ⟨i1, ?_⟩
    rw [i2]
    simp only [List.any_append, List.any_reverse, List.any_cons, h1.2]
  | case3 ch st t _ p ih =>
    obtain ⟨i1, i2⟩ := ih (fun u hu => h u (by simp [hu]))
    refine ⟨?_, by simp only [List.any_cons, i2, p]⟩
    intro u hu; simp only [List.mem_cons] at hu
    rcases hu with rfl | hu
    · exact h _ (by simp)
    · exact i1 u hu

theorem elimTopAnd_spec {ρ : Env} (ts : List Term) :
    (∀ t ∈ (elimTopAnd ts).1, isAnd t = false) ∧
    sizeL (elimTopAnd ts).1 ≤ sizeL ts ∧
    ((elimTopAnd ts).2 = true → sizeL (elimTopAnd ts).1 < sizeL ts) ∧
    ((elimTopAnd ts).2 = false → (elimTopAnd ts).1 = ts) ∧
    ((∀ t ∈ ts, IsB ρ t) → (∀ t ∈ (elimTopAnd ts).1, IsB ρ t) ∧
      (elimTopAnd ts).1.all (bval ρ) = ts.all (bval ρ)) := by
  induction ts with
  | nil => simp [elimTopAnd, sizeL]
  | cons t ts ih =>
    obtain ⟨h1, h2, h3, h4, h5⟩ := ih
    simp only [elimTopAnd]
    split
    · rename_i s us
      have hd : drainAnd [.app .and s us] = drainAnd us.reverse := by
        rw [drainAnd]; simp
      refine ⟨?_, ?_, ?_, by simp, ?_⟩
      · intro u hu; simp only [List.mem_append] at hu
        rcases hu with hu | hu
        · exact drainAnd_flat _ u hu
        · exact h1 u hu
      · have := drainAnd_size [.app .and s us]
        simp only [sizeL_append, sizeL] at this ⊢; omega
      · intro _
        rw [hd]
        have := drainAnd_size us.reverse
        simp only [sizeL_append, sizeL_reverse, sizeL, size] at this ⊢; omega
      · intro h
        obtain ⟨i1, i2⟩ := h5 fun u hu => h u (by simp [hu])
        obtain ⟨j1, j2⟩ := drainAnd_val (ρ := ρ) [.app .and s us] (by simpa using h _ (by simp))
        refine ⟨?_, by simp only [List.all_append, i2, j2, List.all_cons, List.all_nil, Bool.and_true]⟩
        intro u hu; simp only [List.mem_append] at hu
        rcases hu with hu | hu
        · exact j1 u hu
        · exact i1 u hu
    · rename_i hn
      refine ⟨?_, by simp only [sizeL]; omega, ?_, ?_, ?_⟩
      · intro u hu; simp only [List.mem_cons] at hu
        rcases hu with rfl | hu
        · unfold isAnd; split
          · exact absurd rfl (hn _ _)
          · rfl
        · exact h1 u hu
      · intro h; have := h3 h; simp only [sizeL]; omega
      · intro h; rw [h4 h]
      · intro h
        obtain ⟨i1, i2⟩ := h5 fun u hu => h u (by simp [hu])
        refine ⟨?_, by simp only [List.all_cons, i2]⟩
        intro u hu; simp only [List.mem_cons] at hu
        rcases hu with rfl | hu
        · exact h _ (by simp)
        · exact i1 u hu

/-- no operand of a top-level `or` is an `or` -/
def orFlat : Term → Bool
  | .app .or _ us => us.all fun u => !isOr u
  | _ => true

theorem elimOr_mono (c : Cfg) (ts : List Term) : (elimOr c ts true).2 = true := by
  have hd : ∀ us ch, ch = true → (drainOr us ch).2 = true := by
    intro us ch h
    fun_induction drainOr us ch with
    | case1 ch => exact h
    | case2 ch st s ts ih => exact ih rfl
    | case3 ch st t _ p ih => exact ih h
  have : ∀ ch, ch = true → (elimOr c ts ch).2 = true := by
    induction ts with
    | nil => intro ch h; exact h
    | cons t ts ih =>
      intro ch h
      simp only [elimOr]
      split
      · exact ih _ (hd _ _ h)
      · exact ih _ h
  exact this _ rfl

theorem elimOr_spec (c : Cfg) {ρ : Env} (ts : List Term) : ∀ ch : Bool,
    sizeL (elimOr c ts ch).1 ≤ sizeL ts ∧
    (ch = false → (elimOr c ts ch).2 = true → sizeL (elimOr c ts ch).1 < sizeL ts) ∧
    ((elimOr c ts ch).2 = false → (elimOr c ts ch).1 = ts ∧ ∀ t ∈ ts, orFlat t = true) ∧
    ((∀ t ∈ ts, IsB ρ t) → (∀ t ∈ (elimOr c ts ch).1, IsB ρ t) ∧
      (elimOr c ts ch).1.all (bval ρ) = ts.all (bval ρ)) := by
  induction ts with
  | nil => intro ch; cases ch <;> simp [elimOr, sizeL]
  | cons t ts ih =>
    intro ch
    simp only [elimOr]
    split
    · rename_i s us
      obtain ⟨h1, h2, h3, h4⟩ := ih (drainOr us.reverse ch).2
      have d1 := drainOr_size us.reverse ch
      have d2 := mkOr_size c (drainOr us.reverse ch).1
      rw [sizeL_reverse] at d1
      have d3 : (drainOr us.reverse ch).2 = false → ∀ t ∈ us, isOr t = false := fun h t ht =>
        (drainOr_ch _ _ h).2 t (by simpa using ht)
      refine ⟨?_, ?_, ?_, ?_⟩
      · simp only [sizeL]
        split
        · simp only [size]; omega
        · omega
      · intro hc hq
        simp only [sizeL]
        split
        · rename_i hp; have := d1.2 hp hc; simp only [size]; omega
        · rename_i hp
          have := h2 (by simpa using hp) hq; omega
      · intro hq
        have hp : (drainOr us.reverse ch).2 = false := by
          cases e : (drainOr us.reverse ch).2
          · rfl
          · rw [e, elimOr_mono] at hq; cases hq
        obtain ⟨i1, i2⟩ := h3 hq
        refine ⟨by rw [if_neg (by simp [hp]), i1], ?_⟩
        intro t ht; simp only [List.mem_cons] at ht
        rcases ht with rfl | ht
        · simp only [orFlat, List.all_eq_true]
          intro u hu; simp [d3 hp u hu]
        · exact i2 t ht
      · intro h
        obtain ⟨i1, i2⟩ := h4 fun u hu => h u (by simp [hu])
        have ho := or_node (h _ List.mem_cons_self)
        obtain ⟨j1, j2⟩ := drainOr_val us.reverse ch (ρ := ρ) (fun u hu => ho.1 u (by simpa using hu))
        have hm : eval ρ (if (drainOr us.reverse ch).2 = true then mkOr c (drainOr us.reverse ch).1
            else .app .or s us) = some (.b (bval ρ (.app .or s us))) := by
          split
          · rw [mkOr_val c j1, j2, ho.2, List.any_reverse]
          · exact (h _ (by simp)).eval
        refine ⟨?_, by simp only [List.all_cons, i2, bval_of hm]⟩
        intro u hu; simp only [List.mem_cons] at hu
        rcases hu with rfl | hu
        · exact ⟨_, hm⟩
        · exact i1 u hu
    · rename_i hn
      obtain ⟨h1, h2, h3, h4⟩ := ih ch
      refine ⟨by simp only [sizeL]; omega, ?_, ?_, ?_⟩
      · intro hc hq; have := h2 hc hq; simp only [sizeL]; omega
      · intro hq
        obtain ⟨i1, i2⟩ := h3 hq
        refine ⟨by rw [i1], ?_⟩
        intro u hu; simp only [List.mem_cons] at hu
        rcases hu with rfl | hu
        · unfold orFlat; split
          · exact absurd rfl (hn _ _)
          · rfl
        · exact i2 u hu
      · intro h
        obtain ⟨i1, i2⟩ := h4 fun u hu => h u (by simp [hu])
        refine ⟨?_, by simp only [List.all_cons, i2]⟩
        intro u hu; simp only [List.mem_cons] at hu
        rcases hu with rfl | hu
        · exact h _ (by simp)
        · exact i1 u hu

/-- The flattening loop ends for every list of assertions (`sizeL` counts the nodes). -/
theorem elimTop_total (c : Cfg) : ∀ (n : Nat) (ts : List Term), sizeL ts < n →
    ∃ r, elimTop c n ts = some r := by
  intro n
  induction n with
  | zero => intro ts h; omega
  | succ n ih =>
    intro ts h
    obtain ⟨_, a2, a3, _, _⟩ := elimTopAnd_spec (ρ := ⟨fun _ _ _ => .b true, fun _ x => x, fun _ _ _ => none⟩) ts
    obtain ⟨b1, b2, _, _⟩ := elimOr_spec c (ρ := ⟨fun _ _ _ => .b true, fun _ x => x, fun _ _ _ => none⟩) (elimTopAnd ts).1 false
    simp only [elimTop]
    split
    · rename_i hch
      refine ih _ ?_
      simp only [Bool.or_eq_true] at hch
      rcases hch with hch | hch
      · have := a3 hch; omega
      · have := b2 rfl hch; omega
    · exact ⟨_, rfl⟩

/-- The flattened list has the same conjunction, under every assignment that gives the assertions
Boolean values. -/
theorem elimTop_sound (c : Cfg) (ρ : Env) : ∀ (n : Nat) (ts r : List Term) (v : Val),
    evalApp ρ .and ts .bool = some v → elimTop c n ts = some r → evalApp ρ .and r .bool = some v := by
  intro n
  induction n with
  | zero => intro ts r v _ h; cases h
  | succ n ih =>
    intro ts r v hv h
    obtain ⟨hB, rfl⟩ := (evalApp_and ρ ts _ _).1 hv
    obtain ⟨a1, a2⟩ := (elimTopAnd_spec (ρ := ρ) ts).2.2.2.2 hB
    obtain ⟨b1, b2⟩ := (elimOr_spec c (ρ := ρ) (elimTopAnd ts).1 false).2.2.2 a1
    have key : evalApp ρ .and (elimOr c (elimTopAnd ts).1 false).1 .bool
        = some (.b ((ts.map (bval ρ)).all id)) := by
      refine (evalApp_and ρ _ _ _).2 ⟨b1, ?_⟩
      simp only [List.all_map, Function.comp_def, id]
      rw [show (fun x => bval ρ x) = bval ρ from rfl, b2, a2]
    simp only [elimTop] at h
    split at h
    · exact ih _ _ _ key h
    · cases h; exact key

/-- At the end no assertion is an `and` and no `or` has an `or` below it. -/
theorem elimTop_flat (c : Cfg) : ∀ (n : Nat) (ts r : List Term), elimTop c n ts = some r →
    ∀ t ∈ r, isAnd t = false ∧ orFlat t = true := by
  intro n
  induction n with
  | zero => intro ts r h; cases h
  | succ n ih =>
    intro ts r h
    simp only [elimTop] at h
    split at h
    · exact ih _ _ h
    · rename_i hch
      cases h
      simp only [Bool.or_eq_true, not_or, Bool.not_eq_true] at hch
      have a := (elimTopAnd_spec (ρ := ⟨fun _ _ _ => .b true, fun _ x => x, fun _ _ _ => none⟩) ts).1
      obtain ⟨b1, b2⟩ := (elimOr_spec c (ρ := ⟨fun _ _ _ => .b true, fun _ x => x, fun _ _ _ => none⟩)
        (elimTopAnd ts).1 false).2.2.1 hch.2
      rw [b1]
      exact fun t ht => ⟨a t ht, b2 t ht⟩

/-- `a and (b and (d or (a or b)))` together with `d`, for the examples -/
def ex6 : List Term := [.app .and .bool [bv "a", .app .and .bool [bv "b",
  .app .or .bool [bv "d", .app .or .bool [bv "a", bv "b"]]]], bv "d"]

example : sizeL ex6 < 20 ∧ evalApp (env (fun v => v != "d") (fun _ => 0)) .and ex6 .bool
    = some (.b false) := by decide

/-! ### C33: the walk -/

section
variable {c : Cfg} {act : Term → Option (Term × Bool)} {keep : Bool} {P : Term → Prop}
  {R : Term → Term → Prop}

theorem walkL_ch_ne {ts : List Term} {vis : VMap} (h : (walkL c act keep ts vis).2.1 = true) :
    ts ≠ [] := by
  rintro rfl; simp [walkL] at h

theorem walk_rel (hrefl : ∀ t, P t → R t t) (hact : ∀ t r ch, P t → act t = some (r, ch) → R t r)
    (hkid : ∀ k s ts, P (.app k s ts) → act (.app k s ts) = none → ∀ t ∈ ts, P t)
    (hmk : ∀ k s ts rs, P (.app k s ts) → act (.app k s ts) = none → ts ≠ [] → All2 R ts rs →
      R (.app k s ts) (mkOper c s k rs)) :
    ∀ (n : Nat) (t : Term) (vis : VMap), t.size ≤ n → P t → VInv P R vis →
      R t (walk c act keep t vis).1 ∧ VInv P R (walk c act keep t vis).2.2 := by
  intro n
  induction n with
  | zero => intro t _ h; cases t <;> simp [size] at h
  | succ n ih =>
    have hL : ∀ (ts : List Term), (∀ t ∈ ts, t.size ≤ n ∧ P t) → ∀ vis, VInv P R vis →
        All2 R ts (walkL c act keep ts vis).1 ∧ VInv P R (walkL c act keep ts vis).2.2 := by
      intro ts
      induction ts with
      | nil => intro _ vis h; exact ⟨.nil, h⟩
      | cons t ts ihl =>
        intro h vis hv
        obtain ⟨h1, h2⟩ := ih t vis (h t (by simp)).1 (h t (by simp)).2 hv
        obtain ⟨g1, g2⟩ := ihl (fun u hu => h u (by simp [hu])) _ h2
        simp only [walkL]
        exact ⟨.cons h1 g1, g2⟩
    intro t vis hn hP hv
    cases t with
    | app k s ts =>
      rw [walk.eq_def]
      simp only
      split
      · rename_i r hr; exact ⟨hv _ _ hr hP, hv⟩
      · split
        · rename_i r ch hr
          refine ⟨hact _ _ _ hP hr, ?_⟩
          simp only
          split
          · exact hv.add fun h => hact _ _ _ h hr
          · exact hv
        · rename_i hno
          obtain ⟨h1, h2⟩ := hL ts (fun t ht => ⟨by
            have := size_child (k := k) (s := s) ht; omega, hkid _ _ _ hP hno t ht⟩) vis hv
          split
          · rename_i hch
            have := hmk k s ts _ hP hno (walkL_ch_ne hch) h1
            exact ⟨this, h2.add fun _ => this⟩
          · exact ⟨hrefl _ hP, h2.add fun h => hrefl _ h⟩
    | _ =>
      rw [walk.eq_def]
      simp only
      split
      · rename_i r hr; exact ⟨hv _ _ hr hP, hv⟩
      · exact ⟨hrefl _ hP, hv.add fun h => hrefl _ h⟩

end

theorem kids_ev {ρ : Env} {k : Kind} {s : Srt} {ts : List Term} (h : Ev ρ (.app k s ts)) :
    ∀ t ∈ ts, Ev ρ t := by
  intro t ht
  obtain ⟨v, hv⟩ := h
  rw [eval_app] at hv
  have hv := (guardSort_some.1 hv).1
  cases e : evalL ρ ts with
  | none => simp [evalApp, e] at hv
  | some vs => exact ((evalL_iff ρ ts vs).1 e).1 t ht

/-- The walk keeps the value if every action does and no `=>` is inside. -/
theorem walk_sound (c : Cfg) (ρ : Env) (act : Term → Option (Term × Bool)) (keep : Bool) (t : Term)
    (ok : Term → Prop)
    (h : ∀ u r ch, ok u → DFit c u → Ev ρ u → act u = some (r, ch) → eval ρ r = eval ρ u ∧ Fit c r)
    (hok : ∀ u ∈ subs t, ok u) (ht : DFit c t) (hi : noImplies t) (hE : Ev ρ t) :
    eval ρ (walk c act keep t []).1 = eval ρ t := by
  have := walk_rel (c := c) (act := act) (keep := keep)
    (P := fun t => DFit c t ∧ noImplies t ∧ Ev ρ t ∧ ∀ u ∈ subs t, ok u)
    (R := fun t r => eval ρ r = eval ρ t ∧ Fit c r)
    (fun t h => ⟨rfl, h.1.fit⟩)
    (fun t r ch hP hr => h t r ch (hP.2.2.2 t (by cases t <;> simp [subs])) hP.1 hP.2.2.1 hr)
    (fun k s ts hP _ t ht => ⟨hP.1.child ht, noImplies_kid hP.2.1 ht, kids_ev hP.2.2.1 t ht,
      fun u hu => hP.2.2.2 u (by simp only [subs, List.mem_cons]; exact .inr (mem_subsL.2 ⟨t, ht, hu⟩))⟩)
    (fun k s ts rs hP hno hne hall => by
      obtain ⟨v, hv⟩ := hP.2.2.1
      have h1 := guardSort_some.1 ((eval_app ρ k s ts).symm.trans hv)
      have hE : evalL ρ rs = evalL ρ ts ∧ (∀ r ∈ rs, Fit c r) ∧ rs.length = ts.length := by
        clear hne hv h1 hP hno
        induction hall with
        | nil => simp
        | cons hr _ ih =>
          simp only [evalL, hr.1, ih.1]
          refine ⟨trivial, ?_, by simp [ih.2.2]⟩
          intro r hr'; simp only [List.mem_cons] at hr'
          rcases hr' with rfl | hr'
          · exact hr.2
          · exact ih.2.1 r hr'
      have h2 : evalApp ρ k rs s = some v := by simp only [evalApp, hE.1]; exact h1.1
      have := mkOper_sound c ρ k rs s v hE.2.1
        (by rintro rfl; exact hne (List.length_eq_zero_iff.1 hE.2.2.symm))
        (by rintro rfl; exact absurd rfl (hP.2.1 _ (by simp only [subs, List.mem_cons, true_or]) s ts))
        h1.2 h2
      exact ⟨this.1.trans hv.symm, this.2⟩)
    _ t [] (Nat.le_refl _) ⟨ht, hi, hE, hok⟩ VInv.nil
  exact this.1.1

theorem fit_bool {c : Cfg} {ρ : Env} {t u : Term} (h : DFit c u) (hB : IsB ρ t) : Fit c t := by
  have : NoReal t := by
    obtain ⟨x, hx⟩ := hB
    cases t <;> simp [NoReal, eval] at hx ⊢
  exact h.fit.of_noReal this

theorem isN_binRel {ρ : Env} {t : Term} (h : IsN ρ t) : binRel t = true := by
  obtain ⟨q, hq⟩ := h
  cases t with
  | app k s ts =>
    rw [eval_app] at hq
    have hv := (guardSort_some.1 hq).1
    cases k <;> try rfl
    · rw [evalApp_not] at hv; obtain ⟨_, _, _, h⟩ := hv; cases h
    · rw [evalApp_eq] at hv; cases hv.2.2.2
    · rw [evalApp_distinct] at hv; cases hv.2.2.2
    all_goals (rw [evalApp_cmp' _ _ _ _ _ rfl] at hv; cases hv.2.2)
  | _ => rfl

theorem isN_val {ρ : Env} {t : Term} (h : IsN ρ t) : val ρ t = .n (nval ρ t) := by
  have := h.eval; simp [val, this]

/-- values of the binary relations over numbers -/
theorem rel_vals (c : Cfg) (ρ : Env) {l r : Term} (fl : DFit c l) (fr : DFit c r) (hl : IsN ρ l)
    (hr : IsN ρ r) :
    eval ρ (mkGt2 c l r) = some (.b (decide (nval ρ l > nval ρ r))) ∧
    eval ρ (mkLt2 c l r) = some (.b (decide (nval ρ l < nval ρ r))) ∧
    eval ρ (mkEq2 c l r) = some (.b (decide (nval ρ l = nval ρ r))) := by
  have hN : ∀ t ∈ [l, r], IsN ρ t := by
    intro t ht; simp at ht; rcases ht with rfl | rfl <;> assumption
  refine ⟨(Term.mkCmp2_sound c ρ l r _ fl.fit fr.fit).2.2.2 ((evalApp_cmp' ρ _ _ _ .gt rfl).2 ⟨by simp, hN, ?_⟩),
    (Term.mkCmp2_sound c ρ l r _ fl.fit fr.fit).2.1 ((evalApp_cmp' ρ _ _ _ .lt rfl).2 ⟨by simp, hN, ?_⟩),
    Term.mkEq2_sound c ρ l r _ fl fr (isN_binRel hl) (isN_binRel hr)
      ((evalApp_eq ρ _ _ _).2 ⟨by simp, fun t ht => (hN t ht).ev, ?_, ?_⟩)⟩
  · simp [chain, cmpRel]
  · simp [chain, cmpRel]
  · intro t ht u hu; rw [isN_val (hN t ht), isN_val (hN u hu)]; rfl
  · congr 1; rw [decide_eq_decide]
    simp [isN_val hl, isN_val hr]; grind

/-- The nodes `splitOp` handles: a `>=`, `<=` or `distinct` of the set has two operands, those of
`distinct` being numbers. -/
def splitOK (ops : Kind → Bool) : Term → Prop
  | .app .ge _ ts => ops .ge = true → ts.length = 2
  | .app .le _ ts => ops .le = true → ts.length = 2
  | .app .distinct _ ts => ops .distinct = true → ts.length = 2 ∧ ∀ t ∈ ts, t.sort.isNum = true
  | _ => True

theorem ev_isN {ρ : Env} {t : Term} (h : Ev ρ t) (hs : t.sort.isNum = true) : IsN ρ t := by
  obtain ⟨v, hv⟩ := h
  have := eval_hasSort hv
  cases v with
  | n q => exact ⟨q, hv⟩
  | _ => cases h2 : t.sort <;> simp_all [Srt.isNum, Val.hasSort]

theorem len2' {ts : List Term} (h : ts.length = 2) : ∃ l r, ts = [l, r] := by
  match ts, h with
  | [l, r], _ => exact ⟨l, r, rfl⟩

theorem splitAct_sound (c : Cfg) (ρ : Env) (ops : Kind → Bool) (u r : Term) (ch : Bool)
    (hok : splitOK ops u) (hf : DFit c u) (hE : Ev ρ u) (h : splitAct c ops u = some (r, ch)) :
    eval ρ r = eval ρ u ∧ Fit c r := by
  cases u with
  | app k s ts =>
    simp only [splitAct] at h
    split at h
    · rename_i hops
      obtain ⟨v, hv⟩ := id hE
      have h1 := guardSort_some.1 ((eval_app ρ k s ts).symm.trans hv)
      have fin : ∀ a b : Term, IsB ρ a → IsB ρ b → v = .b (bval ρ a || bval ρ b) →
          eval ρ (mkOr c [a, b]) = eval ρ (.app k s ts) ∧ Fit c (mkOr c [a, b]) := by
        intro a b ha hb e
        have := mkOr_val c (ρ := ρ) (ts := [a, b]) (by
          intro t ht; simp at ht; rcases ht with rfl | rfl <;> assumption)
        refine ⟨by rw [this, hv, e]; simp, fit_bool hf ⟨_, this⟩⟩
      split at h
      · obtain ⟨l, r', e⟩ := len2' (hok hops)
        simp only [List.cons.injEq] at e; obtain ⟨rfl, rfl, rfl⟩ := e
        cases h
        obtain ⟨_, hN, he⟩ := (evalApp_cmp' ρ _ _ _ .ge rfl).1 h1.1
        obtain ⟨g1, g2, g3⟩ := rel_vals c ρ (hf.child (by simp)) (hf.child (by simp))
          (hN _ (List.mem_cons_self)) (hN _ (List.mem_cons_of_mem _ List.mem_cons_self))
        refine fin _ _ ⟨_, g1⟩ ⟨_, g3⟩ ?_
        rw [bval_of g1, bval_of g3, he]
        simp [chain, cmpRel, ← Bool.decide_or]; grind
      · obtain ⟨l, r', e⟩ := len2' (hok hops)
        simp only [List.cons.injEq] at e; obtain ⟨rfl, rfl, rfl⟩ := e
        cases h
        obtain ⟨_, hN, he⟩ := (evalApp_cmp' ρ _ _ _ .le rfl).1 h1.1
        obtain ⟨g1, g2, g3⟩ := rel_vals c ρ (hf.child (by simp)) (hf.child (by simp))
          (hN _ (List.mem_cons_self)) (hN _ (List.mem_cons_of_mem _ List.mem_cons_self))
        refine fin _ _ ⟨_, g2⟩ ⟨_, g3⟩ ?_
        rw [bval_of g2, bval_of g3, he]
        simp [chain, cmpRel, ← Bool.decide_or]; grind
      · obtain ⟨hlen, hs⟩ := hok hops
        obtain ⟨l, r', e⟩ := len2' hlen
        simp only [List.cons.injEq] at e; obtain ⟨rfl, rfl, rfl⟩ := e
        cases h
        have hN : ∀ t ∈ [_, _], IsN ρ t := fun t ht => ev_isN (kids_ev hE t ht) (hs t ht)
        obtain ⟨_, _, _, he⟩ := (evalApp_distinct ρ _ _ _).1 h1.1
        obtain ⟨g1, g2, g3⟩ := rel_vals c ρ (hf.child (by simp)) (hf.child (by simp))
          (hN _ (List.mem_cons_self)) (hN _ (List.mem_cons_of_mem _ List.mem_cons_self))
        refine fin _ _ ⟨_, g2⟩ ⟨_, g1⟩ ?_
        rw [bval_of g1, bval_of g2, he]
        rw [← Bool.decide_or]; congr 1; rw [decide_eq_decide]
        simp [isN_val (hN _ (List.mem_cons_self)), isN_val (hN _ (List.mem_cons_of_mem _ List.mem_cons_self))]
        grind
      · cases h; exact ⟨rfl, hf.fit⟩
    · cases h
  | _ => simp [splitAct] at h

/-- `splitOp` keeps the value of every term under every assignment, for any set of operators, provided
the comparisons it splits are binary (and numeric, for `distinct`) and no `=>` occurs. -/
theorem splitOp_sound_partial (c : Cfg) (ρ : Env) (ops : Kind → Bool) (t : Term) (v : Val)
    (hok : ∀ u ∈ subs t, splitOK ops u) (hf : DFit c t) (hi : noImplies t) (h : eval ρ t = some v) :
    eval ρ (splitOp c ops t) = some v := by
  rw [← h]
  exact walk_sound c ρ _ _ t (splitOK ops) (fun u r ch => splitAct_sound c ρ ops u r ch) hok hf hi ⟨v, h⟩

/-- The lemma recorded for a split node is true under every assignment. -/
theorem splitLemma_valid (c : Cfg) (ρ : Env) (k : Kind) (s : Srt) (l r m : Term)
    (hf : DFit c (.app k s [l, r])) (hl : IsN ρ l) (hr : IsN ρ r)
    (hm : splitLemma c (.app k s [l, r]) = some m) : eval ρ m = some (.b true) := by
  have fl : DFit c l := hf.child (by simp)
  have fr : DFit c r := hf.child (by simp)
  obtain ⟨g1, g2, g3⟩ := rel_vals c ρ fl fr hl hr
  have hnot : ∀ t x, eval ρ t = some (.b x) → (t = .tt ∨ t = .ff ∨ ∃ k us, t = .app k .bool us ∧
      us.Perm [l, r] ∧ us.length = 2) → eval ρ (mkNot c t) = some (.b (!x)) := by
    intro t x hx ht
    have hfit : DFit c t := by
      rcases ht with rfl | rfl | ⟨k, us, rfl, hp, hl2⟩
      · exact fl.other rfl
      · exact fl.other rfl
      · refine dfit_app (by rintro rfl; simp at hl2) fun u hu => ?_
        have := hp.mem_iff.1 hu
        simp at this; rcases this with rfl | rfl <;> assumption
    have hbin : negBin t = true := by
      rcases ht with rfl | rfl | ⟨k, us, rfl, hp, hl2⟩
      · rfl
      · rfl
      · cases k <;> simp [negBin, hl2]
    rw [mkNot_val c ρ t hfit hbin ⟨_, hx⟩, bval_of hx]
  have hc2 : ∀ k refl x, eval ρ (mkCmp2 c k refl l r) = some (.b x) → isCmp k = true →
      (refl = .tt ∨ refl = .ff) →
      (mkCmp2 c k refl l r = .tt ∨ mkCmp2 c k refl l r = .ff ∨
        ∃ k' us, mkCmp2 c k refl l r = .app k' .bool us ∧ us.Perm [l, r] ∧ us.length = 2) := by
    intro k refl x hx hk hr0
    have h3 : mkCmp2 c k refl l r = .unknown ∨ mkCmp2 c k refl l r = refl ∨
        mkCmp2 c k refl l r = mkOper c .bool k [l, r] := by
      unfold mkCmp2
      split
      · split <;> simp
      · split <;> simp
    rcases h3 with h3 | h3 | h3
    · rw [h3] at hx; simp [eval] at hx
    · rw [h3]; rcases hr0 with h | h <;> simp [h]
    · rw [h3] at hx ⊢
      rcases mkOper_rel c k (by cases k <;> simp [isCmp] at hk <;> rfl) [l, r] with h | h | h | ⟨us, h, hp⟩
      · simp [h]
      · simp [h]
      · rw [h] at hx; simp [eval] at hx
      · exact .inr (.inr ⟨k, us, h, hp, by simp [hp.length_eq]⟩)
  have he2 : (mkEq2 c l r = .tt ∨ mkEq2 c l r = .ff ∨
        ∃ k' us, mkEq2 c l r = .app k' .bool us ∧ us.Perm [l, r] ∧ us.length = 2) := by
    have h3 : mkEq2 c l r = .unknown ∨ mkEq2 c l r = mkOper c .bool .eq [l, r] := by
      rw [mkEq2.eq_def]
      split
      · simp
      · obtain ⟨x, hx⟩ := hl
        obtain ⟨y, hy⟩ := hr
        split
        all_goals first
          | (simp [eval] at hx; done)
          | (simp [eval] at hy; done)
          | skip
        · rename_i s1 a l1 s2 b l2
          have := (guardSort_some.1 ((eval_app _ _ _ _).symm.trans hx)).1
          rw [evalApp_not] at this; obtain ⟨_, _, _, h⟩ := this; cases h
        · exact .inr rfl
    rcases h3 with h3 | h3
    · rw [h3] at g3; simp [eval] at g3
    · rw [h3] at g3 ⊢
      rcases mkOper_rel c .eq rfl [l, r] with h | h | h | ⟨us, h, hp⟩
      · simp [h]
      · simp [h]
      · rw [h] at g3; simp [eval] at g3
      · exact .inr (.inr ⟨.eq, us, h, hp, by simp [hp.length_eq]⟩)
  have n1 := hnot _ _ g1 (hc2 .gt .ff _ g1 rfl (.inr rfl))
  have n2 := hnot _ _ g2 (hc2 .lt .ff _ g2 rfl (.inr rfl))
  have n3 := hnot _ _ g3 he2
  have fin : ∀ a b x y, eval ρ a = some (.b x) → eval ρ b = some (.b y) → (x || y) = true →
      eval ρ (mkOr c [a, b]) = some (.b true) := by
    intro a b x y ha hb hxy
    rw [mkOr_val c (ρ := ρ) (ts := [a, b]) (by
          intro t ht; simp at ht; rcases ht with rfl | rfl
          · exact ⟨_, ha⟩
          · exact ⟨_, hb⟩)]
    simp [bval_of ha, bval_of hb, hxy]
  unfold splitLemma at hm
  split at hm
  · rename_i h; simp at h; obtain ⟨_, _, rfl, rfl, _⟩ := h; cases hm
    refine fin _ _ _ _ n1 n3 ?_; simp; grind
  · rename_i h; simp at h; obtain ⟨_, _, rfl, rfl, _⟩ := h; cases hm
    refine fin _ _ _ _ n2 n3 ?_; simp; grind
  · rename_i h; simp at h; obtain ⟨_, _, rfl, rfl, _⟩ := h; cases hm
    refine fin _ _ _ _ n2 n1 ?_; simp; grind
  · cases hm

/-- `(x >= 3) and not (x = y)` written with `distinct`, for the examples -/
def ex7 : Term := .app .and .bool [.app .ge .bool [iv "x", .cint 3], .app .distinct .bool [iv "x", iv "y"]]

example : (∀ u ∈ subs ex7, splitOK (fun _ => true) u) ∧ DFit c0 ex7 ∧ noImplies ex7 ∧
    eval (env (fun _ => true) (fun v => if v == "x" then 4 else 2)) ex7 = some (.b true) := by
  refine ⟨?_, .inl fun _ => rfl, ?_, by decide⟩
  · intro u hu
    simp [ex7, iv, bv, subs, subsL] at hu
    rcases hu with h | h | h | h | h | h | h <;> subst h <;> simp [splitOK, Term.sort, Srt.isNum]
  · intro u hu s ts
    simp [ex7, iv, bv, subs, subsL] at hu
    rcases hu with h | h | h | h | h | h | h <;> subst h <;> simp

/-- Splitting a three-operand `>=` drops its last operand, for all different variables: with
`x = y = 0` and `z = 1` the chain is false and the result true. -/
theorem splitOp_three_violated (x y z : String) (hxy : x ≠ y) (hxz : x ≠ z) (hyz : y ≠ z) :
    ∃ ρ, eval ρ (.app .ge .bool [iv x, iv y, iv z]) = some (.b false) ∧
      eval ρ (splitOp c0 (fun k => k == .ge) (.app .ge .bool [iv x, iv y, iv z])) = some (.b true) := by
  refine ⟨env (fun _ => false) (fun a => if a = z then 1 else 0), ?_, ?_⟩
  · simp [eval, evalL, env, iv, apply, cmpChain, numsOf, chain, guardSort, Val.hasSort, hxz, hyz]
    grind
  · simp [splitOp, walk, VMap.find, splitAct, mkOr, mkGt2, mkCmp2, mkEq2, iv, scan, Term.sort, isErr,
      Srt.eqTo, mismatch, Term.isTrue, Term.isFalse, dedup, mkOper, simp, simp1, simp2, simp3, simpN,
      isUnknown, isComm, c0, List.filter_cons, bne, isCInt, isCReal, isCBV, isCStr, hxy, hxz, hyz]
    simp [eval, evalL, env, apply, cmpChain, numsOf, chain, guardSort, Val.hasSort, hxz, hyz, homog,
      Val.sameSort, boolsOf]

/-! ### binarising -/

/-- The equations `binarizeOp` takes apart have operands to which negation applies (`binRel`: under any
number of `not`, a relation is binary). -/
def binOK (ops : Kind → Bool) : Term → Prop
  | .app .eq _ ts => ops .eq = true → 2 < ts.length → ∀ t ∈ ts, binRel t = true
  | _ => True

theorem consec_val {ρ : Env} {mk : Term → Term → Term} (Q : Term → Prop) (r : Term → Term → Bool)
    (h : ∀ a b, Q a → Q b → eval ρ (mk a b) = some (.b (r a b))) : ∀ ts : List Term,
    (∀ t ∈ ts, Q t) → (∀ u ∈ consec mk ts, IsB ρ u) ∧ (consec mk ts).all (bval ρ) = chain r ts := by
  intro ts
  induction ts with
  | nil => intro _; simp [consec, chain]
  | cons a ts ih =>
    intro hQ
    match ts with
    | [] => simp [consec, chain]
    | b :: l =>
      have hab := h a b (hQ a (by simp)) (hQ b (by simp))
      obtain ⟨i1, i2⟩ := ih fun t ht => hQ t (by simp [ht])
      simp only [consec, chain]
      refine ⟨?_, by simp only [List.all_cons, bval_of hab, i2]⟩
      intro u hu; simp only [List.mem_cons] at hu
      rcases hu with rfl | hu
      · exact ⟨_, hab⟩
      · exact i1 u hu

theorem allPairs_val {ρ : Env} {mk : Term → Term → Term} (Q : Term → Prop) (r : Term → Term → Bool)
    (h : ∀ a b, Q a → Q b → eval ρ (mk a b) = some (.b (r a b))) : ∀ ts : List Term,
    (∀ t ∈ ts, Q t) → (∀ u ∈ allPairs mk ts, IsB ρ u) ∧ (allPairs mk ts).all (bval ρ) = pairw r ts := by
  intro ts
  induction ts with
  | nil => intro _; simp [allPairs, pairw]
  | cons a l ih =>
    intro hQ
    obtain ⟨i1, i2⟩ := ih fun t ht => hQ t (by simp [ht])
    have hab : ∀ b ∈ l, eval ρ (mk a b) = some (.b (r a b)) := fun b hb =>
      h a b (hQ a (by simp)) (hQ b (by simp [hb]))
    simp only [allPairs, pairw]
    refine ⟨?_, ?_⟩
    · intro u hu; simp only [List.mem_append, List.mem_map] at hu
      rcases hu with ⟨b, hb, rfl⟩ | hu
      · exact ⟨_, hab b hb⟩
      · exact i1 u hu
    · simp only [List.all_append, List.all_map, i2]
      congr 1
      rw [Bool.eq_iff_iff, List.all_eq_true, List.all_eq_true]
      refine forall_congr' fun b => ?_
      constructor
      · intro h hb; have := h hb; simp only [Function.comp, bval_of (hab b hb)] at this; exact this
      · intro h hb; simp only [Function.comp, bval_of (hab b hb)]; exact h hb

theorem chain_map {α β : Type} (f : α → β) (r : β → β → Bool) : ∀ l : List α,
    chain r (l.map f) = chain (fun a b => r (f a) (f b)) l
  | [] => rfl
  | [_] => rfl
  | a :: b :: l => by simp only [List.map_cons, chain]; rw [← List.map_cons, chain_map f r (b :: l)]

theorem pairw_map {α β : Type} (f : α → β) (r : β → β → Bool) : ∀ l : List α,
    pairw r (l.map f) = pairw (fun a b => r (f a) (f b)) l
  | [] => rfl
  | a :: l => by simp only [List.map_cons, pairw, pairw_map f r l, List.all_map]; rfl

theorem binAct_sound (c : Cfg) (ρ : Env) (ops : Kind → Bool) (u r : Term) (ch : Bool)
    (hok : binOK ops u) (hf : DFit c u) (hE : Ev ρ u) (h : binAct c ops u = some (r, ch)) :
    eval ρ r = eval ρ u ∧ Fit c r := by
  cases u with
  | app k s ts =>
    simp only [binAct] at h
    split at h
    · rename_i hops
      obtain ⟨v, hv⟩ := id hE
      have h1 := guardSort_some.1 ((eval_app ρ k s ts).symm.trans hv)
      have fin : ∀ l : List Term, (2 < ts.length → (∀ t ∈ l, IsB ρ t) ∧ v = .b (l.all (bval ρ))) →
          (if ts.length > 2 then some (mkAnd c l, true) else some (.app k s ts, false)) = some (r, ch) →
          eval ρ r = eval ρ (.app k s ts) ∧ Fit c r := by
        intro l hl hr
        split at hr
        · rename_i hlen
          cases hr
          obtain ⟨l1, l2⟩ := hl hlen
          have := mkAnd_val c (ρ := ρ) l1
          exact ⟨by rw [this, hv, l2], fit_bool hf ⟨_, this⟩⟩
        · cases hr; exact ⟨rfl, hf.fit⟩
      have hcmp : ∀ mk : Term → Term → Term, isCmp k = true →
          (∀ a b, DFit c a ∧ IsN ρ a → DFit c b ∧ IsN ρ b →
            eval ρ (mk a b) = some (.b (cmpRel k (nval ρ a) (nval ρ b)))) →
          (∀ t ∈ consec mk ts, IsB ρ t) ∧ v = .b ((consec mk ts).all (bval ρ)) := by
        intro mk hk hmk
        obtain ⟨_, hN, he⟩ := (evalApp_cmp' ρ _ _ _ k hk).1 h1.1
        obtain ⟨i1, i2⟩ := consec_val (fun a => DFit c a ∧ IsN ρ a) _ hmk ts
          (fun t ht => ⟨hf.child ht, hN t ht⟩)
        refine ⟨i1, ?_⟩
        rw [i2, he, chain_map]
      have hc2 : ∀ k a b, isCmp k = true → DFit c a ∧ IsN ρ a → DFit c b ∧ IsN ρ b →
          evalApp ρ k [a, b] .bool = some (.b (cmpRel k (nval ρ a) (nval ρ b))) := by
        intro k a b hk ha hb
        refine (evalApp_cmp' ρ _ _ _ k hk).2 ⟨by simp, ?_, by simp [chain]⟩
        intro t ht; simp at ht; rcases ht with rfl | rfl
        · exact ha.2
        · exact hb.2
      cases k <;> simp only at h <;> first
        | (cases h; done)
        | skip
      · -- eq
        refine fin _ (fun hlen => ?_) h
        obtain ⟨_, hev, hs, he⟩ := (evalApp_eq ρ _ _ _).1 h1.1
        have hQ : ∀ a b, (a ∈ ts) → (b ∈ ts) → eval ρ (mkEqV c [a, b])
            = some (.b (decide (val ρ a = val ρ b))) := by
          intro a b ha hb
          refine Term.mkEqV_sound_partial c ρ [a, b] _ ?_ ?_ (.inl rfl)
            ((evalApp_eq ρ _ _ _).2 ⟨by simp, ?_, ?_, ?_⟩)
          · intro t ht; simp at ht; rcases ht with rfl | rfl
            · exact hf.child ha
            · exact hf.child hb
          · intro t ht; simp at ht; rcases ht with rfl | rfl
            · exact hok hops hlen t ha
            · exact hok hops hlen t hb
          · intro t ht; simp at ht; rcases ht with rfl | rfl
            · exact hev t ha
            · exact hev t hb
          · intro t ht u hu; simp at ht hu
            rcases ht with rfl | rfl <;> rcases hu with rfl | rfl <;> exact hs _ (by assumption) _ (by assumption)
          · congr 1; rw [decide_eq_decide]; simp; grind
        obtain ⟨i1, i2⟩ := consec_val (· ∈ ts) _ hQ ts (fun t ht => ht)
        refine ⟨i1, ?_⟩
        rw [i2]
        have h2 : v = .b (chain (fun a b => decide (a = b)) (ts.map (val ρ))) := by
          have h3 := h1.1
          unfold evalApp at h3
          rw [(evalL_iff ρ ts _).2 ⟨hev, rfl⟩] at h3
          simp only [apply] at h3
          split at h3
          · cases h3; rfl
          · cases h3
        rw [h2, chain_map]
      · -- distinct
        refine fin _ (fun hlen => ?_) h
        obtain ⟨_, hev, hs, he⟩ := (evalApp_distinct ρ _ _ _).1 h1.1
        have hQ : ∀ a b, (a ∈ ts) → (b ∈ ts) → eval ρ (mkDistinctV c [a, b])
            = some (.b (decide (val ρ a ≠ val ρ b))) := by
          intro a b ha hb
          refine Term.mkDistinctV_sound_partial c ρ [a, b] _ ?_ (.inl rfl)
            ((evalApp_distinct ρ _ _ _).2 ⟨by simp, ?_, ?_, ?_⟩)
          · intro t ht; simp at ht; rcases ht with rfl | rfl
            · exact (hf.child ha).fit
            · exact (hf.child hb).fit
          · intro t ht; simp at ht; rcases ht with rfl | rfl
            · exact hev t ha
            · exact hev t hb
          · intro t ht u hu; simp at ht hu
            rcases ht with rfl | rfl <;> rcases hu with rfl | rfl <;> exact hs _ (by assumption) _ (by assumption)
          · congr 1; rw [decide_eq_decide]; simp
        obtain ⟨i1, i2⟩ := allPairs_val (· ∈ ts) _ hQ ts (fun t ht => ht)
        refine ⟨i1, ?_⟩
        rw [i2]
        have h2 : v = .b (pairw (fun a b => decide (a ≠ b)) (ts.map (val ρ))) := by
          have h3 := h1.1
          unfold evalApp at h3
          rw [(evalL_iff ρ ts _).2 ⟨hev, rfl⟩] at h3
          simp only [apply] at h3
          split at h3
          · cases h3; rfl
          · cases h3
        rw [h2, pairw_map]
      · exact fin _ (fun _ => hcmp _ rfl fun a b ha hb =>
          (Term.mkCmpV_sound c ρ [a, b] _ (by
            intro t ht; simp at ht; rcases ht with rfl | rfl
            · exact ha.1.fit
            · exact hb.1.fit)).1 (hc2 _ a b rfl ha hb)) h
      · exact fin _ (fun _ => hcmp _ rfl fun a b ha hb =>
          (Term.mkCmpV_sound c ρ [a, b] _ (by
            intro t ht; simp at ht; rcases ht with rfl | rfl
            · exact ha.1.fit
            · exact hb.1.fit)).2.1 (hc2 _ a b rfl ha hb)) h
      · exact fin _ (fun _ => hcmp _ rfl fun a b ha hb =>
          (Term.mkCmpV_sound c ρ [a, b] _ (by
            intro t ht; simp at ht; rcases ht with rfl | rfl
            · exact ha.1.fit
            · exact hb.1.fit)).2.2.1 (hc2 _ a b rfl ha hb)) h
      · exact fin _ (fun _ => hcmp _ rfl fun a b ha hb =>
          (Term.mkCmpV_sound c ρ [a, b] _ (by
            intro t ht; simp at ht; rcases ht with rfl | rfl
            · exact ha.1.fit
            · exact hb.1.fit)).2.2.2 (hc2 _ a b rfl ha hb)) h
    · cases h
  | _ => simp [binAct] at h

/-- `binarizeOp` keeps the value of every term under every assignment, for any set of operators and
comparisons with any number of operands, provided no `=>` occurs. -/
theorem binarizeOp_sound_partial (c : Cfg) (ρ : Env) (ops : Kind → Bool) (t : Term) (v : Val)
    (hok : ∀ u ∈ subs t, binOK ops u) (hf : DFit c t) (hi : noImplies t) (h : eval ρ t = some v) :
    eval ρ (binarizeOp c ops t) = some v := by
  rw [← h]
  exact walk_sound c ρ _ _ t (binOK ops) (fun u r ch => binAct_sound c ρ ops u r ch) hok hf hi ⟨v, h⟩

/-- `(x = y = z) and (x >= 3 >= y)`, for the examples -/
def ex8 : Term := .app .and .bool [.app .eq .bool [iv "x", iv "y", iv "z"],
  .app .ge .bool [iv "x", .cint 3, iv "y"]]

example : (∀ u ∈ subs ex8, binOK (fun _ => true) u) ∧ DFit c0 ex8 ∧ noImplies ex8 ∧
    eval (env (fun _ => true) (fun _ => 3)) ex8 = some (.b true) := by
  refine ⟨?_, .inl fun _ => rfl, ?_, by decide⟩
  · intro u hu
    simp [ex8, iv, bv, subs, subsL] at hu
    rcases hu with h | h | h | h | h | h | h | h | h <;> subst h <;> simp [binOK, binRel]
  · intro u hu s ts
    simp [ex8, iv, bv, subs, subsL] at hu
    rcases hu with h | h | h | h | h | h | h | h | h <;> subst h <;> simp

/-! ### C51: removing nodes -/

/-- A removal one level further down is lost, for all different variables: removing `d` from
`(and a (or b d))` rebuilds the `or` but returns the original `and`. -/
theorem remove_nested_violated (a b d : String) (hab : a ≠ b) (had : a ≠ d) (hbd : b ≠ d) :
    remove c0 [bv d] (.app .and .bool [bv a, .app .or .bool [bv b, bv d]])
      = some (.app .and .bool [bv a, .app .or .bool [bv b, bv d]]) := by
  simp [remove, removeV, removeVL, VMap.find, bv, hab, had, hbd]

/-- nothing to remove inside -/
def clean (nodes : List Term) (t : Term) : Prop := ∀ u ∈ subs t, u ∉ nodes

theorem removeV_clean (c : Cfg) (nodes : List Term) : ∀ (n : Nat) (t : Term) (vis : VMap), t.size ≤ n →
    clean nodes t → (∀ k v, vis.find k = some v → v = k ∧ k ∉ nodes) →
    (removeV c nodes t vis).1 = some t ∧
      ∀ k v, (removeV c nodes t vis).2.find k = some v → v = k ∧ k ∉ nodes := by
  intro n
  induction n with
  | zero => intro t _ h; cases t <;> simp [size] at h
  | succ n ih =>
    have hL : ∀ (ts : List Term), (∀ t ∈ ts, t.size ≤ n ∧ clean nodes t) → ∀ vis : VMap,
        (∀ k v, vis.find k = some v → v = k ∧ k ∉ nodes) →
        (removeVL c nodes ts vis).1 = ts ∧ (removeVL c nodes ts vis).2.1 = false ∧
        ∀ k v, (removeVL c nodes ts vis).2.2.find k = some v → v = k ∧ k ∉ nodes := by
      intro ts
      induction ts with
      | nil => intro _ vis h; exact ⟨rfl, rfl, h⟩
      | cons t ts ihl =>
        intro h vis hv
        obtain ⟨h1, h2⟩ := ih t vis (h t (by simp)).1 (h t (by simp)).2 hv
        obtain ⟨g1, g2, g3⟩ := ihl (fun u hu => h u (by simp [hu])) _ h2
        simp only [removeVL, h1]
        exact ⟨by rw [g1], g2, g3⟩
    have hadd : ∀ (vis : VMap) t, t ∉ nodes → (∀ k v, vis.find k = some v → v = k ∧ k ∉ nodes) →
        ∀ k v, VMap.find ((t, t) :: vis) k = some v → v = k ∧ k ∉ nodes := by
      intro vis t ht h k v hf
      rw [VMap.find_cons] at hf
      split at hf
      · rename_i e; cases hf; exact ⟨e, e ▸ ht⟩
      · exact h k v hf
    intro t vis hn hc hv
    have hnc : t ∉ nodes := hc t (by cases t <;> simp [subs])
    cases t with
    | app k s ts =>
      rw [removeV.eq_def]
      simp only
      split
      · rename_i r hr; exact ⟨by rw [(hv _ _ hr).1], hv⟩
      · rw [if_neg hnc]
        obtain ⟨g1, g2, g3⟩ := hL ts (fun t ht => ⟨by
          have := size_child (k := k) (s := s) ht; omega, fun u hu => hc u (by
            simp only [subs, List.mem_cons]; exact .inr (mem_subsL.2 ⟨t, ht, hu⟩))⟩) vis hv
        rw [if_neg (by simp [g2])]
        exact ⟨rfl, hadd _ _ hnc g3⟩
    | _ =>
      rw [removeV.eq_def]
      simp only
      split
      · rename_i r hr; exact ⟨by rw [(hv _ _ hr).1], hv⟩
      · rw [if_neg hnc]
        exact ⟨rfl, hadd _ _ hnc hv⟩

theorem removeV_node (c : Cfg) (nodes : List Term) (t : Term) (vis : VMap) (ht : t ∈ nodes)
    (hv : ∀ k v, vis.find k = some v → v = k ∧ k ∉ nodes) : removeV c nodes t vis = (none, vis) := by
  have h0 : vis.find t = none := by
    cases e : vis.find t with
    | none => rfl
    | some v => exact absurd ht (hv _ _ e).2
  cases t <;> simp [removeV, h0, ht]

/-- `remove` drops exactly the unwanted operands of the top node, provided the operands that stay have
nothing to remove inside (any nesting below, any sharing). -/
theorem remove_partial (c : Cfg) (nodes : List Term) (k : Kind) (s : Srt) (ts : List Term)
    (ht : .app k s ts ∉ nodes) (hk : ∀ t ∈ ts, t ∉ nodes → clean nodes t) :
    remove c nodes (.app k s ts) = some (if ∃ t ∈ ts, t ∈ nodes
      then mkOper c s k (ts.filter fun t => t ∉ nodes) else .app k s ts) := by
  have hL : ∀ (ts : List Term), (∀ t ∈ ts, t ∉ nodes → clean nodes t) → ∀ vis : VMap,
        (∀ k v, vis.find k = some v → v = k ∧ k ∉ nodes) →
        (removeVL c nodes ts vis).1 = ts.filter (fun t => t ∉ nodes) ∧
        (removeVL c nodes ts vis).2.1 = decide (∃ t ∈ ts, t ∈ nodes) := by
    intro ts
    induction ts with
    | nil => intro _ vis _; simp [removeVL]
    | cons t ts ih =>
      intro h vis hv
      have ih := ih fun u hu => h u (by simp [hu])
      by_cases hm : t ∈ nodes
      · simp only [removeVL, removeV_node c nodes t vis hm hv]
        exact ⟨by simp [(ih vis hv).1, hm], by simp [hm]⟩
      · obtain ⟨h1, h2⟩ := removeV_clean c nodes _ t vis (Nat.le_refl _) (h t (by simp) hm) hv
        simp only [removeVL, h1]
        exact ⟨by simp [(ih _ h2).1, hm], by simp [(ih _ h2).2, hm]⟩
  obtain ⟨h1, h2⟩ := hL ts hk [] (by intro k v h; simp [VMap.find] at h)
  simp only [remove, removeV, VMap.find, if_neg ht, h2, h1]
  split
  · rename_i h; rw [if_pos (by simpa using h)]
  · rename_i h; rw [if_neg (by simpa using h)]

example : (∀ t ∈ [bv "a", bv "d", .app .or .bool [bv "b", bv "a"]], t ∉ [bv "d"] → clean [bv "d"] t) ∧
    remove c0 [bv "d"] (.app .and .bool [bv "a", bv "d", .app .or .bool [bv "b", bv "a"]])
      = some (.app .and .bool [bv "a", .app .or .bool [bv "b", bv "a"]]) := by
  refine ⟨?_, ?_⟩
  · intro t ht _ u hu
    simp at ht
    rcases ht with rfl | rfl | rfl <;> simp_all [subs, subsL, bv]
    rcases hu with rfl | rfl | rfl <;> simp
  · simp [remove, removeV, removeVL, VMap.find, bv, mkOper, simp, simp2, Term.isTrue, Term.isFalse,
      isUnknown, isComm, c0]

end SMT.Conv
