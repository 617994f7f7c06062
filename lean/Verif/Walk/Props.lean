import Verif.Walk.Model

/-! # Collecting variables and atoms (C60): the results -/

namespace SMT.Walk
open SMT.Kinds SMT.Text SMT.Store

/-- `q` is met on a path from `p` along operands that enters only nodes satisfying `inner`. -/
inductive Path (H : Heap) (inner : Nat → Prop) : Nat → Nat → Prop where
  | refl (p) : Path H inner p p
  | step {p q r : Nat} : Path H inner p q → inner q → r ∈ kids H q → Path H inner p r

theorem Path.head {H : Heap} {inner : Nat → Prop} {p q r : Nat} (hi : inner p) (h : q ∈ kids H p)
    (h2 : Path H inner q r) : Path H inner p r := by
  induction h2 with
  | refl => exact .step (.refl _) hi h
  | step _ hk hr ih => exact .step ih hk hr

theorem mem_ins {l : List Nat} {p x : Nat} : x ∈ ins l p ↔ x ∈ l ∨ x = p := by
  unfold ins
  split
  · rename_i h
    constructor
    · exact .inl
    · rintro (h' | rfl)
      · exact h'
      · exact h
  · simp

theorem kids_lt {H : Heap} (wf : WF H) {p c : Nat} (h : c ∈ kids H p) : c < p := by
  unfold kids at h
  cases hg : H[p]? with
  | none => simp [hg] at h
  | some o => rw [hg] at h; exact wf p o hg c h

/-- number of operands of the nodes in a list -/
def deg (H : Heap) (l : List Nat) : Nat := (l.map fun p => (kids H p).length).sum

theorem deg_append (H : Heap) (a b : List Nat) : deg H (a ++ b) = deg H a + deg H b := by simp [deg]

/-- what a call with the sets `w` does, `roots` being the expressions visited -/
structure Did (H : Heap) (hit down : Nat → Bool) (roots : Nat → Prop) (k : Nat) (w w' : W) : Prop where
  grow : ∃ T, w'.vis = w.vis ++ T ∧ (w.vis.Nodup → w'.vis.Nodup) ∧ w'.calls ≤ w.calls + k + deg H T
  root : ∀ p, roots p → p ∈ w'.vis
  from' : ∀ x ∈ w'.vis, x ∈ w.vis ∨ ∃ p, roots p ∧ Path H (fun q => hit q = false ∧ down q = true) p x
  closed : ∀ x ∈ w'.vis, x ∉ w.vis → hit x = false → down x = true → ∀ c ∈ kids H x, c ∈ w'.vis
  acc : ∀ x, x ∈ w'.acc ↔ x ∈ w.acc ∨ (x ∈ w'.vis ∧ x ∉ w.vis ∧ hit x = true)

theorem Did.sub {H hit down roots k w w'} (d : Did H hit down roots k w w') : ∀ x ∈ w.vis, x ∈ w'.vis := by
  obtain ⟨T, h, _⟩ := d.grow
  intro x hx; rw [h]; exact List.mem_append_left _ hx

theorem Did.trans {H hit down r1 r2 k1 k2 w0 w1 w2} (a : Did H hit down r1 k1 w0 w1) (b : Did H hit down r2 k2 w1 w2) :
    Did H hit down (fun p => r1 p ∨ r2 p) (k1 + k2) w0 w2 where
  grow := by
    obtain ⟨T1, e1, n1, c1⟩ := a.grow
    obtain ⟨T2, e2, n2, c2⟩ := b.grow
    refine ⟨T1 ++ T2, by rw [e2, e1, List.append_assoc], fun h => n2 (n1 h), ?_⟩
    rw [deg_append]; omega
  root := by
    rintro p (h | h)
    · exact b.sub p (a.root p h)
    · exact b.root p h
  from' := by
    intro x hx
    rcases b.from' x hx with h | ⟨p, hp, h⟩
    · rcases a.from' x h with h | ⟨p, hp, h⟩
      · exact .inl h
      · exact .inr ⟨p, .inl hp, h⟩
    · exact .inr ⟨p, .inr hp, h⟩
  closed := by
    intro x hx h0 hh hd c hc
    by_cases h1 : x ∈ w1.vis
    · exact b.sub c (a.closed x h1 h0 hh hd c hc)
    · exact b.closed x hx h1 hh hd c hc
  acc := by
    intro x
    rw [b.acc, a.acc]
    constructor
    · rintro ((h | ⟨h1, h2, h3⟩) | ⟨h1, h2, h3⟩)
      · exact .inl h
      · exact .inr ⟨b.sub x h1, h2, h3⟩
      · exact .inr ⟨h1, fun h => h2 (a.sub x h), h3⟩
    · rintro (h | ⟨h1, h2, h3⟩)
      · exact .inl (.inl h)
      · by_cases h4 : x ∈ w1.vis
        · exact .inl (.inr ⟨h4, h2, h3⟩)
        · exact .inr ⟨h1, h4, h3⟩

theorem Did.same (H : Heap) (hit down : Nat → Bool) (w : W) : Did H hit down (fun _ => False) 0 w w where
  grow := ⟨[], by simp, id, by simp⟩
  root := by simp
  from' := fun x hx => .inl hx
  closed := fun x hx h => absurd hx h
  acc := fun x => ⟨.inl, fun h => h.elim id fun h => absurd h.1 h.2.1⟩

theorem foldl_did {H : Heap} {hit down : Nat → Bool} {f : W → Nat → W} :
    ∀ (es : List Nat) (w : W), (∀ e ∈ es, ∀ w, Did H hit down (· = e) 1 w (f w e)) →
      Did H hit down (· ∈ es) es.length w (es.foldl f w) := by
  intro es
  induction es with
  | nil => intro w _; simpa using Did.same H hit down w
  | cons e es ih =>
    intro w h
    have h1 := (h e List.mem_cons_self w).trans (ih (f w e) fun x hx => h x (List.mem_cons_of_mem _ hx))
    rw [List.foldl_cons, show (e :: es).length = 1 + es.length by simp; omega]
    simpa [List.mem_cons] using h1

theorem collect_did {H : Heap} (wf : WF H) (hit down : Nat → Bool) :
    ∀ (n p : Nat) (w : W), p < n → Did H hit down (· = p) 1 w (collect H hit down n p w) := by
  intro n
  induction n with
  | zero => intro p w h; omega
  | succ n ih =>
    intro p w hp
    unfold collect
    by_cases hv : p ∈ w.vis
    · rw [if_pos hv]
      exact ⟨⟨[], by simp, id, by simp⟩, fun q hq => hq ▸ hv, fun x hx => .inl hx, fun x hx h => absurd hx h,
        fun x => ⟨.inl, fun h => h.elim id fun h => absurd h.1 h.2.1⟩⟩
    · rw [if_neg hv]
      have nd : w.vis.Nodup → (w.vis ++ [p]).Nodup := by
        intro h
        rw [List.nodup_append]
        exact ⟨h, by simp, by rintro a ha b hb rfl; simp only [List.mem_singleton] at hb; exact hv (hb ▸ ha)⟩
      by_cases hh : hit p = true
      · rw [if_pos hh]
        refine ⟨⟨[p], rfl, nd, by simp⟩, fun q hq => by simp [hq], fun x hx => ?_, fun x hx h0 h1 => ?_, fun x => ?_⟩
        · rcases List.mem_append.mp hx with h | h
          · exact .inl h
          · exact .inr ⟨p, rfl, by rw [List.mem_singleton.mp h]; exact .refl _⟩
        · rcases List.mem_append.mp hx with h | h
          · exact absurd h h0
          · rw [List.mem_singleton.mp h, hh] at h1; cases h1
        · simp only [mem_ins, List.mem_append, List.mem_singleton]
          constructor
          · rintro (h | rfl)
            · exact .inl h
            · exact .inr ⟨.inr rfl, hv, hh⟩
          · rintro (h | ⟨h1 | h1, h2, h3⟩)
            · exact .inl h
            · exact absurd h1 h2
            · exact .inr h1
      · rw [if_neg hh]
        simp only [Bool.not_eq_true] at hh
        by_cases hd : down p = true
        · rw [if_pos hd]
          have hf := foldl_did (H := H) (hit := hit) (down := down)
            (f := fun w c => collect H hit down n c w) (kids H p) ⟨w.acc, w.vis ++ [p], w.calls + 1⟩
            (fun c hc w' => ih c w' (by have := kids_lt wf hc; omega))
          obtain ⟨T, e, n2, c2⟩ := hf.grow
          refine ⟨⟨p :: T, by rw [e]; simp, fun h => n2 (nd h), ?_⟩, fun q hq => hf.sub q (by simp [hq]), fun x hx => ?_,
            fun x hx h0 h1 h2 c hc => ?_, fun x => ?_⟩
          · have : deg H (p :: T) = (kids H p).length + deg H T := by simp [deg]
            simp only at c2
            omega
          · rcases hf.from' x hx with h | ⟨q, hq, h⟩
            · rcases List.mem_append.mp h with h | h
              · exact .inl h
              · exact .inr ⟨p, rfl, by rw [List.mem_singleton.mp h]; exact .refl _⟩
            · exact .inr ⟨p, rfl, Path.head ⟨hh, hd⟩ hq h⟩
          · by_cases hx' : x ∈ w.vis ++ [p]
            · rcases List.mem_append.mp hx' with h | h
              · exact absurd h h0
              · rw [List.mem_singleton.mp h] at hc
                exact hf.root c hc
            · exact hf.closed x hx hx' h1 h2 c hc
          · rw [hf.acc]
            simp only [List.mem_append, List.mem_singleton, not_or]
            constructor
            · rintro (h | ⟨h1, ⟨h2, _⟩, h3⟩)
              · exact .inl h
              · exact .inr ⟨h1, h2, h3⟩
            · rintro (h | ⟨h1, h2, h3⟩)
              · exact .inl h
              · refine .inr ⟨h1, ⟨h2, ?_⟩, h3⟩
                rintro rfl
                rw [hh] at h3; cases h3
        · rw [if_neg hd]
          refine ⟨⟨[p], rfl, nd, by simp⟩, fun q hq => by simp [hq], fun x hx => ?_, fun x hx h0 h1 h2 => ?_, fun x => ?_⟩
          · rcases List.mem_append.mp hx with h | h
            · exact .inl h
            · exact .inr ⟨p, rfl, by rw [List.mem_singleton.mp h]; exact .refl _⟩
          · rcases List.mem_append.mp hx with h | h
            · exact absurd h h0
            · rw [List.mem_singleton.mp h] at h2; exact absurd h2 hd
          · simp only [List.mem_append, List.mem_singleton]
            constructor
            · exact .inl
            · rintro (h | ⟨h1 | rfl, h2, h3⟩)
              · exact h
              · exact absurd h1 h2
              · rw [hh] at h3; cases h3

theorem collectL_did {H : Heap} (wf : WF H) (hit down : Nat → Bool) (es : List Nat) (w : W) :
    Did H hit down (· ∈ es) es.length w (collectL H hit down es w) :=
  foldl_did es w fun e _ w' => collect_did wf hit down (e + 1) e w' (by omega)

/-- starting with nothing visited, exactly the hits on paths through entered nodes are found -/
theorem did_exact {H hit down roots k} {acc : List Nat} {c : Nat} {w' : W} (d : Did H hit down roots k ⟨acc, [], c⟩ w') (x : Nat) :
    x ∈ w'.acc ↔ x ∈ acc ∨ (hit x = true ∧ ∃ p, roots p ∧ Path H (fun q => hit q = false ∧ down q = true) p x) := by
  have hin : ∀ p x, roots p → Path H (fun q => hit q = false ∧ down q = true) p x → x ∈ w'.vis := by
    intro p x hp h
    induction h with
    | refl => exact d.root _ hp
    | step _ hi hk ih => exact d.closed _ ih (by simp) hi.1 hi.2 _ hk
  rw [d.acc]
  constructor
  · rintro (h | ⟨h1, _, h3⟩)
    · exact .inl h
    · refine .inr ⟨h3, ?_⟩
      rcases d.from' x h1 with h | h
      · simp at h
      · exact h
  · rintro (h | ⟨h1, p, hp, h⟩)
    · exact .inl h
    · exact .inr ⟨hin p x hp h, by simp, h1⟩

end SMT.Walk
