import Verif.Eval.NeatCons

/-! # C81: evaluation of such terms -/

namespace SMT.Eval
open SMT SMT.Term

set_option linter.unusedSimpArgs false
set_option linter.unusedVariables false

section
variable {r u : Bool} {V : VK → Srt → String → Prop}

mutual
theorem neat_in (o : Opt) (ho : ∀ i, o.arity (.uf i) = none) : (t : Term) → Std r t = true → Neat r u V t → In r o t = true
  | .app k s ts, hs, hn => by
    rw [std_app] at hs
    obtain ⟨h1, -, h3⟩ := neat_app.1 hn
    simp only [In, Bool.and_eq_true]
    refine ⟨?_, neat_inL o ho ts (stdL_iff.2 hs.2) (neatL_iff.2 h3)⟩
    simp only [topOk, Bool.and_eq_true]
    refine ⟨hs.1, ?_⟩
    cases k <;> simp_all [topN, interp]
  | .unknown, hs, _ => by simp [In, leafOk]
  | .err, hs, _ => by simp [In, leafOk]
  | .tt, hs, _ => by simp [In, leafOk]
  | .ff, hs, _ => by simp [In, leafOk]
  | .cint i, hs, _ => by simp [In, leafOk]
  | .creal n q, hs, _ => by simpa [In, Std] using hs
  | .clit s x, hs, _ => by simpa [In, Std] using hs
  | .var vk s x, hs, _ => by simp [In, leafOk]
theorem neat_inL (o : Opt) (ho : ∀ i, o.arity (.uf i) = none) : (ts : List Term) → StdL r ts = true → NeatL r u V ts → InL r o ts = true
  | [], _, _ => rfl
  | t :: ts, hs, hn => by
    simp only [StdL, Bool.and_eq_true] at hs
    simp only [NeatL] at hn
    simp only [InL, Bool.and_eq_true]
    exact ⟨neat_in o ho t hs.1 hn.1, neat_inL o ho ts hs.2 hn.2⟩
end

mutual
theorem neat_vars : (t : Term) → Neat r u V t → ∀ vk s x, Term.var vk s x ∈ vars t → V vk s x
  | .app k s ts, hn, vk, s', x, h => neat_varsL ts (neatL_iff.2 (neat_app.1 hn).2.2) vk s' x (by simpa [vars] using h)
  | .var vk s x, hn, vk', s', x', h => by
    simp only [vars, List.mem_cons, List.not_mem_nil, or_false, Term.var.injEq] at h
    obtain ⟨rfl, rfl, rfl⟩ := h
    simpa [Neat] using hn
  | .unknown, _, _, _, _, h => by simp [vars] at h
  | .err, _, _, _, _, h => by simp [vars] at h
  | .tt, _, _, _, _, h => by simp [vars] at h
  | .ff, _, _, _, _, h => by simp [vars] at h
  | .cint _, _, _, _, _, h => by simp [vars] at h
  | .creal _ _, _, _, _, _, h => by simp [vars] at h
  | .clit _ _, _, _, _, _, h => by simp [vars] at h
theorem neat_varsL : (ts : List Term) → NeatL r u V ts → ∀ vk s x, Term.var vk s x ∈ varsL ts → V vk s x
  | [], _, _, _, _, h => by simp [varsL] at h
  | t :: ts, hn, vk, s, x, h => by
    simp only [NeatL] at hn
    simp only [varsL, List.mem_append] at h
    rcases h with h | h
    · exact neat_vars t hn.1 vk s x h
    · exact neat_varsL ts hn.2 vk s x h
end

mutual
theorem ev_live (c : Cfg) (o : Opt) (m : Mdl.M) (ρ : Env) (ho : ∀ i, o.arity (.uf i) = none) (hc : NumOk r c)
    (hf : r = true → c.floating = true) (hm : ∀ x, Std r (Mdl.get m x) = true) :
    (e : Term) → Std r e = true → Neat r false V e → Extends ρ m e → Total m e → ∀ v, eval ρ e = some v →
      (ev c o m e).1.isConst = true ∧ (live e = true → (ev c o m e).2 = true)
  | .unknown, _, _, _, _, v, h => by simp [eval] at h
  | .err, _, _, _, _, v, h => by simp [eval] at h
  | .tt, _, _, _, _, v, h => by simp [ev, isConst, live]
  | .ff, _, _, _, _, v, h => by simp [ev, isConst, live]
  | .cint i, _, _, _, _, v, h => by simp [ev, isConst, live]
  | .creal n q, _, _, _, _, v, h => by simp [ev, isConst, live]
  | .clit s x, _, _, _, _, v, h => by simp [ev, isConst, live]
  | .var vk s x, _, _, hx, ht, v, h => by
    have := ht vk s x (by simp [vars])
    have hu : (Mdl.get m x).isUnknown = false := by
      cases hq : Mdl.get m x <;> simp [hq, isConst] at this <;> rfl
    simp [ev, hu, this]
  | .app k s ts, hs, hn, hx, ht, v, h => by
    have hi := neat_in o ho _ hs hn
    simp only [In, Bool.and_eq_true] at hi
    obtain ⟨htop, hil⟩ := hi
    have hn' := neat_app.1 hn
    rw [std_app] at hs
    rw [eval_app] at h
    obtain ⟨ha, hv⟩ := guardSort_some.1 h
    obtain ⟨vs, hvs⟩ : ∃ vs, evalL ρ ts = some vs := by
      unfold evalApp at ha
      cases hq : evalL ρ ts with
      | none => rw [hq] at ha; cases ha
      | some vs => exact ⟨vs, rfl⟩
    have hx' : ∀ vk s x, Term.var vk s x ∈ varsL ts → Mdl.get m x ≠ .unknown → eval ρ (.var vk s x) = eval ρ (Mdl.get m x) :=
      fun vk s x hmem hne => hx vk s x (by simpa [vars] using hmem) hne
    have ht' : ∀ vk s x, Term.var vk s x ∈ varsL ts → (Mdl.get m x).isConst = true :=
      fun vk s x hmem => ht vk s x (by simpa [vars] using hmem)
    have hint : interp k = true := by
      have := hn'.1
      cases k <;> simp [topN] at this <;> first | rfl | exact this
    by_cases htw : twice k ts = true
    · have : k = .distinct ∧ ts = [.tt, .tt] := by
        unfold twice at htw
        split at htw
        · exact ⟨rfl, rfl⟩
        · cases htw
      obtain ⟨rfl, rfl⟩ := this
      have e : ev c o m (.app .distinct s [.tt, .tt]) = (.ff, true) := by
        simp [ev, evL, step, evDistinct, consts, isConst, dedup]
      rw [e]
      exact ⟨rfl, fun _ => rfl⟩
    have hlv : liveL ts = true := by
      rcases hn'.2.1 with h | h
      · cases h
      · simpa [live, htw] using h
    have hl := evL_good r c o m ρ hc hm ts hil hx' vs hvs
    have hk := evL_live c o m ρ ho hc hf hm ts (stdL_iff.2 hs.2) (neatL_iff.2 hn'.2.2) hx' ht' vs hvs
    have hus : evalApp ρ k ((evL c o m ts).map Prod.fst) s = some v := by
      unfold evalApp at ha ⊢
      rw [hl.1]
      rw [hvs] at ha
      exact ha
    have hlen' := evL_length (c := c) (o := o) (m := m) ts
    simp only [topOk, Bool.and_eq_true] at htop
    have := step_const (e := .app k s ts) hc hf o k s 0 hint hl.2 hk.1 (hk.2 hlv) (by rw [hlen']; exact htop.1)
      (by rintro rfl; rw [hlen']; simpa using htop.2) hv hus
    simp only [ev]
    exact ⟨this.1, fun _ => this.2⟩
theorem evL_live (c : Cfg) (o : Opt) (m : Mdl.M) (ρ : Env) (ho : ∀ i, o.arity (.uf i) = none) (hc : NumOk r c)
    (hf : r = true → c.floating = true) (hm : ∀ x, Std r (Mdl.get m x) = true) :
    (ts : List Term) → StdL r ts = true → NeatL r false V ts →
      (∀ vk s x, Term.var vk s x ∈ varsL ts → Mdl.get m x ≠ .unknown → eval ρ (.var vk s x) = eval ρ (Mdl.get m x)) →
      (∀ vk s x, Term.var vk s x ∈ varsL ts → (Mdl.get m x).isConst = true) →
      ∀ vs, evalL ρ ts = some vs →
        (∀ u ∈ (evL c o m ts).map Prod.fst, u.isConst = true) ∧ (liveL ts = true → ((evL c o m ts).any fun p => p.2) = true)
  | [], _, _, _, _, vs, h => by simp [evL, liveL]
  | t :: ts, hs, hn, hx, ht, vs, h => by
    simp only [StdL, Bool.and_eq_true] at hs
    simp only [NeatL] at hn
    simp only [evalL] at h
    cases h1 : eval ρ t with
    | none => rw [h1] at h; cases h
    | some w =>
      cases h2 : evalL ρ ts with
      | none => rw [h1, h2] at h; cases h
      | some ws =>
        have g1 := ev_live c o m ρ ho hc hf hm t hs.1 hn.1 (fun vk s x hmem hne => hx vk s x (by simp [varsL, hmem]) hne)
          (fun vk s x hmem => ht vk s x (by simp [varsL, hmem])) w h1
        have g2 := evL_live c o m ρ ho hc hf hm ts hs.2 hn.2 (fun vk s x hmem hne => hx vk s x (by simp [varsL, hmem]) hne)
          (fun vk s x hmem => ht vk s x (by simp [varsL, hmem])) ws h2
        simp only [evL, List.map_cons, List.any_cons, liveL, Bool.or_eq_true]
        refine ⟨?_, ?_⟩
        · intro u hu
          rcases List.mem_cons.mp hu with rfl | hu
          · exact g1.1
          · exact g2.1 u hu
        · rintro (hq | hq)
          · exact .inl (g1.2 hq)
          · exact .inr (g2.2 hq)
end
end

end SMT.Eval
