import Verif.Eval.Props

/-! # C35: a total model gives a constant -/

namespace SMT.Eval
open SMT SMT.Term

set_option linter.unusedSimpArgs false
set_option linter.unusedVariables false

/-- the operators whose folding is modelled -/
def interp : Kind → Bool
  | .and | .or | .xor | .implies | .not | .eq | .distinct | .ite | .add | .mul | .sub | .neg | .le | .lt | .ge | .gt => true
  | _ => false

mutual
/-- every application is of a modelled operator and mentions a variable: what the constructors return for such operators, since
they fold literals -/
def Open : Term → Bool
  | .app k _ ts => interp k && !(varsL ts).isEmpty && OpenL ts
  | _ => true
/-- all terms of a list -/
def OpenL : List Term → Bool
  | [] => true
  | t :: ts => Open t && OpenL ts
end

/-- every variable of `e` has a literal in the model -/
def Total (m : Mdl.M) (e : Term) : Prop := ∀ vk s x, Term.var vk s x ∈ vars e → (Mdl.get m x).isConst = true

section
variable {r : Bool} {c : Cfg} {ρ : Env} {v : Val} {e : Term} {rs : List R}

theorem constN {t : Term} (hs : Std r t = true) (hc : t.isConst = true) (hn : IsN ρ t) :
    (∃ i, t = .cint i) ∨ ∃ n q, t = .creal n q ∧ r = true := by
  obtain ⟨q, hq⟩ := hn
  rcases std_const hs hc with rfl | rfl | h | h | ⟨x, rfl⟩ | ⟨w, x, rfl⟩
  · simp [eval] at hq
  · simp [eval] at hq
  · exact .inl h
  · exact .inr h
  · simp only [eval] at hq; have := (guardSort_some.1 hq).1; simp at this
  · simp only [eval] at hq; have := (guardSort_some.1 hq).1; simp at this

theorem const_num2 {k : Kind} (hk : k = .add ∨ k = .mul ∨ k = .sub) {s : Srt} {a b : Term}
    (sa : Std r a = true) (sb : Std r b = true) (ca : a.isConst = true) (cb : b.isConst = true) (na : IsN ρ a) (nb : IsN ρ b) :
    (mkOper c s k [a, b]).isConst = true := by
  rcases constN sa ca na with ⟨i, rfl⟩ | ⟨n, q, rfl, -⟩ <;> rcases constN sb cb nb with ⟨j, rfl⟩ | ⟨n', q', rfl, -⟩ <;>
    rcases hk with rfl | rfl | rfl <;> simp [mkOper, simp, simp2, isCInt, isCReal, mkConstReal, isUnknown, isConst]

theorem const_foldK (hc : NumOk r c) {k : Kind} (hk : k = .add ∨ k = .mul ∨ k = .sub) {s : Srt} (hs : s.isNum = true) :
    ∀ (ks : List Term) (k0 : Term), Std r k0 = true → k0.isConst = true → IsN ρ k0 → (∀ t ∈ ks, Std r t = true) →
      (∀ t ∈ ks, t.isConst = true) → (∀ t ∈ ks, IsN ρ t) → (foldK c k s k0 ks).isConst = true := by
  intro ks
  induction ks with
  | nil => intro k0 _ h _ _ _ _; exact h
  | cons t ks ih =>
    intro k0 h1 h2 h3 h4 h5 h6
    have hg := num2 (ρ := ρ) hc hk hs h1 (h4 t (by simp)) h3 (h6 t (by simp))
    have hq := const_num2 (c := c) (s := s) hk h1 (h4 t (by simp)) h2 (h5 t (by simp)) h3 (h6 t (by simp))
    exact ih (mkOper c s k [k0, t]) hg.2 hq ⟨_, hg.1⟩ (fun u hu => h4 u (by simp [hu])) (fun u hu => h5 u (by simp [hu]))
      fun u hu => h6 u (by simp [hu])

theorem others_nil {us : List Term} (h : ∀ u ∈ us, u.isConst = true) : others us = [] := by
  rw [others, List.filter_eq_nil_iff]
  intro t ht
  simp [h t ht]
theorem consts_all {us : List Term} (h : ∀ u ∈ us, u.isConst = true) : consts us = us := by
  rw [consts, List.filter_eq_self]
  exact h

theorem const_cmp {k : Kind} (hk : isCmp k = true) (hf : r = true → c.floating = true) {s : Srt} {a b : Term}
    (sa : Std r a = true) (sb : Std r b = true) (ca : a.isConst = true) (cb : b.isConst = true) (na : IsN ρ a) (nb : IsN ρ b) :
    (mkOper c s k [a, b]).isConst = true := by
  have hb : ∀ x : Bool, (ofBool x).isUnknown = false := by intro x; cases x <;> rfl
  have hb' : ∀ x : Bool, (ofBool x).isConst = true := by intro x; cases x <;> rfl
  rcases constN sa ca na with ⟨i, rfl⟩ | ⟨n, q, rfl, hr⟩ <;> rcases constN sb cb nb with ⟨j, rfl⟩ | ⟨n', q', rfl, hr'⟩ <;>
    cases k <;> simp [isCmp] at hk <;> simp [mkOper, simp, simp2, isCInt, isCReal, hb, hb'] <;>
    first | simp [hf hr, hb, hb'] | simp [hf hr', hb, hb']

/-- all operands literals, one of them changed: the result is a literal -/
theorem step_const (hc : NumOk r c) (hf : r = true → c.floating = true) (o : Opt) (k : Kind) (s : Srt) (n : Nat) (hi : interp k = true)
    (hs : ∀ u ∈ rs.map Prod.fst, Std r u = true) (hcs : ∀ u ∈ rs.map Prod.fst, u.isConst = true) (hch : (rs.any fun p => p.2) = true)
    (hrel : relBin k rs.length = true) (him : k = .implies → rs.length = 2) (hv : v.hasSort s = true)
    (h : evalApp ρ k (rs.map Prod.fst) s = some v) : (step c o k s e rs).1.isConst = true ∧ (step c o k s e rs).2 = true := by
  have ho := others_nil hcs
  have hk := consts_all hcs
  have hne : rs ≠ [] := by rintro rfl; simp at hch
  cases k <;> simp only [interp, Bool.false_eq_true] at hi <;> simp only [step]
  case and => simp only [evAnd]; split <;> simp [hch, ho, isConst]
  case or => simp only [evOr]; split <;> simp [hch, ho, isConst]
  case xor => simp only [evXor, hch, ho]; simp; split <;> simp [isConst]
  case eq =>
    simp only [evEq, hch, hk, ho]
    obtain ⟨p, l, rfl⟩ := List.exists_cons_of_ne_nil hne
    simp only [List.map_cons]
    simp; split <;> simp [isConst]
  case distinct =>
    simp only [evDistinct, hch, hk, ho]
    split
    · simp [isConst]
    · simp [hne, isConst]
  case ite =>
    obtain ⟨x, a, b, heq, hb, -⟩ := (evalApp_ite ρ _ s v).1 h
    rcases rs with _ | ⟨p1, _ | ⟨p2, _ | ⟨p3, _ | ⟨p4, l⟩⟩⟩⟩ <;> simp at heq
    have h1 := hcs p1.1 (by simp)
    have h2 := hcs p2.1 (by simp)
    have h3 := hcs p3.1 (by simp)
    simp only [List.any_cons, List.any_nil, Bool.or_false] at hch
    simp only [evIte]
    rw [← Bool.or_assoc] at hch
    simp only [hch, h1]
    simp
    split <;> assumption
  case not =>
    obtain ⟨t, ht, hb⟩ := (evalApp_not ρ _ s v).1 h
    rcases rs with _ | ⟨p1, _ | ⟨p2, l⟩⟩ <;> simp at ht
    subst ht
    simp only [List.any_cons, List.any_nil, Bool.or_false] at hch
    rcases constB (hcs p1.1 (by simp)) hb.1 with hq | hq <;>
      simp [evFix, hch, hq, mkOper, simp, simp1, Term.isTrue, Term.isFalse, isUnknown, isConst]
  case neg =>
    obtain ⟨t, ht, hn⟩ := (evalApp_neg ρ _ s v).1 h
    rcases rs with _ | ⟨p1, _ | ⟨p2, l⟩⟩ <;> simp at ht
    subst ht
    simp only [List.any_cons, List.any_nil, Bool.or_false] at hch
    rcases constN (hs p1.1 (by simp)) (hcs p1.1 (by simp)) hn.1 with ⟨i, hq⟩ | ⟨m, q, hq, -⟩ <;>
      simp [evFix, hch, hq, mkOper, simp, simp1, isCInt, isCReal, mkConstReal, isUnknown, isConst]
  case implies =>
    have h2 := him rfl
    obtain ⟨-, hb, -⟩ := (evalApp_implies ρ _ s v).1 h
    rcases rs with _ | ⟨p1, _ | ⟨p2, _ | ⟨p3, l⟩⟩⟩ <;> simp at h2
    simp only [List.any_cons, List.any_nil, Bool.or_false] at hch
    rcases constB (hcs p1.1 (by simp)) (hb p1.1 (by simp)) with hq | hq <;>
      rcases constB (hcs p2.1 (by simp)) (hb p2.1 (by simp)) with hq' | hq' <;>
      simp [evFix, hch, hq, hq', mkOper, simp, simp2, Term.isTrue, Term.isFalse, isUnknown, isConst]
  case add =>
    obtain ⟨-, hn, rfl⟩ := (evalApp_add ρ _ s v).1 h
    simp only [evNary, hch, hk, ho]
    obtain ⟨p, l, rfl⟩ := List.exists_cons_of_ne_nil hne
    simp only [List.map_cons] at *
    simp [finish]
    exact const_foldK (ρ := ρ) hc (.inl rfl) (num_sort hv) _ _ (hs _ (by simp)) (hcs _ (by simp)) (hn _ (by simp))
      (fun t ht => hs t (List.mem_cons_of_mem _ ht)) (fun t ht => hcs t (List.mem_cons_of_mem _ ht)) fun t ht => hn t (List.mem_cons_of_mem _ ht)
  case mul =>
    obtain ⟨-, hn, rfl⟩ := (evalApp_mul ρ _ s v).1 h
    simp only [evNary, hch, hk, ho]
    obtain ⟨p, l, rfl⟩ := List.exists_cons_of_ne_nil hne
    simp only [List.map_cons] at *
    simp [finish]
    exact const_foldK (ρ := ρ) hc (.inr (.inl rfl)) (num_sort hv) _ _ (hs _ (by simp)) (hcs _ (by simp)) (hn _ (by simp))
      (fun t ht => hs t (List.mem_cons_of_mem _ ht)) (fun t ht => hcs t (List.mem_cons_of_mem _ ht)) fun t ht => hn t (List.mem_cons_of_mem _ ht)
  case sub =>
    obtain ⟨-, hn, rfl⟩ := (evalApp_sub ρ _ s v).1 h
    simp only [evFirst, hch, hk, ho]
    obtain ⟨p, l, rfl⟩ := List.exists_cons_of_ne_nil hne
    simp only [List.map_cons] at *
    simp [finish, hcs p.1 (by simp)]
    exact const_foldK (ρ := ρ) hc (.inr (.inr rfl)) (num_sort hv) _ _ (hs _ (by simp)) (hcs _ (by simp)) (hn _ (by simp))
      (fun t ht => hs t (List.mem_cons_of_mem _ ht)) (fun t ht => hcs t (List.mem_cons_of_mem _ ht)) fun t ht => hn t (List.mem_cons_of_mem _ ht)
  all_goals
    obtain ⟨-, hn, -⟩ := (evalApp_cmp' ρ _ s v _ rfl).1 h
    simp only [relBin, beq_iff_eq] at hrel
    rcases rs with _ | ⟨p1, _ | ⟨p2, _ | ⟨p3, l⟩⟩⟩ <;> simp at hrel
    simp only [List.any_cons, List.any_nil, Bool.or_false] at hch
    simp [evFix, hch]
    exact const_cmp rfl hf (hs _ (by simp)) (hs _ (by simp)) (hcs _ (by simp)) (hcs _ (by simp)) (hn _ (by simp)) (hn _ (by simp))

end

mutual
theorem ev_const (r : Bool) (c : Cfg) (o : Opt) (m : Mdl.M) (ρ : Env) (hc : NumOk r c) (hf : r = true → c.floating = true)
    (hm : ∀ x, Std r (Mdl.get m x) = true) :
    (e : Term) → In r o e = true → Open e = true → Extends ρ m e → Total m e → ∀ v, eval ρ e = some v →
      (ev c o m e).1.isConst = true ∧ (vars e ≠ [] → (ev c o m e).2 = true)
  | .unknown, _, _, _, _, v, h => by simp [eval] at h
  | .err, _, _, _, _, v, h => by simp [eval] at h
  | .tt, _, _, _, _, v, h => by simp [ev, isConst, vars]
  | .ff, _, _, _, _, v, h => by simp [ev, isConst, vars]
  | .cint i, _, _, _, _, v, h => by simp [ev, isConst, vars]
  | .creal n q, _, _, _, _, v, h => by simp [ev, isConst, vars]
  | .clit s x, _, _, _, _, v, h => by simp [ev, isConst, vars]
  | .var vk s x, hi, _, hx, ht, v, h => by
    have := ht vk s x (by simp [vars])
    have hu : (Mdl.get m x).isUnknown = false := by
      cases hq : Mdl.get m x <;> simp [hq, isConst] at this <;> rfl
    simp [ev, hu, this]
  | .app k s ts, hi, hop, hx, ht, v, h => by
    simp only [In, Bool.and_eq_true] at hi
    obtain ⟨htop, hil⟩ := hi
    simp only [Open, Bool.and_eq_true] at hop
    obtain ⟨⟨hint, hvs0⟩, hol⟩ := hop
    rw [eval_app] at h
    obtain ⟨ha, hv⟩ := guardSort_some.1 h
    obtain ⟨vs, hvs⟩ : ∃ vs, evalL ρ ts = some vs := by
      unfold evalApp at ha
      cases hq : evalL ρ ts with
      | none => rw [hq] at ha; cases ha
      | some vs => exact ⟨vs, rfl⟩
    have hx' : ∀ vk s x, Term.var vk s x ∈ varsL ts → Mdl.get m x ≠ .unknown → eval ρ (.var vk s x) = eval ρ (Mdl.get m x) :=
      fun vk s x hmem hne => hx vk s x (by simpa [vars] using hmem) hne
    have ht' : ∀ vk s x, Term.var vk s x ∈ varsL ts → (Mdl.get m x).isConst = true :=
      fun vk s x hmem => ht vk s x (by simpa [vars] using hmem)
    have hl := evL_good r c o m ρ hc hm ts hil hx' vs hvs
    have hk := evL_const r c o m ρ hc hf hm ts hil hol hx' ht' vs hvs
    have hus : evalApp ρ k ((evL c o m ts).map Prod.fst) s = some v := by
      unfold evalApp at ha ⊢
      rw [hl.1]
      rw [hvs] at ha
      exact ha
    have hlen' := evL_length (c := c) (o := o) (m := m) ts
    simp only [topOk, Bool.and_eq_true] at htop
    have := step_const (e := .app k s ts) hc hf o k s 0 hint hl.2 hk.1 (hk.2 (by simpa using hvs0)) (by rw [hlen']; exact htop.1)
      (by rintro rfl; rw [hlen']; simpa using htop.2) hv hus
    simp only [ev]
    exact ⟨this.1, fun _ => this.2⟩
theorem evL_const (r : Bool) (c : Cfg) (o : Opt) (m : Mdl.M) (ρ : Env) (hc : NumOk r c) (hf : r = true → c.floating = true)
    (hm : ∀ x, Std r (Mdl.get m x) = true) :
    (ts : List Term) → InL r o ts = true → OpenL ts = true →
      (∀ vk s x, Term.var vk s x ∈ varsL ts → Mdl.get m x ≠ .unknown → eval ρ (.var vk s x) = eval ρ (Mdl.get m x)) →
      (∀ vk s x, Term.var vk s x ∈ varsL ts → (Mdl.get m x).isConst = true) →
      ∀ vs, evalL ρ ts = some vs →
        (∀ u ∈ (evL c o m ts).map Prod.fst, u.isConst = true) ∧ (varsL ts ≠ [] → ((evL c o m ts).any fun p => p.2) = true)
  | [], _, _, _, _, vs, h => by simp [evL, varsL]
  | t :: ts, hi, hop, hx, ht, vs, h => by
    simp only [InL, Bool.and_eq_true] at hi
    simp only [OpenL, Bool.and_eq_true] at hop
    simp only [evalL] at h
    cases h1 : eval ρ t with
    | none => rw [h1] at h; cases h
    | some w =>
      cases h2 : evalL ρ ts with
      | none => rw [h1, h2] at h; cases h
      | some ws =>
        have g1 := ev_const r c o m ρ hc hf hm t hi.1 hop.1 (fun vk s x hmem hne => hx vk s x (by simp [varsL, hmem]) hne)
          (fun vk s x hmem => ht vk s x (by simp [varsL, hmem])) w h1
        have g2 := evL_const r c o m ρ hc hf hm ts hi.2 hop.2 (fun vk s x hmem hne => hx vk s x (by simp [varsL, hmem]) hne)
          (fun vk s x hmem => ht vk s x (by simp [varsL, hmem])) ws h2
        simp only [evL, List.map_cons, List.any_cons, varsL]
        refine ⟨?_, ?_⟩
        · intro u hu
          rcases List.mem_cons.mp hu with rfl | hu
          · exact g1.1
          · exact g2.1 u hu
        · intro hne
          by_cases hq : vars t = []
          · rw [hq] at hne
            rw [g2.2 (by simpa using hne)]
            simp
          · rw [g1.2 hq]
            simp
end

/-- **C35.**  If the model has a literal for every variable of a well-typed expression over the modelled operators, evaluation
gives a literal: with integers always, with reals if floating-point evaluation is on. -/
theorem evaluate_const_partial (r : Bool) (c : Cfg) (o : Opt) (m : Mdl.M) (ρ : Env) (e : Term) (v : Val) (hc : NumOk r c)
    (hf : r = true → c.floating = true) (hm : ∀ x, Std r (Mdl.get m x) = true) (hi : In r o e = true) (ho : Open e = true)
    (hx : Extends ρ m e) (ht : Total m e) (h : eval ρ e = some v) (hne : Mdl.isEmpty m = false) :
    (evaluate c o m e).isConst = true := by
  unfold evaluate
  rw [hne]
  exact (ev_const r c o m ρ hc hf hm e hi ho hx ht v h).1

end SMT.Eval
