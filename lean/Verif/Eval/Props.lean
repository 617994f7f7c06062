import Verif.Eval.Steps

/-! # C35: evaluation agrees with the semantics -/

namespace SMT.Eval
open SMT SMT.Term

set_option linter.unusedSimpArgs false
set_option linter.unusedVariables false

private theorem rat_zero_sub' (x : Rat) : 0 - x = -x := by grind
private theorem rat_sub_zero' (x : Rat) : x - 0 = x := by grind
attribute [local simp] Rat.add_zero Rat.zero_add Rat.mul_one Rat.one_mul rat_sub_zero'

section
variable {r : Bool} {c : Cfg} {ρ : Env} {v : Val} {e : Term} {rs : List R}

/-- the operation of an arithmetic kind -/
def aop : Kind → Rat → Rat → Rat
  | .add => (· + ·)
  | .mul => (· * ·)
  | .sub => (· - ·)
  | _ => fun a _ => a

theorem num2 (hc : NumOk r c) {k : Kind} (hk : k = .add ∨ k = .mul ∨ k = .sub) {s : Srt} (hs : s.isNum = true) {a b : Term}
    (sa : Std r a = true) (sb : Std r b = true) (na : IsN ρ a) (nb : IsN ρ b) :
    Good r ρ (.n (aop k (nval ρ a) (nval ρ b))) (mkOper c s k [a, b]) := by
  have hst : ∀ t ∈ [a, b], Std r t = true := by simp [sa, sb]
  have hn : ∀ t ∈ [a, b], IsN ρ t := by
    intro t ht; simp at ht; rcases ht with rfl | rfl <;> assumption
  refine ⟨(mkOper_sound c ρ k [a, b] s _ (fun t ht => std_fit hc (hst t ht)) (by simp) ?_ (hasSort_num hs) ?_).1,
    std_mkOper c s k _ (by rcases hk with rfl | rfl | rfl <;> rfl) hst⟩
  · rintro rfl; rcases hk with h | h | h <;> cases h
  · rcases hk with rfl | rfl | rfl
    · rw [evalApp_add]; refine ⟨by simp, hn, ?_⟩; simp [aop]
    · rw [evalApp_mul]; refine ⟨by simp, hn, ?_⟩; simp [aop, ratProd]
    · rw [evalApp_sub]; refine ⟨by simp, hn, ?_⟩; simp [aop, ratSub]

theorem foldK_good (hc : NumOk r c) {k : Kind} (hk : k = .add ∨ k = .mul ∨ k = .sub) {s : Srt} (hs : s.isNum = true) :
    ∀ (ks : List Term) (k0 : Term), Std r k0 = true → IsN ρ k0 → (∀ t ∈ ks, Std r t = true) → (∀ t ∈ ks, IsN ρ t) →
      Good r ρ (.n ((ks.map (nval ρ)).foldl (aop k) (nval ρ k0))) (foldK c k s k0 ks) := by
  intro ks
  induction ks with
  | nil => intro k0 h1 h2 _ _; exact ⟨h2.eval, h1⟩
  | cons t ks ih =>
    intro k0 h1 h2 h3 h4
    have hg := num2 (ρ := ρ) hc hk hs h1 (h3 t (by simp)) h2 (h4 t (by simp))
    have := ih (mkOper c s k [k0, t]) hg.2 ⟨_, hg.1⟩ (fun u hu => h3 u (by simp [hu])) fun u hu => h4 u (by simp [hu])
    rw [nval_of hg.1] at this
    exact this

theorem sum_split (us : List Term) :
    (us.map (nval ρ)).sum = ((others us).map (nval ρ)).sum + ((consts us).map (nval ρ)).sum := by
  induction us with
  | nil => simp [others, consts]
  | cons t us ih =>
    simp only [others, consts] at ih
    cases hq : t.isConst <;> simp [others, consts, hq, ih] <;> grind

theorem prod_split (us : List Term) :
    ratProd (us.map (nval ρ)) = ratProd ((others us).map (nval ρ)) * ratProd ((consts us).map (nval ρ)) := by
  induction us with
  | nil => simp [others, consts, ratProd]
  | cons t us ih =>
    simp only [others, consts, ratProd] at ih
    cases hq : t.isConst <;> simp [others, consts, hq, ih, ratProd] <;> grind

theorem foldl_add (l : List Rat) (a : Rat) : l.foldl (aop .add) a = a + l.sum := by
  induction l generalizing a with
  | nil => simp
  | cons b l ih => simp only [List.foldl_cons, List.sum_cons]; rw [ih]; simp only [aop]; grind
theorem foldl_mul (l : List Rat) (a : Rat) : l.foldl (aop .mul) a = a * ratProd l := by
  induction l generalizing a with
  | nil => simp [ratProd]
  | cons b l ih => simp only [List.foldl_cons]; rw [ih]; simp only [aop, ratProd, List.foldr_cons]; grind
theorem foldl_sub (l : List Rat) (a : Rat) : l.foldl (aop .sub) a = a - l.sum := by
  induction l generalizing a with
  | nil => simp
  | cons b l ih => simp only [List.foldl_cons, List.sum_cons]; rw [ih]; simp only [aop]; grind

theorem sum_append (a b : List Rat) : (a ++ b).sum = a.sum + b.sum := by
  induction a with
  | nil => simp
  | cons x a ih => simp [ih]; grind
theorem prod_append (a b : List Rat) : ratProd (a ++ b) = ratProd a * ratProd b := by
  unfold ratProd
  induction a with
  | nil => simp
  | cons x a ih => simp [ih]; grind

/-- `finish` on numbers -/
theorem finish_good (hc : NumOk r c) {k : Kind} (hk : k = .add ∨ k = .mul) {s : Srt} (hs : s.isNum = true) {l : List Term}
    (hne : l ≠ []) (h1 : ∀ t ∈ l, Std r t = true) (h2 : ∀ t ∈ l, IsN ρ t) :
    Good r ρ (.n (if k = .add then (l.map (nval ρ)).sum else ratProd (l.map (nval ρ)))) (finish c k s l) := by
  rcases l with _ | ⟨t, _ | ⟨t', l⟩⟩
  · exact absurd rfl hne
  · have hn := h2 t (by simp)
    refine ⟨?_, h1 t (by simp)⟩
    simp only [finish]
    rw [hn.eval]
    rcases hk with rfl | rfl <;> simp [ratProd]
  · simp only [finish]
    generalize t :: t' :: l = l at *
    refine ⟨(mkOper_sound c ρ k l s _ (fun t ht => std_fit hc (h1 t ht)) hne ?_ (hasSort_num hs) ?_).1,
      std_mkOper c s k l (by rcases hk with rfl | rfl <;> rfl) h1⟩
    · rintro rfl; rcases hk with h | h <;> cases h
    · rcases hk with rfl | rfl
      · rw [evalApp_add]; exact ⟨hne, h2, by simp⟩
      · rw [evalApp_mul]; exact ⟨hne, h2, by simp⟩

theorem finish_sub (hc : NumOk r c) {s : Srt} (hs : s.isNum = true) {l : List Term} (hne : l ≠ [])
    (h1 : ∀ t ∈ l, Std r t = true) (h2 : ∀ t ∈ l, IsN ρ t) :
    Good r ρ (.n (ratSub (l.map (nval ρ)))) (finish c .sub s l) := by
  unfold finish
  split
  · rename_i t
    have hn := h2 t (by simp)
    exact ⟨by rw [hn.eval]; simp [ratSub], h1 t (by simp)⟩
  · rename_i hq
    refine ⟨(mkOper_sound c ρ .sub l s _ (fun t ht => std_fit hc (h1 t ht)) hne (by intro h; cases h) (hasSort_num hs) ?_).1,
      std_mkOper c s .sub l rfl h1⟩
    rw [evalApp_sub]
    refine ⟨?_, h2, rfl⟩
    rcases l with _ | ⟨a, _ | ⟨b, l⟩⟩
    · exact absurd rfl hne
    · exact absurd rfl (hq a)
    · simp

theorem num_sort {s : Srt} {q : Rat} (h : (Val.n q).hasSort s = true) : s.isNum = true := by
  cases s <;> simp_all [Val.hasSort, Srt.isNum]

theorem good_nary (hc : NumOk r c) {k : Kind} (hk : k = .add ∨ k = .mul) (s : Srt) (hs : ∀ u ∈ rs.map Prod.fst, Std r u = true)
    (he : Good r ρ v e) (hv : v.hasSort s = true) (h : evalApp ρ k (rs.map Prod.fst) s = some v) : Good r ρ v (evNary c k s e rs).1 := by
  unfold evNary
  split
  · exact he
  · simp only
    generalize rs.map Prod.fst = us at *
    have key : us ≠ [] ∧ (∀ t ∈ us, IsN ρ t) ∧ v = .n (if k = .add then (us.map (nval ρ)).sum else ratProd (us.map (nval ρ))) := by
      rcases hk with rfl | rfl
      · simpa using (evalApp_add ρ us s v).1 h
      · simpa using (evalApp_mul ρ us s v).1 h
    obtain ⟨hne, hn, rfl⟩ := key
    have hsn := num_sort hv
    have so : ∀ t ∈ others us, Std r t = true := fun t ht => hs t (mem_others.1 ht).1
    have no : ∀ t ∈ others us, IsN ρ t := fun t ht => hn t (mem_others.1 ht).1
    have sc : ∀ t ∈ consts us, Std r t = true := fun t ht => hs t (mem_consts.1 ht).1
    have nc : ∀ t ∈ consts us, IsN ρ t := fun t ht => hn t (mem_consts.1 ht).1
    rw [sum_split us, prod_split us]
    cases hq : consts us with
    | nil =>
      simp only [List.map_nil, List.sum_nil]
      have hne' : others us ≠ [] := by
        intro h0
        obtain ⟨t, l, rfl⟩ := List.exists_cons_of_ne_nil hne
        cases ht : t.isConst with
        | true => have := mem_consts.2 ⟨List.mem_cons_self (a := t) (l := l), ht⟩; rw [hq] at this; cases this
        | false => have := mem_others.2 ⟨List.mem_cons_self (a := t) (l := l), ht⟩; rw [h0] at this; cases this
      have := finish_good (s := s) hc hk hsn hne' so no
      have e1 : ∀ x : Rat, x + 0 = x := by intro x; grind
      have e2 : ∀ x : Rat, x * ratProd [] = x := by intro x; simp [ratProd]
      rw [e1, e2]
      exact this
    | cons k0 ks =>
      rw [hq] at sc nc
      have hk3 : k = .add ∨ k = .mul ∨ k = .sub := by rcases hk with h | h <;> simp [h]
      have hf := foldK_good hc hk3 hsn ks k0 (sc k0 (by simp)) (nc k0 (by simp)) (fun t ht => sc t (by simp [ht])) fun t ht => nc t (by simp [ht])
      have := finish_good (s := s) (ρ := ρ) (l := others us ++ [foldK c k s k0 ks]) hc hk hsn (by simp) (by
        intro t ht
        rcases List.mem_append.mp ht with ht | ht
        · exact so t ht
        · simp only [List.mem_singleton] at ht; subst ht; exact hf.2) (by
        intro t ht
        rcases List.mem_append.mp ht with ht | ht
        · exact no t ht
        · simp only [List.mem_singleton] at ht; subst ht; exact ⟨_, hf.1⟩)
      rw [List.map_append, sum_append, prod_append, List.map_singleton, nval_of hf.1] at this
      have e3 : (if k = Kind.add then ((others us).map (nval ρ)).sum + ((k0 :: ks).map (nval ρ)).sum
          else ratProd ((others us).map (nval ρ)) * ratProd ((k0 :: ks).map (nval ρ))) =
          (if k = Kind.add then ((others us).map (nval ρ)).sum + [(ks.map (nval ρ)).foldl (aop k) (nval ρ k0)].sum
          else ratProd ((others us).map (nval ρ)) * ratProd [(ks.map (nval ρ)).foldl (aop k) (nval ρ k0)]) := by
        rcases hk with rfl | rfl
        · rw [foldl_add]; simp
        · rw [foldl_mul]; simp [ratProd]
      rw [e3]
      exact this

theorem good_sub (hc : NumOk r c) (s : Srt) (hs : ∀ u ∈ rs.map Prod.fst, Std r u = true)
    (he : Good r ρ v e) (hv : v.hasSort s = true) (h : evalApp ρ .sub (rs.map Prod.fst) s = some v) :
    Good r ρ v (evFirst c .sub .add s e rs).1 := by
  unfold evFirst
  split
  · exact he
  · simp only
    generalize rs.map Prod.fst = us at *
    obtain ⟨hlen, hn, rfl⟩ := (evalApp_sub ρ us s v).1 h
    have hsn := num_sort hv
    have so : ∀ t ∈ others us, Std r t = true := fun t ht => hs t (mem_others.1 ht).1
    have no : ∀ t ∈ others us, IsN ρ t := fun t ht => hn t (mem_others.1 ht).1
    have sc : ∀ t ∈ consts us, Std r t = true := fun t ht => hs t (mem_consts.1 ht).1
    have nc : ∀ t ∈ consts us, IsN ρ t := fun t ht => hn t (mem_consts.1 ht).1
    obtain ⟨u0, us', rfl⟩ : ∃ a l, us = a :: l := by
      cases us with
      | nil => simp at hlen
      | cons a l => exact ⟨a, l, rfl⟩
    have hsum := sum_split (ρ := ρ) us'
    cases hu : u0.isConst with
    | true =>
      have e1 : consts (u0 :: us') = u0 :: consts us' := by simp [consts, hu]
      have e2 : others (u0 :: us') = others us' := by simp [others, hu]
      rw [e1] at sc nc ⊢
      rw [e2] at so no ⊢
      simp only [List.headD_cons, hu, if_true]
      have hf := foldK_good hc (.inr (.inr rfl)) hsn (consts us') u0 (sc u0 (by simp)) (nc u0 (by simp)) (fun t ht => sc t (by simp [ht])) fun t ht => nc t (by simp [ht])
      have := finish_sub (s := s) (ρ := ρ) (l := foldK c .sub s u0 (consts us') :: others us') hc hsn (by simp) (by
        intro t ht
        rcases List.mem_cons.mp ht with rfl | ht
        · exact hf.2
        · exact so t ht) (by
        intro t ht
        rcases List.mem_cons.mp ht with rfl | ht
        · exact ⟨_, hf.1⟩
        · exact no t ht)
      rw [List.map_cons, nval_of hf.1, foldl_sub] at this
      have e3 : ratSub ((u0 :: us').map (nval ρ)) = ratSub ((nval ρ u0 - ((consts us').map (nval ρ)).sum) :: (others us').map (nval ρ)) := by
        simp only [List.map_cons, ratSub, hsum]; grind
      rw [e3]
      exact this
    | false =>
      have e1 : consts (u0 :: us') = consts us' := by simp [consts, hu]
      have e2 : others (u0 :: us') = u0 :: others us' := by simp [others, hu]
      rw [e1] at sc nc ⊢
      rw [e2] at so no ⊢
      cases hq : consts us' with
      | nil =>
        have := finish_sub (s := s) (ρ := ρ) hc hsn (by simp) so no
        have e3 : ratSub ((u0 :: us').map (nval ρ)) = ratSub ((u0 :: others us').map (nval ρ)) := by
          simp only [List.map_cons, ratSub, hsum, hq]; simp
        rw [e3]
        exact this
      | cons k0 ks =>
        rw [hq] at sc nc
        simp only [List.headD_cons, hu, Bool.false_eq_true, if_false]
        have hf := foldK_good hc (.inl rfl) hsn ks k0 (sc k0 (by simp)) (nc k0 (by simp)) (fun t ht => sc t (by simp [ht])) fun t ht => nc t (by simp [ht])
        have := finish_sub (s := s) (ρ := ρ) (l := u0 :: others us' ++ [foldK c .add s k0 ks]) hc hsn (by simp) (by
          intro t ht
          rcases List.mem_append.mp ht with ht | ht
          · exact so t ht
          · simp only [List.mem_singleton] at ht; subst ht; exact hf.2) (by
          intro t ht
          rcases List.mem_append.mp ht with ht | ht
          · exact no t ht
          · simp only [List.mem_singleton] at ht; subst ht; exact ⟨_, hf.1⟩)
        rw [List.map_append, List.map_singleton, nval_of hf.1, foldl_add] at this
        have e3 : ratSub ((u0 :: us').map (nval ρ)) =
            ratSub ((u0 :: others us').map (nval ρ) ++ [nval ρ k0 + (ks.map (nval ρ)).sum]) := by
          simp only [List.map_cons, ratSub, hsum, hq, List.cons_append, sum_append]; simp
        rw [e3]
        exact this
end

/-! ## All terms -/

theorem evL_map {c : Cfg} {o : Opt} {m : Mdl.M} (ts : List Term) : (evL c o m ts).map Prod.fst = ts.map fun t => (ev c o m t).1 := by
  induction ts with
  | nil => simp [evL]
  | cons t ts ih => simp [evL, ih]

theorem evL_length {c : Cfg} {o : Opt} {m : Mdl.M} (ts : List Term) : (evL c o m ts).length = ts.length := by
  induction ts with
  | nil => simp [evL]
  | cons t ts ih => simp [evL, ih]

mutual
theorem ev_good (r : Bool) (c : Cfg) (o : Opt) (m : Mdl.M) (ρ : Env) (hc : NumOk r c) (hm : ∀ x, Std r (Mdl.get m x) = true) :
    (e : Term) → In r o e = true → Extends ρ m e → ∀ v, eval ρ e = some v → Good r ρ v (ev c o m e).1
  | .unknown, _, _, v, h => by simp [eval] at h
  | .err, _, _, v, h => by simp [eval] at h
  | .tt, _, _, v, h => ⟨h, by simp [ev, Std, leafOk]⟩
  | .ff, _, _, v, h => ⟨h, by simp [ev, Std, leafOk]⟩
  | .cint i, _, _, v, h => ⟨h, by simp [ev, Std, leafOk]⟩
  | .creal n q, hi, _, v, h => ⟨h, hi⟩
  | .clit s x, hi, _, v, h => ⟨h, hi⟩
  | .var vk s x, hi, hx, v, h => by
    simp only [ev]
    split
    · exact ⟨h, hi⟩
    · rename_i hu
      refine ⟨?_, hm x⟩
      rw [← hx vk s x (by simp [vars]) (by rw [isUnknown_iff] at hu; exact hu)]
      exact h
  | .app k s ts, hi, hx, v, h => by
    have hst := in_std r o _ hi
    simp only [In, Bool.and_eq_true] at hi
    obtain ⟨htop, hil⟩ := hi
    rw [eval_app] at h
    obtain ⟨ha, hv⟩ := guardSort_some.1 h
    obtain ⟨vs, hvs⟩ : ∃ vs, evalL ρ ts = some vs := by
      unfold evalApp at ha
      cases hq : evalL ρ ts with
      | none => rw [hq] at ha; cases ha
      | some vs => exact ⟨vs, rfl⟩
    have hl := evL_good r c o m ρ hc hm ts hil (fun vk s x hmem hne => hx vk s x (by simpa [vars] using hmem) hne) vs hvs
    have he : Good r ρ v (.app k s ts) := ⟨by rw [eval_app]; exact guardSort_some.2 ⟨ha, hv⟩, hst⟩
    have hus : evalApp ρ k ((evL c o m ts).map Prod.fst) s = some v := by
      unfold evalApp at ha ⊢
      rw [hl.1]
      rw [hvs] at ha
      exact ha
    have hlen : ((evL c o m ts).map Prod.fst).length = ts.length := by rw [List.length_map, evL_length]
    have hlen' := evL_length (c := c) (o := o) (m := m) ts
    rw [std_app] at hst
    simp only [topOk, Bool.and_eq_true] at htop
    simp only [ev]
    have opq : (∀ n, o.arity k = some n → ts.length = n ∧ n ≠ 0) → k ≠ .implies →
        Good r ρ v (match o.arity k with
          | some n => evFix c k s n (.app k s ts) (evL c o m ts)
          | none => (.app k s ts, false)).1 := by
      intro hn hni
      cases hq : o.arity k with
      | none => exact he
      | some n =>
        obtain ⟨h1, h2⟩ := hn n hq
        exact good_fix hc k s n hl.2 he (by rw [hlen', h1]) h2 (by rw [← h1]; exact htop.1) (fun h => absurd h hni) hv hus
    have opq' : ∀ b : Bool, b = true → (b = match o.arity k with
        | some i => ts.length == i && ts.length != 0
        | none => true) → ∀ n, o.arity k = some n → ts.length = n ∧ n ≠ 0 := by
      intro b hb hq n hn
      rw [hb, hn] at hq
      have := hq.symm
      simp only [Bool.and_eq_true, beq_iff_eq, bne_iff_ne] at this
      exact ⟨this.1, by rw [← this.1]; exact this.2⟩
    cases k with
    | and => exact good_and hl.2 he s hus
    | or => exact good_or hl.2 he s hus
    | xor => exact good_xor hc hl.2 he s hus
    | eq => exact good_eq hc o hl.2 he s (by rw [hlen]; simpa [relBin] using hst.1) hus
    | distinct =>
      have hr : r = false := by simpa using htop.2
      subst hr
      exact good_distinct hc o hl.2 he s (by rw [hlen]; simpa [relBin] using hst.1) hus
    | ite => exact good_ite hl.2 he s hus
    | not =>
      obtain ⟨t, ht, -⟩ := (evalApp_not ρ _ _ _).1 ha
      exact good_fix hc .not s 1 hl.2 he (by rw [hlen', ht]; rfl) (by simp) rfl (by simp) hv hus
    | neg =>
      obtain ⟨t, ht, -⟩ := (evalApp_neg ρ _ _ _).1 ha
      exact good_fix hc .neg s 1 hl.2 he (by rw [hlen', ht]; rfl) (by simp) rfl (by simp) hv hus
    | implies => exact good_fix hc .implies s 2 hl.2 he (by rw [hlen']; simpa using htop.2) (by simp) rfl (by simp) hv hus
    | le => exact good_fix hc .le s 2 hl.2 he (by rw [hlen']; simpa [relBin] using hst.1) (by simp) rfl (by simp) hv hus
    | lt => exact good_fix hc .lt s 2 hl.2 he (by rw [hlen']; simpa [relBin] using hst.1) (by simp) rfl (by simp) hv hus
    | ge => exact good_fix hc .ge s 2 hl.2 he (by rw [hlen']; simpa [relBin] using hst.1) (by simp) rfl (by simp) hv hus
    | gt => exact good_fix hc .gt s 2 hl.2 he (by rw [hlen']; simpa [relBin] using hst.1) (by simp) rfl (by simp) hv hus
    | add => exact good_nary hc (.inl rfl) s hl.2 he hv hus
    | mul => exact good_nary hc (.inr rfl) s hl.2 he hv hus
    | sub => exact good_sub hc s hl.2 he hv hus
    | arith i => exact opq (opq' _ htop.2 rfl) (by simp)
    | uf i => exact opq (opq' _ htop.2 rfl) (by simp)
    | strOp i => exact opq (opq' _ htop.2 rfl) (by simp)
    | bvOp i => exact opq (opq' _ htop.2 rfl) (by simp)
    | atom i => exact opq (opq' _ htop.2 rfl) (by simp)
    | misc i => exact opq (opq' _ htop.2 rfl) (by simp)
theorem evL_good (r : Bool) (c : Cfg) (o : Opt) (m : Mdl.M) (ρ : Env) (hc : NumOk r c) (hm : ∀ x, Std r (Mdl.get m x) = true) :
    (ts : List Term) → InL r o ts = true →
      (∀ vk s x, Term.var vk s x ∈ varsL ts → Mdl.get m x ≠ .unknown → eval ρ (.var vk s x) = eval ρ (Mdl.get m x)) →
      ∀ vs, evalL ρ ts = some vs →
        evalL ρ ((evL c o m ts).map Prod.fst) = some vs ∧ ∀ u ∈ (evL c o m ts).map Prod.fst, Std r u = true
  | [], _, _, vs, h => ⟨by simpa [evL] using h, by simp [evL]⟩
  | t :: ts, hi, hx, vs, h => by
    simp only [InL, Bool.and_eq_true] at hi
    simp only [evalL] at h
    cases h1 : eval ρ t with
    | none => rw [h1] at h; cases h
    | some w =>
      cases h2 : evalL ρ ts with
      | none => rw [h1, h2] at h; cases h
      | some ws =>
        rw [h1, h2] at h
        simp only [Option.some.injEq] at h
        have g1 := ev_good r c o m ρ hc hm t hi.1 (fun vk s x hmem hne => hx vk s x (by simp [varsL, hmem]) hne) w h1
        have g2 := evL_good r c o m ρ hc hm ts hi.2 (fun vk s x hmem hne => hx vk s x (by simp [varsL, hmem]) hne) ws h2
        simp only [evL, List.map_cons, evalL, g1.1, g2.1]
        refine ⟨by rw [h], ?_⟩
        intro u hu
        rcases List.mem_cons.mp hu with rfl | hu
        · exact g1.2
        · exact g2.2 u hu
end

/-- **C35.**  The result of evaluating an expression in a model, partial or total, has the value of the expression under every
assignment that extends the model: for expressions in which `=>` and the relations have two operands, with exact reals, or
without real literals and with `distinct`. -/
theorem evaluate_sound_partial (r : Bool) (c : Cfg) (o : Opt) (m : Mdl.M) (ρ : Env) (e : Term) (v : Val) (hc : NumOk r c)
    (hm : ∀ x, Std r (Mdl.get m x) = true) (hi : In r o e = true) (hx : Extends ρ m e) (h : eval ρ e = some v) :
    eval ρ (evaluate c o m e) = some v := by
  unfold evaluate
  split
  · exact h
  · exact (ev_good r c o m ρ hc hm e hi hx v h).1

end SMT.Eval
