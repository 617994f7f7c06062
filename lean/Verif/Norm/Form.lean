import Verif.Norm.Props

/-! # C50: every atom below the Boolean structure is normalised -/

namespace SMT.Norm
open SMT SMT.Term SMT.Eval

set_option linter.unusedSimpArgs false
set_option linter.unusedVariables false

mutual
/-- Every comparison outside arithmetic terms has a literal on its right. -/
def NF : Term → Bool
  | .app k s ts =>
    if (Term.app k s ts).isArithTerm then true
    else if isCmp k then (match ts with
      | [_, r] => r.isConst
      | _ => false)
    else NFL ts
  | _ => true
/-- all terms of a list -/
def NFL : List Term → Bool
  | [] => true
  | t :: ts => NF t && NFL ts
end

theorem nfl_iff {ts : List Term} : NFL ts = true ↔ ∀ t ∈ ts, NF t = true := by
  induction ts with
  | nil => simp [NFL]
  | cons t ts ih => simp [NFL, ih]

theorem nf_ofBool (x : Bool) : NF (ofBool x) = true := by cases x <;> simp [ofBool, NF]

theorem nf_simp1 (c : Cfg) (k : Kind) {p : Term} (h : NF p = true) : NF (simp1 c k p) = true := by
  unfold simp1
  split
  all_goals repeat' split
  all_goals first | exact h | simp [NF, mkConstReal]

theorem nf_mkNeg (c : Cfg) {p : Term} (h : NF p = true) : NF (mkNeg c p) = true := by
  unfold mkNeg mkOper1
  split
  · exact nf_simp1 c _ h
  · simp [NF, isArithTerm]

theorem nf_simp2 (c : Cfg) (k : Kind) {p q : Term} (hp : NF p = true) (hq : NF q = true) : NF (simp2 c k p q) = true := by
  have hb := nf_ofBool
  unfold simp2
  split
  all_goals repeat' split
  all_goals first | exact hb _ | exact hp | exact nf_mkNeg c hq | simp [NF, mkConstReal]

theorem nf_simpFold (c : Cfg) (k : Kind) : ∀ (ts : List Term) (a : Term), NF a = true → (∀ t ∈ ts, NF t = true) →
    NF (simpFold c k a ts) = true := by
  intro ts
  induction ts with
  | nil => intro a h _; exact h
  | cons t ts ih =>
    intro a h hts
    simp only [simpFold]
    split
    · simp [NF]
    · exact ih _ (nf_simp2 c k h (hts t (by simp))) fun u hu => hts u (List.mem_cons_of_mem _ hu)

theorem nf_simp (c : Cfg) (k : Kind) (ps : List Term) (hk : relBin k ps.length = true) (h : ∀ t ∈ ps, NF t = true) :
    NF (simp c k ps) = true := by
  have hu : NF .unknown = true := by simp [NF]
  rcases ps with _ | ⟨a, _ | ⟨b, _ | ⟨d, _ | ⟨e, l⟩⟩⟩⟩
  · exact hu
  · exact nf_simp1 c k (h a (by simp))
  · exact nf_simp2 c k (h a (by simp)) (h b (by simp))
  · have h2 := nf_simp2 c k (nf_simp2 c k (h a (by simp)) (h b (by simp))) (h d (by simp))
    show NF (simp3 c k a b d) = true
    cases k <;> simp only [simp3] <;> first
      | exact h2
      | exact hu
      | (repeat' split
         all_goals first | exact h b (by simp) | exact h d (by simp) | exact hu
         done)
      | exact absurd hk (by simp [relBin])
  · show NF (simpN c k (a :: b :: d :: e :: l)) = true
    have h2 := nf_simpFold c k (b :: d :: e :: l) a (h a (by simp)) fun u hu => h u (List.mem_cons_of_mem _ hu)
    cases k <;> simp only [simpN] <;> first
      | exact h2
      | exact hu
      | (rcases simpImpN_cases (a :: b :: d :: e :: l) with h | h | h <;> rw [h] <;> simp [NF]
         done)
      | exact absurd hk (by simp [relBin])

theorem nf_self {k : Kind} {s : Srt} {ts : List Term} (hc : isCmp k = false) (h : ∀ t ∈ ts, NF t = true) : NF (.app k s ts) = true := by
  simp only [NF, hc, Bool.false_eq_true, if_false]
  split
  · rfl
  · exact nfl_iff.2 h

/-- an operator that is not a comparison -/
theorem nf_mkOper (c : Cfg) (s : Srt) (k : Kind) (ps : List Term) (hk : relBin k ps.length = true) (hc : isCmp k = false)
    (h : ∀ t ∈ ps, NF t = true) : NF (mkOper c s k ps) = true := by
  unfold mkOper
  split
  · simp [NF]
  · split
    · exact nf_simp c k ps hk h
    · refine nf_self hc fun t ht => ?_
      split at ht
      · exact h t ((c.perm ps).mem_iff.mp ht)
      · exact h t ht

/-- a comparison with a literal on the right -/
theorem nf_cmp (c : Cfg) (s : Srt) (k : Kind) (l r : Term) (hc : isCmp k = true) (hr : r.isConst = true) :
    NF (mkOper c s k [l, r]) = true := by
  unfold mkOper
  split
  · simp [NF]
  · split
    · cases k <;> simp [isCmp] at hc <;> simp only [simp, simp2] <;> repeat' split
      all_goals first | exact nf_ofBool _ | simp [NF]
    · cases k <;> simp [isCmp] at hc <;> simp [NF, isComm, isArithTerm, isCmp, hr]

/-- what `simplifyArray` has to keep -/
def ArrNF (o : Opt) : Prop := ∀ t, Std true t = true → NF t = true → Std true (o.simplifyArray t) = true ∧ NF (o.simplifyArray t) = true

/-- shape of a result -/
structure Shape (t : Term) : Prop where
  std : Std true t = true
  nf : NF t = true

theorem shape_after {c : Cfg} {o : Opt} (ho : ArrNF o) {t : Term} (us : List Term) (ch : Bool) (h : Shape t) {r : R}
    (hr : after c o us t ch = r) : ∃ u, r.1 = some u ∧ Shape u := by
  obtain ⟨h1, h2⟩ := ho t h.std h.nf
  unfold after at hr
  simp only at hr
  split at hr
  · subst hr; exact ⟨_, rfl, h1, h2⟩
  · subst hr
    refine ⟨_, rfl, ?_⟩
    rename_i hne
    unfold eqSimp at hne ⊢
    split at hne
    · rename_i s a b heq
      rw [heq, std_app] at h1
      have h3 : NF (simp2 c .eq a b) = true := by
        simp only [simp2]
        repeat' split
        all_goals first | exact nf_ofBool _ | simp [NF]
      exact ⟨std_simp2 c _ (h1.2 a (by simp)) (h1.2 b (by simp)), h3⟩
    · rename_i heq
      rw [heq] at h1
      simp [Std, relBin] at h1
    · exact absurd rfl hne

theorem allSome_shape {rs : List R} {us : List Term} (h : allSome rs = some us) (hr : ∀ r ∈ rs, ∃ u, r.1 = some u ∧ Shape u) :
    us.length = rs.length ∧ ∀ t ∈ us, Shape t := by
  induction rs generalizing us with
  | nil => simp only [allSome, Option.some.injEq] at h; subst h; exact ⟨rfl, by simp⟩
  | cons r rs ih =>
    obtain ⟨u, b⟩ := r
    obtain ⟨w, hw, hs⟩ := hr (u, b) (by simp)
    simp only at hw
    subst hw
    simp only [allSome] at h
    cases h1 : allSome rs with
    | none => rw [h1] at h; cases h
    | some vs =>
      rw [h1] at h
      simp only [Option.map_some, Option.some.injEq] at h
      subst h
      obtain ⟨h2, h3⟩ := ih h1 fun r hr' => hr r (by simp [hr'])
      refine ⟨by simp [h2], ?_⟩
      intro t ht
      rcases List.mem_cons.mp ht with rfl | ht
      · exact hs
      · exact h3 t ht

theorem shape_build {c : Cfg} {k : Kind} {s : Srt} {us : List Term} {t : Term} (h : Subst.build c k s us = .ok t)
    (hc : isCmp k = false) (hk : relBin k us.length = true) (hs : ∀ t ∈ us, Shape t) : Shape t := by
  unfold Subst.build at h
  by_cases hu : ∃ i, k = .uf i
  · obtain ⟨i, rfl⟩ := hu
    simp only [Res.ok.injEq] at h
    subst h
    refine ⟨std_app.2 ⟨rfl, fun t ht => (hs t ht).std⟩, ?_⟩
    simp only [NF]
    split
    · rfl
    · simp only [isCmp, Bool.false_eq_true, if_false]
      exact nfl_iff.2 fun t ht => (hs t ht).nf
  · have : (if us.isEmpty then .abort else .ok (mkOper c s k us) : Res Term) = .ok t := by
      cases k <;> first | exact h | exact absurd ⟨_, rfl⟩ hu
    split at this
    · cases this
    · simp only [Res.ok.injEq] at this
      subst this
      exact ⟨std_mkOper c s k us hk fun t ht => (hs t ht).std, nf_mkOper c s k us hk hc fun t ht => (hs t ht).nf⟩

theorem getZero_const (c : Cfg) (s : Srt) (h : s.isNum = true) : (getZero c s).isConst = true := by
  cases s <;> simp_all [Srt.isNum, getZero, Term.isConst, mkConstReal]

theorem getZero_std (c : Cfg) (s : Srt) : Std true (getZero c s) = true := by
  cases s <;> simp [getZero, Std, leafOk, mkConstReal]

theorem getZero_nf (c : Cfg) (s : Srt) : NF (getZero c s) = true := by
  cases s <;> simp [getZero, NF, mkConstReal]

theorem comp_shape {c : Cfg} {k : Kind} {s : Srt} {t1 t2 l r2 u : Term} {b1 b2 b : Bool} (hk : isArithComp (.app k s [t1, t2]) = true)
    (hs1 : Std true t1 = true) (hs2 : Std true t2 = true) (hl : Shape l) (hr2 : Shape r2) (ho1 : b1 = false → l = t1)
    (ho2 : b2 = false → r2 = t2) (hln : l.sort.isNum = true) (h : comp c k s [t1, t2] [(some l, b1), (some r2, b2)] = .ok (some u, b)) :
    Shape u ∧ (b = false → u = .app k s [t1, t2]) := by
  have hkk := isCmp_kind hk
  simp only [comp] at h
  have hsub : Shape (mkOper c l.sort .sub [l, r2]) :=
    ⟨std_mkOper c _ _ _ rfl (mem2 hl.std hr2.std), nf_mkOper c _ _ _ rfl rfl (mem2 hl.nf hr2.nf)⟩
  cases hrc : r2.isConst with
  | false =>
    rw [hrc] at h
    simp only [Bool.not_false, if_true, Res.ok.injEq, Prod.mk.injEq, Option.some.injEq] at h
    obtain ⟨rfl, rfl⟩ := h
    refine ⟨⟨std_mkOper c _ _ _ (relBin2 k) (mem2 hsub.std (getZero_std c _)), ?_⟩, fun h => (by cases h)⟩
    rcases hkk with hc | rfl | rfl
    · exact nf_cmp c _ k _ _ hc (getZero_const c _ hln)
    · exact nf_mkOper c _ _ _ rfl rfl (mem2 hsub.nf (getZero_nf c _))
    · exact nf_mkOper c _ _ _ rfl rfl (mem2 hsub.nf (getZero_nf c _))
  | true =>
    rw [hrc] at h
    simp only [Bool.not_true, Bool.false_eq_true, if_false] at h
    split at h
    · simp only [Res.ok.injEq, Prod.mk.injEq, Option.some.injEq] at h
      obtain ⟨rfl, rfl⟩ := h
      refine ⟨⟨std_mkOper c _ _ _ (relBin2 k) (mem2 hl.std hr2.std), ?_⟩, fun h => (by cases h)⟩
      rcases hkk with hc | rfl | rfl
      · exact nf_cmp c _ k _ _ hc hrc
      · exact nf_mkOper c _ _ _ rfl rfl (mem2 hl.nf hr2.nf)
      · exact nf_mkOper c _ _ _ rfl rfl (mem2 hl.nf hr2.nf)
    · rename_i hb
      simp only [Bool.or_eq_true, not_or, Bool.not_eq_true] at hb
      obtain rfl := ho1 hb.1
      obtain rfl := ho2 hb.2
      simp only [Res.ok.injEq, Prod.mk.injEq, Option.some.injEq] at h
      obtain ⟨rfl, rfl⟩ := h
      refine ⟨⟨std_app.2 ⟨relBin2 k, mem2 hs1 hs2⟩, ?_⟩, fun _ => rfl⟩
      simp only [NF]
      split
      · rfl
      · rcases hkk with hc | rfl | rfl
        · simp [hc, hrc]
        · simp [isCmp, NFL, hl.nf, hr2.nf]
        · simp [isCmp, NFL, hl.nf, hr2.nf]

theorem leaf_shape {c : Cfg} {o : Opt} {t u : Term} {b : Bool} (hn : norm c o t = .ok (some t, false)) (hs : Std true t = true)
    (hnf : NF t = true) (hr : norm c o t = .ok (some u, b)) : Shape u ∧ (b = false → u = t) := by
  rw [hn] at hr
  simp only [Res.ok.injEq, Prod.mk.injEq, Option.some.injEq] at hr
  obtain ⟨rfl, _⟩ := hr
  exact ⟨⟨hs, hnf⟩, fun _ => rfl⟩

/-- results of a list of terms: right shape, unchanged ones are the terms themselves, values kept -/
inductive Shapes (c : Cfg) (ρ : Env) : List Term → List R → Prop where
  | nil : Shapes c ρ [] []
  | cons {t ts u b rs v} : Shape u → (b = false → u = t) → eval ρ t = some v → eval ρ u = some v → Shapes c ρ ts rs →
      Shapes c ρ (t :: ts) ((some u, b) :: rs)

theorem Shapes.all {c : Cfg} {ρ : Env} {ts : List Term} {rs : List R} (h : Shapes c ρ ts rs) :
    rs.length = ts.length ∧ ∀ r ∈ rs, ∃ u, r.1 = some u ∧ Shape u := by
  induction h with
  | nil => exact ⟨rfl, by simp⟩
  | cons h1 _ _ _ _ ih =>
    refine ⟨by simp [ih.1], ?_⟩
    intro r hr
    rcases List.mem_cons.mp hr with rfl | hr
    · exact ⟨_, rfl, h1⟩
    · exact ih.2 r hr

theorem Shapes.same {c : Cfg} {ρ : Env} {ts : List Term} {rs : List R} (h : Shapes c ρ ts rs)
    (hb : (rs.any fun r => r.2) = false) : ∀ t ∈ ts, Shape t := by
  induction h with
  | nil => simp
  | cons h1 h2 _ _ _ ih =>
    rw [List.any_cons, Bool.or_eq_false_iff] at hb
    intro t ht
    rcases List.mem_cons.mp ht with rfl | ht
    · rw [← h2 hb.1]; exact h1
    · exact ih hb.2 t ht

theorem after_same {c : Cfg} {o : Opt} {t u : Term} (us : List Term) (ch : Bool) (h : after c o us t ch = (some u, false)) : u = t := by
  unfold after at h
  simp only at h
  split at h
  · simp only [Prod.mk.injEq, Option.some.injEq, Bool.or_eq_false_iff] at h
    obtain ⟨rfl, _, h2⟩ := h
    simpa using h2
  · simp at h

mutual
theorem norm_shape (c : Cfg) (o : Opt) (ρ : Env) (hI : IntOK c) (ho : ArrOK c o) (ho' : ArrNF o) :
    (t : Term) → Ok o t → DFit c t → Std true t = true → ∀ v, eval ρ t = some v → ∀ u b, norm c o t = .ok (some u, b) →
      Shape u ∧ (b = false → u = t)
  | .app k s ts, hok, hd, hs, v, h, u, b, hr => by
    simp only [Ok] at hok
    obtain ⟨hl, h3, hne, hts⟩ := hok
    simp only [norm] at hr
    by_cases ha : (Term.app k s ts).isArithTerm = true
    · rw [if_pos ha] at hr
      simp only [Res.ok.injEq, Prod.mk.injEq, Option.some.injEq] at hr
      obtain ⟨rfl, _⟩ := hr
      exact ⟨⟨hs, by simp only [NF, ha, if_true]⟩, fun _ => rfl⟩
    · rw [if_neg ha, hl] at hr
      simp only [Bool.false_eq_true, if_false] at hr
      obtain ⟨hrb, hss⟩ := std_app.1 hs
      have hev := h
      simp only [eval] at hev
      cases hvs : evalL ρ ts with
      | none => rw [hvs] at hev; cases hev
      | some vs =>
        rw [hvs] at hev
        simp only at hev
        cases hrs : normL c o ts with
        | ok rs =>
          rw [hrs] at hr
          simp only [Res.bind] at hr
          have hsh := normL_shape c o ρ hI ho ho' ts hts (dfit_child hd) hss vs hvs rs hrs
          obtain ⟨hlen, hall⟩ := hsh.all
          by_cases hc : isArithComp (.app k s ts) = true
          · rw [if_pos hc] at hr
            have hkk := isCmp_kind hc
            have h2' : ts.length = 2 := by
              rcases hkk with hk | rfl | rfl
              · cases k <;> simp [isCmp] at hk <;> simpa [relBin] using hrb
              · simpa [relBin] using hrb
              · simpa [relBin] using hrb
            have hevA : evalApp ρ k ts s = some v := by unfold evalApp; rw [hvs]; exact (guardSort_some.1 hev).1
            obtain ⟨t1, t2, rfl⟩ : ∃ t1 t2, ts = [t1, t2] := by
              rcases ts with _ | ⟨a, _ | ⟨b, _ | ⟨d, l⟩⟩⟩ <;> simp at h2'
              exact ⟨a, b, rfl⟩
            cases hsh with
            | @cons _ _ u1 b1 _ v1 s1 e1 p1 q1 hsh =>
            cases hsh with
            | @cons _ _ u2 b2 _ v2 s2 e2 p2 q2 hsh =>
            cases hsh
            obtain ⟨⟨x, rfl⟩, y, rfl⟩ := comp_num hc p1 p2 hevA
            refine comp_shape hc (hss t1 (by simp)) (hss t2 (by simp)) s1 s2 e1 e2 (hasSort_n (eval_hasSort q1)) hr
          · rw [if_neg hc] at hr
            have hkc : isCmp k = false := by
              cases k <;> first | rfl | exact absurd rfl hc
            unfold other at hr
            split at hr
            · rename_i hany
              have hsm := hsh.same (by simpa using hany)
              simp only [Res.ok.injEq] at hr
              obtain ⟨w, hw, hsw⟩ := shape_after ho' ts false ⟨hs, nf_self hkc fun t ht => (hsm t ht).nf⟩ hr
              simp only [Option.some.injEq] at hw
              subst hw
              exact ⟨hsw, fun hb => by subst hb; exact after_same ts false hr⟩
            · cases hus : allSome rs with
              | none => rw [hus] at hr; cases hr
              | some us =>
                rw [hus] at hr
                simp only at hr
                obtain ⟨hul, hush⟩ := allSome_shape hus hall
                have key : ∀ t', (if o.arr s then .ok (.app k s us) else Subst.build c k s us : Res Term) = .ok t' → Shape t' := by
                  intro t' ht'
                  split at ht'
                  · simp only [Res.ok.injEq] at ht'
                    subst ht'
                    exact ⟨std_app.2 ⟨by rw [hul, hlen]; exact hrb, fun t ht => (hush t ht).std⟩, nf_self hkc fun t ht => (hush t ht).nf⟩
                  · exact shape_build ht' hkc (by rw [hul, hlen]; exact hrb) hush
                cases hb : (if o.arr s then .ok (.app k s us) else Subst.build c k s us : Res Term) with
                | ok t' =>
                  rw [hb] at hr
                  simp only [Res.bind, Res.ok.injEq] at hr
                  obtain ⟨w, hw, hsw⟩ := shape_after ho' us true (key t' hb) hr
                  simp only [Option.some.injEq] at hw
                  subst hw
                  refine ⟨hsw, fun hb' => ?_⟩
                  subst hb'
                  unfold after at hr
                  simp only [Bool.true_or] at hr
                  split at hr <;> simp at hr
                | _ => rw [hb] at hr; cases hr
        | _ => rw [hrs] at hr; cases hr
  | .tt, _, _, hs, _, _, u, b, hr => leaf_shape rfl hs (by simp [NF]) hr
  | .ff, _, _, hs, _, _, u, b, hr => leaf_shape rfl hs (by simp [NF]) hr
  | .cint _, _, _, hs, _, _, u, b, hr => leaf_shape rfl hs (by simp [NF]) hr
  | .creal _ _, _, _, hs, _, _, u, b, hr => leaf_shape rfl hs (by simp [NF]) hr
  | .clit _ _, _, _, hs, _, _, u, b, hr => leaf_shape rfl hs (by simp [NF]) hr
  | .var _ _ _, _, _, hs, _, _, u, b, hr => leaf_shape rfl hs (by simp [NF]) hr
  | .unknown, _, _, hs, _, _, u, b, hr => leaf_shape rfl hs (by simp [NF]) hr
  | .err, _, _, hs, _, _, u, b, hr => leaf_shape rfl hs (by simp [NF]) hr
theorem normL_shape (c : Cfg) (o : Opt) (ρ : Env) (hI : IntOK c) (ho : ArrOK c o) (ho' : ArrNF o) :
    (ts : List Term) → OkL o ts → (∀ t ∈ ts, DFit c t) → (∀ t ∈ ts, Std true t = true) → ∀ vs, evalL ρ ts = some vs → ∀ rs,
      normL c o ts = .ok rs → Shapes c ρ ts rs
  | [], _, _, _, _, _, rs, hr => by
    simp only [normL, Res.ok.injEq] at hr
    subst hr
    exact .nil
  | t :: ts, hok, hd, hs, vs, h, rs, hr => by
    simp only [OkL] at hok
    simp only [evalL] at h
    cases h1 : eval ρ t with
    | none => rw [h1] at h; cases h
    | some w =>
      cases h2 : evalL ρ ts with
      | none => rw [h1, h2] at h; cases h
      | some ws =>
        obtain ⟨u, b, q1, q2⟩ := norm_good c o ρ hI ho t hok.1 (hd t (by simp)) (hs t (by simp)) w h1
        obtain ⟨r1, r2⟩ := norm_shape c o ρ hI ho ho' t hok.1 (hd t (by simp)) (hs t (by simp)) w h1 u b q1
        simp only [normL, q1, Res.bind] at hr
        cases h3 : normL c o ts with
        | ok rs' =>
          rw [h3] at hr
          simp only [Res.ok.injEq] at hr
          subst hr
          exact .cons r1 r2 h1 q2.ev
            (normL_shape c o ρ hI ho ho' ts hok.2 (fun t ht => hd t (by simp [ht])) (fun t ht => hs t (by simp [ht])) ws h2 rs' h3)
        | _ => rw [h3] at hr; cases hr
end

/-- **C50, form of the whole formula.**  In the result every comparison outside arithmetic terms has a literal on its right-hand
side: for every term with a value, of any size. -/
theorem arithNormalize_normal_partial (c : Cfg) (o : Opt) (ρ : Env) (hI : IntOK c) (ho : ArrOK c o) (ho' : ArrNF o) (e : Term)
    (hok : Ok o e) (hd : DFit c e) (hs : Std true e = true) (v : Val) (h : eval ρ e = some v) :
    ∃ u, arithNormalize c o e = .ok (some u) ∧ NF u = true := by
  obtain ⟨u, b, h1, h2⟩ := norm_good c o ρ hI ho e hok hd hs v h
  refine ⟨u, ?_, (norm_shape c o ρ hI ho ho' e hok hd hs v h u b h1).1.nf⟩
  cases e with
  | app k s ts =>
    simp only [Ok] at hok
    simp [arithNormalize, hok.1, h1, Res.bind]
  | err => simp [eval] at h
  | _ => simp [arithNormalize, h1, Res.bind]

/-- not vacuous: `exN` is not in that form before -/
example : NF exN = false ∧ ArrNF o0 := ⟨by decide +kernel, fun _ h1 h2 => ⟨h1, h2⟩⟩

end SMT.Norm
