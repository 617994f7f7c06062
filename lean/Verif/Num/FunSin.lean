import Verif.Num.FunTrig

/-! # C58: sine and cosine of intervals -/

set_option linter.unusedVariables false
set_option linter.unusedSimpArgs false

noncomputable section
namespace SMT.Num
open Number Interval

variable {F : Fmt} (L : Lib F)

/-- twice π as the code computes it -/
theorem two_pi : ∃ P : ℚ, Number.mul F (.int 2) (Number.pi L) = .real (.fin P) ∧ 6 ≤ P ∧ P ≤ 13 / 2 ∧ F.r P = P := by
  obtain ⟨h1, h2⟩ := pi_bounds L
  refine ⟨F.r (2 * L.rr Real.pi), by simp [Number.mul, Number.pi, toReal, XR.mul, r2 L], ?_, ?_, F.idem _⟩
  · have := (grid_step L 24 (q := 2 * L.rr Real.pi) (by decide)).1 (by push_cast; linarith)
    push_cast at this; linarith
  · have := (grid_step L 26 (q := 2 * L.rr Real.pi) (by decide)).2 (by push_cast; linarith)
    push_cast at this; linarith

/-- the place of the minimum of the sine as the code computes it -/
theorem three_half_pi : ∃ t : ℚ, Number.div F (Number.mul F (.int 3) (Number.pi L)) (.int 2) = .ok (.real (.fin t)) ∧
    9 / 2 ≤ t ∧ t ≤ 5 ∧ F.r t = t := by
  obtain ⟨h1, h2⟩ := pi_bounds L
  refine ⟨F.r (F.r (3 * L.rr Real.pi) / 2), by simp [Number.div, Number.mul, Number.pi, toReal, XR.mul, XR.div, r2 L, r3 L], ?_, ?_,
    F.idem _⟩
  · have g := (grid_step L 36 (q := 3 * L.rr Real.pi) (by decide)).1 (by push_cast; linarith)
    push_cast at g
    have := (grid_step L 18 (q := F.r (3 * L.rr Real.pi) / 2) (by decide)).1 (by push_cast; linarith)
    push_cast at this; linarith
  · have g := (grid_step L 39 (q := 3 * L.rr Real.pi) (by decide)).2 (by push_cast; linarith)
    push_cast at g
    have := (grid_step L 20 (q := F.r (3 * L.rr Real.pi) / 2) (by decide)).2 (by push_cast; linarith)
    push_cast at this; linarith

include L in
theorem reduce_small {P : ℚ} (hP : 6 ≤ P) {x : Number} {a : ℚ} (hx : x.Is F a) (hr : F.r a = a) (h0 : 0 ≤ a) (h1 : a ≤ 9 / 2) :
    reduce (F := F) (.real (.fin P)) x = .ok (.real (.fin a)) := by
  have pp : (0 : ℚ) < P := by linarith
  unfold reduce
  rw [div_real_ok, is_toReal hx]
  have g0 := (grid_step L 0 (q := a / P) (by decide)).1 (by simp; positivity)
  have g1 := (grid_step L 3 (q := a / P) (by decide)).2 (by
    push_cast; rw [div_le_div_iff₀ pp (by norm_num)]; linarith)
  have g0' : 0 ≤ F.r (a / P) := by simpa using g0
  have g1' : F.r (a / P) < 1 := by push_cast at g1; linarith
  have fl : (F.r (a / P)).floor = 0 := floor_zero g0' g1'
  have r0' : F.r 0 = 0 := r0 L
  have e : Number.sub F x (Number.mul F (Number.real (XR.div F (.fin a) (.fin P))).floor (.real (.fin P))) = .real (.fin a) := by
    have e1 : Number.mul F (Number.real (XR.div F (.fin a) (.fin P))).floor (.real (.fin P)) = .real (.fin 0) := by
      simp [XR.div, pp.ne', Number.floor, XR.floor, fl, Number.mul, toReal, XR.mul, r0']
    rw [e1]
    have e2 : Number.sub F x (.real (.fin 0)) = .real (XR.sub F (toReal F x) (.fin 0)) := by cases x <;> rfl
    rw [e2, is_toReal hx]
    simp [XR.sub, XR.neg, XR.add, hr]
  simp only [Res.ok_bind, e]
  have n : Number.lt F (.real (.fin a)) (.int 0) = false := by
    simp [Number.lt, toReal, XR.lt, r0', h0]
  rw [n]
  rfl

/-- What `sin` and `cos` return for reduced ends `a ≤ b` of a closed interval: it holds every value
`g x` that lies in `[-1, 1]`, if the flags of the extremes are right. -/
theorem core (g : ℝ → ℝ) (a b : ℚ) (x : ℝ) (hb1 : -1 ≤ g x) (hb2 : g x ≤ 1) (top bot : Bool)
    (htop : top = false → g x ≤ max (g a) (g b)) (hbot : bot = false → min (g a) (g b) ≤ g x) :
    (let sl : Number := .real (.fin (L.rr (g a)))
     let sh : Number := .real (.fin (L.rr (g b)))
     let mx : Number := if top then .int 1 else smax F sl sh
     let mn : Number := if bot then .int (-1) else smin F sl sh
     (if Number.gt F mn (.int (-1)) then (mn.nextBelow L).LoB false (g x) else mn.LoB true (g x)) ∧
     (if Number.lt F mx (.int 1) then (mx.nextAbove L).HiB false (g x) else mx.HiB true (g x))) := by
  have hm1 : F.r (-1) = -1 := by have := L.small (-1) (by decide); simpa using this
  intro sl sh mx mn
  constructor
  · cases bot
    · have hlo := hbot rfl
      have em : ∃ y : ℝ, mn = .real (.fin (L.rr y)) ∧ y ≤ g x := by
        show ∃ y : ℝ, smin F sl sh = _ ∧ _
        by_cases hc : Number.lt F sh sl = true
        · refine ⟨g b, by unfold smin; rw [if_pos hc], ?_⟩
          have hlt : L.rr (g b) < L.rr (g a) := by simpa [sl, sh, Number.lt, toReal, XR.lt] using hc
          rcases min_le_iff.1 hlo with h | h
          · refine le_trans ?_ h
            by_contra hcc
            exact absurd (L.rr_mono _ _ (not_le.1 hcc).le) (not_le.2 hlt)
          · exact h
        · by_cases hab : g a ≤ g x
          · exact ⟨g a, by unfold smin; rw [if_neg hc], hab⟩
          · have hbx : g b ≤ g x := by
              rcases min_le_iff.1 hlo with h | h
              · exact absurd h hab
              · exact h
            have hle : L.rr (g a) ≤ L.rr (g b) := by simpa [sl, sh, Number.lt, toReal, XR.lt] using hc
            have h1 := L.rr_mono _ _ (hbx.trans (not_le.1 hab).le)
            refine ⟨g b, ?_, hbx⟩
            unfold smin; rw [if_neg hc]
            show Number.real (.fin (L.rr (g a))) = _
            rw [le_antisymm hle h1]
      obtain ⟨y, e, hy⟩ := em
      rw [e]
      split
      · simpa [Number.nextBelow, XR.nextBelow, LoB] using below_rr L hy
      · rename_i hn
        have : L.rr y ≤ -1 := by
          rw [gt_small L (is_real F _) neg_one_small] at hn
          push_cast at hn; linarith
        simp only [LoB, if_true]
        have h2 : ((L.rr y : ℚ) : ℝ) ≤ -1 := by exact_mod_cast this
        linarith
    · have : Number.gt F mn (.int (-1)) = false := by simp [mn, gt, le]
      rw [this]
      simp only [mn, if_true, Bool.false_eq_true, if_false, LoB]
      push_cast; exact hb1
  · cases top
    · have hhi := htop rfl
      have em : ∃ y : ℝ, mx = .real (.fin (L.rr y)) ∧ g x ≤ y := by
        show ∃ y : ℝ, smax F sl sh = _ ∧ _
        by_cases hc : Number.lt F sl sh = true
        · refine ⟨g b, by unfold smax; rw [if_pos hc], ?_⟩
          have hlt : L.rr (g a) < L.rr (g b) := by simpa [sl, sh, Number.lt, toReal, XR.lt] using hc
          rcases le_max_iff.1 hhi with h | h
          · refine le_trans h ?_
            by_contra hcc
            exact absurd (L.rr_mono _ _ (not_le.1 hcc).le) (not_le.2 hlt)
          · exact h
        · by_cases hab : g x ≤ g a
          · exact ⟨g a, by unfold smax; rw [if_neg hc], hab⟩
          · have hbx : g x ≤ g b := by
              rcases le_max_iff.1 hhi with h | h
              · exact absurd h hab
              · exact h
            have hle : L.rr (g b) ≤ L.rr (g a) := by simpa [sl, sh, Number.lt, toReal, XR.lt] using hc
            have h1 := L.rr_mono _ _ ((not_le.1 hab).le.trans hbx)
            refine ⟨g b, ?_, hbx⟩
            unfold smax; rw [if_neg hc]
            show Number.real (.fin (L.rr (g a))) = _
            rw [le_antisymm hle h1]
      obtain ⟨y, e, hy⟩ := em
      rw [e]
      split
      · simpa [Number.nextAbove, XR.nextAbove, HiB] using above_rr L hy
      · rename_i hn
        have : 1 ≤ L.rr y := by
          rw [lt_small L (is_real F _) one_small] at hn
          push_cast at hn; linarith
        simp only [HiB, if_true]
        have h2 : (1 : ℝ) ≤ ((L.rr y : ℚ) : ℝ) := by exact_mod_cast this
        linarith
    · have : Number.lt F mx (.int 1) = false := by simp [mx, Number.lt]
      rw [this]
      simp only [mx, if_true, Bool.false_eq_true, if_false, HiB]
      push_cast; exact hb2

/-- the flag the code computes for an extreme at `t` -/
def hasExt (F : Fmt) (p2 t lo hi : Number) : Bool :=
  (Number.le F lo t && Number.ge F hi t) || (Number.le F lo (Number.add F t p2) && Number.ge F hi (Number.add F t p2))

theorem hasExt_first {P a b q : ℚ} {t : Number} (ht : t.Is F q) (h1 : a ≤ q) (h2 : q ≤ b) :
    hasExt F (.real (.fin P)) t (.real (.fin a)) (.real (.fin b)) = true := by
  unfold hasExt
  have e1 : Number.le F (.real (.fin a)) t = true := by
    rw [le_iff (is_real F a).2 ht.2, ht.1]; simpa [Number.w] using h1
  have e2 : Number.ge F (.real (.fin b)) t = true := by
    rw [ge_iff (is_real F b).2 ht.2, ht.1]; simpa [Number.w] using h2
  rw [e1, e2]; rfl

theorem sinLike_closed (f : Number → Number) (g : ℝ → ℝ) (hf : ∀ q : ℚ, f (.real (.fin q)) = .real (.fin (L.rr (g q))))
    (hb : ∀ y, -1 ≤ g y ∧ g y ≤ 1) (top bot : Number) (A : Interval) (a b : ℚ) (ha : A.lo.Is F a) (hb' : A.hi.Is F b)
    (ra : F.r a = a) (rb : F.r b = b) (hlc : A.lc = true) (hrc : A.rc = true) (h0 : 0 ≤ a) (h9 : b ≤ 9 / 2) (x : ℝ) (hx : A.RMem x)
    (htop : ∀ P, hasExt F (.real (.fin P)) top (.real (.fin a)) (.real (.fin b)) = false → g x ≤ max (g a) (g b))
    (hbot : ∀ P, hasExt F (.real (.fin P)) bot (.real (.fin a)) (.real (.fin b)) = false → min (g a) (g b) ≤ g x) :
    ∃ B, sinLike L f top bot A = .ok B ∧ B.RMem (g x) := by
  have hA : A.Ok F := ⟨ha.2, hb'.2⟩
  obtain ⟨hax, hxb⟩ := rmem_between ha hb' hx
  have hab : a ≤ b := by exact_mod_cast hax.trans hxb
  obtain ⟨P, eP, hP, -⟩ := two_pi L
  unfold sinLike
  rw [not_empty_of_rmem hA hx, eP]
  simp only [Bool.false_eq_true, if_false, isInf_is ha, isInf_is hb', Bool.or_self]
  split
  · refine ⟨_, rfl, ?_⟩
    have := hb x
    simp only [unitI, RMem, LoB, HiB, if_true]
    push_cast; exact this
  · rw [reduce_small L hP ha ra h0 (hab.trans h9), reduce_small L hP hb' rb (h0.trans hab) h9]
    have n : Number.lt F (.real (.fin b)) (.real (.fin a)) = false := by simp [Number.lt, toReal, XR.lt, hab]
    simp only [Res.ok_bind, n, Bool.false_eq_true, if_false, hf, hlc, hrc, ite_self]
    have c := core L g a b x (hb x).1 (hb x).2 (hasExt F (.real (.fin P)) top (.real (.fin a)) (.real (.fin b)))
      (hasExt F (.real (.fin P)) bot (.real (.fin a)) (.real (.fin b))) (htop P) (hbot P)
    unfold hasExt at c
    generalize (Number.le F (.real (.fin a)) top && Number.ge F (.real (.fin b)) top || Number.le F (.real (.fin a)) (Number.add F top (.real (.fin P))) && Number.ge F (.real (.fin b)) (Number.add F top (.real (.fin P)))) = tp at c ⊢
    generalize (Number.le F (.real (.fin a)) bot && Number.ge F (.real (.fin b)) bot || Number.le F (.real (.fin a)) (Number.add F bot (.real (.fin P))) && Number.ge F (.real (.fin b)) (Number.add F bot (.real (.fin P)))) = bt at c ⊢
    clear htop hbot
    cases tp <;> cases bt
    all_goals
      simp only [Bool.false_eq_true, if_false, if_true] at c ⊢
      refine ⟨_, rfl, ?_⟩
      obtain ⟨c1, c2⟩ := c
      revert c1 c2
      split <;> split <;> intro c1 c2 <;> exact ⟨c1, c2⟩

theorem grid_is_rep {q : ℚ} (h : F.r q = q) {y : ℝ} (hy : (q : ℝ) ≤ y) : q ≤ L.rr y := by
  have := L.rr_mono _ _ hy
  rwa [L.rr_rat, h] at this
theorem rep_ge {q : ℚ} (h : F.r q = q) {y : ℝ} (hy : y ≤ (q : ℝ)) : L.rr y ≤ q := by
  have := L.rr_mono _ _ hy
  rwa [L.rr_rat, h] at this

/-- C58, cosine: for a closed interval with ends in `[0, 9/2]` the result holds the cosine of each of
its reals.  Missing: other ends (they are reduced with a rounded multiple of `2π`), open intervals (see
`cos_violated`). -/
theorem cos_encloses_partial (A : Interval) (a b : ℚ) (ha : A.lo.Is F a) (hb : A.hi.Is F b) (ra : F.r a = a) (rb : F.r b = b)
    (hlc : A.lc = true) (hrc : A.rc = true) (h0 : 0 ≤ a) (h9 : b ≤ 9 / 2) (x : ℝ) (hx : A.RMem x) :
    ∃ B, Interval.cos L A = .ok B ∧ B.RMem (Real.cos x) := by
  obtain ⟨hax, hxb⟩ := rmem_between ha hb hx
  have hp := Real.pi_gt_three
  have hb9 : (b : ℝ) ≤ 9 / 2 := by have : ((b : ℚ) : ℝ) ≤ ((9 / 2 : ℚ) : ℝ) := by exact_mod_cast h9
                                   push_cast at this; exact this
  have ha0 : (0 : ℝ) ≤ a := by exact_mod_cast h0
  have up : ∀ u v : ℝ, Real.pi ≤ u → u ≤ v → v ≤ 9 / 2 → Real.cos u ≤ Real.cos v := by
    intro u v h1 h2 h3
    have := Real.strictAntiOn_cos.antitoneOn (a := 2 * Real.pi - v) (b := 2 * Real.pi - u) ⟨by linarith, by linarith⟩
      ⟨by linarith, by linarith⟩ (by linarith)
    rwa [Real.cos_two_pi_sub, Real.cos_two_pi_sub] at this
  have down : ∀ u v : ℝ, 0 ≤ u → u ≤ v → v ≤ Real.pi → Real.cos v ≤ Real.cos u := fun u v h1 h2 h3 =>
    Real.strictAntiOn_cos.antitoneOn ⟨h1, h2.trans h3⟩ ⟨h1.trans h2, h3⟩ h2
  refine sinLike_closed L (Number.cos L) Real.cos ?_ (fun y => ⟨Real.neg_one_le_cos y, Real.cos_le_one y⟩) _ _ A a b ha hb ra rb
    hlc hrc h0 h9 x hx ?_ ?_
  · intro q; rfl
  · intro P _
    rcases le_total x Real.pi with h | h
    · exact le_max_of_le_left (down _ _ ha0 hax h)
    · exact le_max_of_le_right (up _ _ h hxb hb9)
  · intro P hn
    by_cases h1 : (a : ℝ) ≤ Real.pi ∧ Real.pi ≤ (b : ℝ)
    · exfalso
      rw [show Number.pi L = .real (.fin (L.rr Real.pi)) from rfl, hasExt_first (q := L.rr Real.pi) (is_real F _) (grid_is_rep L ra h1.1) (rep_ge L rb h1.2)] at hn
      exact absurd hn (by simp)
    · rw [not_and_or, not_le, not_le] at h1
      rcases h1 with h | h
      · exact min_le_of_left_le (up _ _ h.le hax (hxb.trans hb9))
      · exact min_le_of_right_le (down _ _ (ha0.trans hax) hxb h.le)

/-- C58, sine: for a closed interval with ends in `[0, 9/2]` the result holds the sine of each of its
reals, in a format where halving is exact (every binary format).  Missing as for the cosine. -/
theorem sin_encloses_partial (hhalf : F.r (L.rr Real.pi / 2) = L.rr (Real.pi / 2))
    (A : Interval) (a b : ℚ) (ha : A.lo.Is F a) (hb : A.hi.Is F b) (ra : F.r a = a) (rb : F.r b = b)
    (hlc : A.lc = true) (hrc : A.rc = true) (h0 : 0 ≤ a) (h9 : b ≤ 9 / 2) (x : ℝ) (hx : A.RMem x) :
    ∃ B, Interval.sin L A = .ok B ∧ B.RMem (Real.sin x) := by
  obtain ⟨hax, hxb⟩ := rmem_between ha hb hx
  have hp := Real.pi_gt_three
  have hp' : (3.1 : ℝ) < Real.pi := by have := Real.pi_gt_d2; linarith
  have hb9 : (b : ℝ) ≤ 9 / 2 := by have : ((b : ℚ) : ℝ) ≤ ((9 / 2 : ℚ) : ℝ) := by exact_mod_cast h9
                                   push_cast at this; exact this
  have ha0 : (0 : ℝ) ≤ a := by exact_mod_cast h0
  have up : ∀ u v : ℝ, 0 ≤ u → u ≤ v → v ≤ Real.pi / 2 → Real.sin u ≤ Real.sin v := fun u v h1 h2 h3 =>
    Real.strictMonoOn_sin.monotoneOn ⟨by linarith, h2.trans h3⟩ ⟨by linarith, h3⟩ h2
  have down : ∀ u v : ℝ, Real.pi / 2 ≤ u → u ≤ v → v ≤ 9 / 2 → Real.sin v ≤ Real.sin u := by
    intro u v h1 h2 h3
    have := Real.strictMonoOn_sin.monotoneOn (a := Real.pi - v) (b := Real.pi - u) ⟨by linarith, by linarith⟩
      ⟨by linarith, by linarith⟩ (by linarith)
    rwa [Real.sin_pi_sub, Real.sin_pi_sub] at this
  have e1 : Number.div F (Number.pi L) (.int 2) = .ok (.real (.fin (L.rr (Real.pi / 2)))) := by
    rw [← hhalf]; simp [Number.div, Number.pi, toReal, r2 L, XR.div]
  obtain ⟨t, e2, -⟩ := three_half_pi L
  unfold Interval.sin
  rw [e1, e2]
  simp only [Res.ok_bind]
  refine sinLike_closed L (Number.sin L) Real.sin ?_ (fun y => ⟨Real.neg_one_le_sin y, Real.sin_le_one y⟩) _ _ A a b ha hb ra rb
    hlc hrc h0 h9 x hx ?_ ?_
  · intro q; rfl
  · intro P hn
    by_cases h1 : (a : ℝ) ≤ Real.pi / 2 ∧ Real.pi / 2 ≤ (b : ℝ)
    · exfalso
      rw [hasExt_first (q := L.rr (Real.pi / 2)) (is_real F _) (grid_is_rep L ra h1.1) (rep_ge L rb h1.2)] at hn
      exact absurd hn (by simp)
    · rw [not_and_or, not_le, not_le] at h1
      rcases h1 with h | h
      · exact le_max_of_le_left (down _ _ h.le hax (hxb.trans hb9))
      · exact le_max_of_le_right (up _ _ (ha0.trans hax) hxb h.le)
  · intro P _
    rcases le_total x (Real.pi / 2) with h | h
    · exact min_le_of_left_le (up _ _ ha0 hax h)
    · exact min_le_of_right_le (down _ _ h hxb hb9)

/-- C58, sine and cosine of an unbounded interval: `[-1, 1]`. -/
theorem sin_cos_unbounded (A : Interval) (hA : A.Ok F) (h : A.lo = .real .ninf ∨ A.hi = .real .pinf) (x : ℝ) (hx : A.RMem x) :
    (∃ B, Interval.sin L A = .ok B ∧ B.RMem (Real.sin x)) ∧ (∃ B, Interval.cos L A = .ok B ∧ B.RMem (Real.cos x)) := by
  have hi : (A.lo.isInf || A.hi.isInf) = true := by
    rcases h with e | e <;> rw [e] <;> simp [Number.isInf]
  have mem : ∀ y : ℝ, -1 ≤ y → y ≤ 1 → unitI.RMem y := by
    intro y h1 h2
    simp only [unitI, RMem, LoB, HiB, if_true]
    push_cast; exact ⟨h1, h2⟩
  have k : ∀ f top bot, sinLike L f top bot A = .ok unitI := by
    intro f top bot
    unfold sinLike
    rw [not_empty_of_rmem hA hx, hi]
    simp
  constructor
  · obtain ⟨h', e1, -⟩ := pi_half L
    obtain ⟨t, e2, -⟩ := three_half_pi L
    unfold Interval.sin
    rw [e1, e2]
    exact ⟨_, k _ _ _, mem _ (Real.neg_one_le_sin x) (Real.sin_le_one x)⟩
  · exact ⟨_, k _ _ _, mem _ (Real.neg_one_le_cos x) (Real.cos_le_one x)⟩

/-- C58 violated: `sin` of the open interval `(0, 2)`, which holds `π/2`, excludes 1, for every precision. -/
theorem sin_violated : ∃ m, Interval.sin L ⟨.int 0, .int 2, false, false⟩ = .ok ⟨m, .int 1, false, false⟩ ∧
    (⟨.int 0, .int 2, false, false⟩ : Interval).RMem (Real.pi / 2) ∧
    ¬ (⟨m, .int 1, false, false⟩ : Interval).RMem (Real.sin (Real.pi / 2)) := by
  have hp := Real.pi_gt_three
  have hp' := Real.pi_lt_four
  obtain ⟨h, e1, hh1, hh2, hhr⟩ := pi_half L
  obtain ⟨t, e2, ht1, ht2, htr⟩ := three_half_pi L
  obtain ⟨P, eP, hP1, hP2, hPr⟩ := two_pi L
  have key : ∃ m, Interval.sin L ⟨.int 0, .int 2, false, false⟩ = .ok ⟨m, .int 1, false, false⟩ := by
    unfold Interval.sin
    rw [e1, e2]
    simp only [Res.ok_bind]
    unfold sinLike
    have hE : isEmpty F ⟨.int 0, .int 2, false, false⟩ = false := by simp [isEmpty, gt, le, Number.eq]
    have i0 : (Number.int 0).Is F 0 := ⟨by simp [Number.w], small_ok L (by decide)⟩
    have i2 : (Number.int 2).Is F 2 := ⟨by simp [Number.w], small_ok L (by decide)⟩
    have hw : Number.ge F (Number.sub F (.int 2) (.int 0)) (.real (.fin P)) = false := by
      simp only [Number.sub, Number.ge, Number.lt, toReal, XR.lt, Bool.not_eq_false', decide_eq_true_eq]
      norm_num [r2 L]; linarith
    rw [hE, eP]
    simp only [Bool.false_eq_true, if_false, Number.isInf, Bool.or_self, hw]
    rw [reduce_small L hP1 i0 (r0 L) le_rfl (by norm_num), reduce_small L hP1 i2 (r2 L) (by norm_num) (by norm_num)]
    have n : Number.lt F (.real (.fin 2)) (.real (.fin 0)) = false := by simp [Number.lt, toReal, XR.lt]
    simp only [Res.ok_bind, n, Bool.false_eq_true, if_false, ite_self]
    have t1 : Number.le F (.real (.fin 0)) (.real (.fin h)) = true := by
      rw [le_iff (is_real F _).2 (is_real F _).2]; simp only [Number.w, fin_le]; linarith
    have t2 : Number.ge F (.real (.fin 2)) (.real (.fin h)) = true := by
      rw [ge_iff (is_real F _).2 (is_real F _).2]; simp only [Number.w, fin_le]; linarith
    have t3 : Number.ge F (.real (.fin 2)) (.real (.fin t)) = false := by
      rw [← Bool.not_eq_true, ge_iff (is_real F _).2 (is_real F _).2]; simp only [Number.w, fin_le, not_le]; linarith
    have t4 : Number.ge F (.real (.fin 2)) (Number.add F (.real (.fin t)) (.real (.fin P))) = false := by
      rw [← Bool.not_eq_true]
      simp only [Number.add, toReal, XR.add]
      rw [ge_iff (is_real F _).2 (is_real F _).2]; simp only [Number.w, fin_le, not_le]
      have := (grid_step L 40 (q := t + P) (by decide)).1 (by push_cast; linarith)
      push_cast at this; linarith
    simp only [t1, t2, t3, t4, Bool.and_false, Bool.and_true, Bool.true_or, Bool.or_self, if_true, Bool.false_eq_true, if_false]
    have t5 : Number.lt F (.int 1) (.int 1) = false := by simp [Number.lt]
    have s0 : Number.sin L (.real (.fin 0)) = .real (.fin 0) := by
      simp only [Number.sin, toReal, XR.sin, XR.app]
      have : L.rr 0 = 0 := by have := rrInt L 0 (by decide); simpa using this
      simp [this]
    have s2 : ∃ y : ℚ, Number.sin L (.real (.fin 2)) = .real (.fin y) ∧ 0 ≤ y := by
      refine ⟨L.rr (Real.sin 2), by simp [Number.sin, toReal, XR.sin, XR.app], ?_⟩
      have h1 : L.rr (0 : ℝ) ≤ L.rr (Real.sin 2) := L.rr_mono _ _ (Real.sin_nonneg_of_nonneg_of_le_pi (by norm_num) (by linarith))
      have h2 : L.rr (0 : ℝ) = 0 := by have := rrInt L 0 (by decide); simpa using this
      rwa [h2] at h1
    obtain ⟨y, s2, hy⟩ := s2
    have t6 : Number.gt F (smin F (Number.sin L (.real (.fin 0))) (Number.sin L (.real (.fin 2)))) (.int (-1)) = true := by
      rw [s0, s2]
      have : ∃ z : ℚ, smin F (.real (.fin 0)) (.real (.fin y)) = .real (.fin z) ∧ 0 ≤ z := by
        unfold smin; split
        · exact ⟨_, rfl, hy⟩
        · exact ⟨_, rfl, le_rfl⟩
      obtain ⟨z, e, hz⟩ := this
      rw [e, gt_small L (is_real F z) neg_one_small]
      push_cast; linarith
    simp only [t5, t6, if_true, Bool.false_eq_true, if_false]
    exact ⟨_, rfl⟩
  obtain ⟨m, hk⟩ := key
  refine ⟨m, hk, ?_, ?_⟩
  · simp only [RMem, LoB, HiB, Bool.false_eq_true, if_false]
    push_cast; exact ⟨by linarith, by linarith⟩
  · rw [Real.sin_pi_div_two]
    rintro ⟨-, h2⟩
    simp [HiB] at h2

theorem cos_pos_five {y : ℝ} (h1 : 5 ≤ y) (h2 : y ≤ 15 / 2) : 0 ≤ Real.cos y := by
  have hp := Real.pi_gt_d2
  have hp' := Real.pi_lt_d2
  rw [← Real.cos_sub_two_pi]
  exact Real.cos_nonneg_of_neg_pi_div_two_le_of_le (by linarith) (by linarith)

/-- C58 violated: `cos` of the open interval `(-1, 1)` excludes 1, the cosine of 0, for every precision. -/
theorem cos_violated : ∃ m, Interval.cos L ⟨.int (-1), .int 1, false, false⟩ = .ok ⟨m, .int 1, false, false⟩ ∧
    (⟨.int (-1), .int 1, false, false⟩ : Interval).RMem 0 ∧
    ¬ (⟨m, .int 1, false, false⟩ : Interval).RMem (Real.cos 0) := by
  obtain ⟨q1, q2⟩ := pi_bounds L
  obtain ⟨P, eP, hP1, hP2, hPr⟩ := two_pi L
  have pp : (0 : ℚ) < P := by linarith
  have hm1 : F.r (-1) = -1 := by have := L.small (-1) (by decide); simpa using this
  have h0 : F.r 0 = 0 := r0 L
  have key : ∃ m, Interval.cos L ⟨.int (-1), .int 1, false, false⟩ = .ok ⟨m, .int 1, false, false⟩ := by
    unfold Interval.cos sinLike
    have hE : isEmpty F ⟨.int (-1), .int 1, false, false⟩ = false := by simp [isEmpty, gt, le, Number.eq]
    have i1 : (Number.int 1).Is F 1 := ⟨by simp [Number.w], small_ok L (by decide)⟩
    have hw : Number.ge F (Number.sub F (.int 1) (.int (-1))) (.real (.fin P)) = false := by
      simp only [Number.sub, Number.ge, Number.lt, toReal, XR.lt, Bool.not_eq_false', decide_eq_true_eq]
      norm_num [r2 L]; linarith
    rw [hE, eP]
    simp only [Bool.false_eq_true, if_false, Number.isInf, Bool.or_self, hw]
    have red : ∃ y : ℚ, reduce (F := F) (.real (.fin P)) (.int (-1)) = .ok (.real (.fin y)) ∧ 5 ≤ y ∧ y ≤ 11 / 2 := by
      unfold reduce
      rw [div_real_ok]
      simp only [Res.ok_bind, toReal, XR.div, pp.ne', if_false, Number.floor, XR.floor]
      push_cast
      rw [hm1]
      have g1 := (grid_step L (-1) (q := -1 / P) (by decide)).1 (by
        push_cast; rw [div_le_div_iff₀ (by norm_num) pp]; linarith)
      have g2 := (grid_step L 0 (q := -1 / P) (by decide)).2 (by
        push_cast; rw [div_le_div_iff₀ pp (by norm_num)]; linarith)
      push_cast at g1 g2
      have c : (F.r (-1 / P)).floor = 0 ∨ (F.r (-1 / P)).floor = -1 := by
        rcases lt_or_ge (F.r (-1 / P)) 0 with h | h
        · right
          apply le_antisymm
          · have h1 : ((F.r (-1 / P)).floor : ℚ) < 0 := (Rat.floor_le _).trans_lt h
            have : (F.r (-1 / P)).floor < 0 := by exact_mod_cast h1
            omega
          · rw [Rat.le_floor_iff]; push_cast; linarith
        · left; exact floor_zero h (by linarith)
      rcases c with c | c
      · rw [c]
        have e : Number.sub F (.int (-1)) (Number.mul F (.real (.fin ((0 : Int) : ℚ))) (.real (.fin P))) = .real (.fin (-1)) := by
          simp [Number.sub, Number.mul, toReal, XR.mul, XR.sub, XR.neg, XR.add, h0, hm1]
        rw [e]
        have n : Number.lt F (.real (.fin (-1))) (.int 0) = true := by simp [Number.lt, toReal, XR.lt, h0]
        rw [n]
        refine ⟨F.r (-1 + P), by simp [Number.addAsg, toReal, XR.add], ?_, ?_⟩
        · have := (grid_step L 20 (q := -1 + P) (by decide)).1 (by push_cast; linarith)
          push_cast at this; linarith
        · have := (grid_step L 22 (q := -1 + P) (by decide)).2 (by push_cast; linarith)
          push_cast at this; linarith
      · rw [c]
        have k1 := (grid_step L (-26) (q := -P) (by decide)).1 (by push_cast; linarith)
        have k2 := (grid_step L (-24) (q := -P) (by decide)).2 (by push_cast; linarith)
        push_cast at k1 k2
        have e : Number.sub F (.int (-1)) (Number.mul F (.real (.fin ((-1 : Int) : ℚ))) (.real (.fin P))) =
            .real (.fin (F.r (-1 + -F.r (-P)))) := by
          simp [Number.sub, Number.mul, toReal, XR.mul, XR.sub, XR.neg, XR.add, hm1]
        rw [e]
        have k3 := (grid_step L 20 (q := -1 + -F.r (-P)) (by decide)).1 (by push_cast; linarith)
        have k4 := (grid_step L 22 (q := -1 + -F.r (-P)) (by decide)).2 (by push_cast; linarith)
        push_cast at k3 k4
        have n : Number.lt F (.real (.fin (F.r (-1 + -F.r (-P))))) (.int 0) = false := by
          rw [← Bool.not_eq_true, lt_small L (is_real F _) zero_small]; push_cast; linarith
        rw [n]
        exact ⟨_, rfl, by linarith, by linarith⟩
    obtain ⟨y, red, hy1, hy2⟩ := red
    rw [red, reduce_small L hP1 i1 (r1 L) (by norm_num) (by norm_num)]
    have n : Number.lt F (.real (.fin 1)) (.real (.fin y)) = true := by
      simp only [Number.lt, toReal, XR.lt, decide_eq_true_eq]; linarith
    have z1 := (grid_step L 28 (q := 1 + P) (by decide)).1 (by push_cast; linarith)
    have z2 := (grid_step L 30 (q := 1 + P) (by decide)).2 (by push_cast; linarith)
    push_cast at z1 z2
    have e3 : Number.addAsg F (.real (.fin 1)) (.real (.fin P)) = .real (.fin (F.r (1 + P))) := by
      simp [Number.addAsg, toReal, XR.add]
    simp only [Res.ok_bind, n, if_true, ite_self, e3]
    have t1 : Number.le F (.real (.fin y)) (.int 0) = false := by
      rw [← Bool.not_eq_true, le_small L (is_real F _) zero_small]; push_cast; linarith
    have a0 : Number.add F (.int 0) (.real (.fin P)) = .real (.fin P) := by simp [Number.add, toReal, XR.add, h0, hPr]
    have t2 : Number.le F (.real (.fin y)) (.real (.fin P)) = true := by
      rw [le_iff (is_real F _).2 (is_real F _).2]; simp only [Number.w, fin_le]; linarith
    have t3 : Number.ge F (.real (.fin (F.r (1 + P)))) (.real (.fin P)) = true := by
      rw [ge_iff (is_real F _).2 (is_real F _).2]; simp only [Number.w, fin_le]; linarith
    have hpi : Number.pi L = .real (.fin (L.rr Real.pi)) := rfl
    have t4 : Number.le F (.real (.fin y)) (Number.pi L) = false := by
      rw [hpi, ← Bool.not_eq_true, le_iff (is_real F _).2 (is_real F _).2]; simp only [Number.w, fin_le, not_le]; linarith
    have t5 : Number.ge F (.real (.fin (F.r (1 + P)))) (Number.add F (Number.pi L) (.real (.fin P))) = false := by
      rw [← Bool.not_eq_true, hpi]
      simp only [Number.add, toReal, XR.add]
      rw [ge_iff (is_real F _).2 (is_real F _).2]; simp only [Number.w, fin_le, not_le]
      have := (grid_step L 36 (q := L.rr Real.pi + P) (by decide)).1 (by push_cast; linarith)
      push_cast at this; linarith
    simp only [t1, a0, t2, t3, t4, t5, Bool.and_false, Bool.false_and, Bool.and_true, Bool.false_or, Bool.or_self, if_true,
      Bool.false_eq_true, if_false]
    have t6 : Number.lt F (.int 1) (.int 1) = false := by simp [Number.lt]
    have cs : ∀ z : ℚ, 5 ≤ z → z ≤ 15 / 2 → ∃ u : ℚ, Number.cos L (.real (.fin z)) = .real (.fin u) ∧ 0 ≤ u := by
      intro z hz1 hz2
      refine ⟨L.rr (Real.cos z), by simp [Number.cos, toReal, XR.cos, XR.app], ?_⟩
      have b1 : ((5 : ℚ) : ℝ) ≤ (z : ℝ) := by exact_mod_cast hz1
      have b2 : (z : ℝ) ≤ ((15 / 2 : ℚ) : ℝ) := by exact_mod_cast hz2
      push_cast at b1 b2
      have h1 : L.rr (0 : ℝ) ≤ L.rr (Real.cos z) := L.rr_mono _ _ (cos_pos_five b1 b2)
      have h2 : L.rr (0 : ℝ) = 0 := by have := rrInt L 0 (by decide); simpa using this
      rwa [h2] at h1
    obtain ⟨u, eu, hu⟩ := cs y hy1 (by linarith)
    obtain ⟨v, ev, hv⟩ := cs (F.r (1 + P)) (by linarith) (by linarith)
    have t7 : Number.gt F (smin F (Number.cos L (.real (.fin y))) (Number.cos L (.real (.fin (F.r (1 + P)))))) (.int (-1)) = true := by
      rw [eu, ev]
      have : ∃ z : ℚ, smin F (.real (.fin u)) (.real (.fin v)) = .real (.fin z) ∧ 0 ≤ z := by
        unfold smin; split
        · exact ⟨_, rfl, hv⟩
        · exact ⟨_, rfl, hu⟩
      obtain ⟨z, e, hz⟩ := this
      rw [e, gt_small L (is_real F z) neg_one_small]
      push_cast; linarith
    simp only [t6, t7, if_true, Bool.false_eq_true, if_false]
    exact ⟨_, rfl⟩
  obtain ⟨m, hk⟩ := key
  refine ⟨m, hk, by simp [RMem, LoB, HiB], ?_⟩
  rw [Real.cos_zero]
  rintro ⟨-, h2⟩
  simp [HiB] at h2

end SMT.Num
