import Verif.Num.FunRecip
import Mathlib.Analysis.Complex.ExponentialBounds

/-! # C58: inverse functions of reciprocals, and reciprocals of functions -/

set_option linter.unusedVariables false
set_option linter.unusedSimpArgs false

noncomputable section
namespace SMT.Num
open Number Interval

variable {F : Fmt} (L : Lib F)

/-! ## Specification -/

/-- `g` computes `f` of the reciprocal, for the intervals in `ok`: the result holds `f (1 / x)` for every real of the interval when
the reciprocals of the ends fit the precision; and, for an interval closed on the left, `f` of the rounded reciprocal, in any case. -/
def ViaRecip (ok : Interval → Prop) (f : ℝ → ℝ) (g : Interval → Res Interval) : Prop :=
  ∀ A, A.Ok F → ok A → ∀ x, A.RMem x →
    (A.InvExact F → ∃ B, g A = .ok B ∧ B.RMem (f (1 / x))) ∧
    (A.lc = true → ∃ B, g A = .ok B ∧ B.RMem (f (L.rr (1 / x))))

/-! ## Proofs -/

include L in
theorem inv_result {A : Interval} (hA : A.Ok F) {x : ℝ} (hx : A.RMem x) (hs : A.OneSide) (hc : A.InvExact F ∨ A.lc = true) :
    ∃ B, Interval.divI F oneI A = .ok B ∧ B.lo.Is F (invOf F A.hi) ∧ B.hi.Is F (invOf F A.lo) ∧ isEmpty F B = false := by
  obtain ⟨u, v, hu, hv, e⟩ := divI_one L hA hx hs
  have hle := (inv_bounds L hA hx hs).1.trans (inv_bounds L hA hx hs).2
  refine ⟨_, e, ?_, hu, ?_⟩
  · by_cases hlt : invOf F A.hi < invOf F A.lo
    · simp only [hlt, if_true]; exact hv
    · simp only [hlt, if_false]
      have : invOf F A.hi = invOf F A.lo := le_antisymm hle (not_lt.1 hlt)
      rw [this]; exact hu
  · unfold isEmpty
    rw [Bool.or_eq_false_iff]
    by_cases hlt : invOf F A.hi < invOf F A.lo
    · simp only [hlt, if_true]
      refine ⟨?_, ?_⟩
      · rw [← Bool.not_eq_true, gt_iff hv.2 hu.2, hu.1, hv.1, fin_lt]; exact not_lt.2 hle
      · rw [Bool.and_eq_false_iff]; left
        rw [← Bool.not_eq_true, eq_is hv hu]; exact hlt.ne
    · have hcl : A.lc = true := hc.elim (fun he => inv_exact_point hA hx hs he hlt) id
      simp only [hlt, if_false, hcl]
      refine ⟨?_, by simp⟩
      rw [← Bool.not_eq_true, gt_iff hu.2 hu.2]; exact lt_irrefl _

/-- the two parts of `ViaRecip` from one fact about all reals between the rounded reciprocals -/
theorem viaRecip_of {ok : Interval → Prop} {f : ℝ → ℝ} {g : Interval → Res Interval}
    (hs : ∀ A, A.Ok F → ok A → A.OneSide)
    (h : ∀ A, A.Ok F → ok A → ∀ x, A.RMem x → (A.InvExact F ∨ A.lc = true) →
      ∃ B, g A = .ok B ∧ ∀ y : ℝ, (invOf F A.hi : ℝ) ≤ y → y ≤ (invOf F A.lo : ℝ) → B.RMem (f y)) : ViaRecip L ok f g := by
  intro A hA ho x hx
  constructor
  · intro he
    obtain ⟨B, e, hB⟩ := h A hA ho x hx (.inl he)
    have := inv_exact_mem hA hx (hs A hA ho) he
    exact ⟨B, e, hB _ this.1 this.2⟩
  · intro hc
    obtain ⟨B, e, hB⟩ := h A hA ho x hx (.inr hc)
    have := inv_bounds L hA hx (hs A hA ho)
    exact ⟨B, e, hB _ (by exact_mod_cast this.1) (by exact_mod_cast this.2)⟩

theorem zero_is' : (Number.int 0).w = fin 0 := by simp [Number.w]
include L in
theorem zero_ok : (Number.int 0).Ok F := small_ok L (by decide)
include L in
theorem one_is : (Number.int 1).Is F 1 := ⟨by simp [Number.w], small_ok L (by decide)⟩
include L in
theorem mone_is : (Number.int (-1)).Is F (-1) := ⟨by simp [Number.w], small_ok L (by decide)⟩

include L in
/-- the rounded reciprocals of an interval inside `[1, oo]` or `[-oo, -1]` lie in `[-1, 1]` -/
theorem inv_unit {A : Interval} (hA : A.Ok F) {x : ℝ} (hx : A.RMem x) (h : fin 1 ≤ A.lo.w ∨ A.hi.w ≤ fin (-1)) :
    A.OneSide ∧ -1 ≤ invOf F A.hi ∧ invOf F A.lo ≤ 1 := by
  have hs : A.OneSide := by
    rcases h with h | h
    · exact .inl (lt_of_lt_of_le (by rw [fin_lt]; norm_num) h)
    · exact .inr (lt_of_le_of_lt h (by rw [fin_lt]; norm_num))
  refine ⟨hs, ?_⟩
  have key : ∀ q : ℚ, 1 ≤ q → 0 ≤ F.r (1 / q) ∧ F.r (1 / q) ≤ 1 := by
    intro q hq
    have h0 : (0 : ℚ) ≤ 1 / q := by positivity
    have h1 : 1 / q ≤ 1 := by rw [div_le_one (by linarith)]; exact hq
    have a := F.mono _ _ h0; have b := F.mono _ _ h1
    rw [r0 L] at a; rw [r1 L] at b
    exact ⟨a, b⟩
  have key2 : ∀ q : ℚ, q ≤ -1 → -1 ≤ F.r (1 / q) ∧ F.r (1 / q) ≤ 0 := by
    intro q hq
    have h0 : 1 / q ≤ 0 := one_div_nonpos.2 (by linarith)
    have h1 : -1 ≤ 1 / q := by rw [le_div_iff_of_neg (by linarith)]; linarith
    have a := F.mono _ _ h0; have b := F.mono _ _ h1
    rw [r0 L] at a; rw [rm1 L] at b
    exact ⟨b, a⟩
  rcases one_side_cases hA hx hs with ⟨a, b, ha, hb, h0, -, -, h1, h2⟩ | ⟨a, ha, hh, h0, -, h1⟩ | ⟨b, hb, hl, h0, -, h2⟩
  · have hab : a ≤ b := by exact_mod_cast h1.trans h2
    rw [invOf_is ha, invOf_is hb]
    rw [ha.1, hb.1, fin_le, fin_le] at h
    rcases h with h | h
    · have := key a h; have := key b (h.trans hab)
      constructor <;> linarith
    · have := key2 b h; have := key2 a (hab.trans h)
      constructor <;> linarith
  · rw [hh, ha.1, fin_le] at h
    simp [Number.w] at h
    rw [invOf_is ha, hh]
    have := key a h
    simp only [invOf, toReal]
    constructor <;> linarith
  · rw [hl, hb.1, fin_le] at h
    simp [Number.w] at h
    rw [invOf_is hb, hl]
    have := key2 b h
    simp only [invOf, toReal]
    constructor <;> linarith

/-- C58, inverse hyperbolic cosecant `arsinh (1 / x)`, on every interval on one side of zero -/
theorem acsch_encloses_partial : ViaRecip L Interval.OneSide Real.arsinh (Interval.acsch L) := by
  refine viaRecip_of L (fun _ _ h => h) ?_
  intro A hA hs x hx hc
  obtain ⟨B, e, hl, hh, he⟩ := inv_result L hA hx hs hc
  unfold Interval.acsch
  have t : (Number.le F A.lo (.int 0) && Number.ge F A.hi (.int 0)) = false := by
    rw [Bool.and_eq_false_iff]
    rcases hs with h | h
    · left; rw [← Bool.not_eq_true, le_iff hA.1 (zero_ok L), zero_is']; exact not_le.2 h
    · right; rw [← Bool.not_eq_true, ge_iff hA.2 (zero_ok L), zero_is']; exact not_le.2 h
  rw [not_empty_of_rmem hA hx, t, e]
  refine ⟨_, rfl, fun y h1 h2 => ?_⟩
  unfold Interval.asinh
  rw [he]
  exact ⟨lower_end L hl (Real.arsinh_strictMono.monotone h1) false, upper_end L hh (Real.arsinh_strictMono.monotone h2) false⟩

/-- C58, inverse hyperbolic secant `arcosh (1 / x)`, on every interval inside `(0, 1]` with a positive lower end -/
theorem asech_encloses_partial : ViaRecip L (fun A => fin 0 < A.lo.w ∧ A.hi.w ≤ fin 1) Real.arcosh (Interval.asech L) := by
  refine viaRecip_of L (fun _ _ h => .inl h.1) ?_
  intro A hA ho x hx hc
  obtain ⟨B, e, hl, hh, he⟩ := inv_result L hA hx (.inl ho.1) hc
  have hge : 1 ≤ invOf F A.hi := by
    rcases one_side_cases hA hx (.inl ho.1) with ⟨a, b, ha, hb, h0, -, -, h1, h2⟩ | ⟨a, ha, hh, h0, -, h1⟩ | ⟨b, hb, hl, h0, -, h2⟩
    · have ho' := ho
      rw [ha.1, hb.1, fin_lt, fin_le] at ho'
      have hab : a ≤ b := by exact_mod_cast h1.trans h2
      have hb0 : 0 < b := ho'.1.trans_le hab
      rw [invOf_is hb]
      have : 1 ≤ 1 / b := by rw [le_div_iff₀ hb0]; linarith [ho'.2]
      have := F.mono _ _ this
      rwa [r1 L] at this
    · have := ho.2
      rw [hh] at this
      have h1 : (⊤ : EQ) ≤ fin 1 := this
      exact absurd h1 (by rw [top_le_iff]; unfold fin; intro h; exact absurd (WithBot.coe_inj.1 h) (by simp))
    · have := ho.1
      rw [hl] at this
      simp [Number.w] at this
  have hle := (inv_bounds L hA hx (.inl ho.1)).1.trans (inv_bounds L hA hx (.inl ho.1)).2
  have g : ∀ {n : Number} {q : ℚ}, n.Is F q → 1 ≤ q → Number.acosh L n = .ok (.real (XR.app L Real.arcosh .nan .pinf (toReal F n))) := by
    intro n q h h1
    unfold Number.acosh XR.acosh
    have : XR.lt (toReal F n) (.fin 1) = false := by rw [is_toReal h]; simp [XR.lt, h1]
    rw [this]; rfl
  unfold Interval.asech
  have t : (Number.le F A.lo (.int 0) || Number.gt F A.hi (.int 1)) = false := by
    rw [Bool.or_eq_false_iff]
    constructor
    · rw [← Bool.not_eq_true, le_iff hA.1 (zero_ok L), zero_is']; exact not_le.2 ho.1
    · rw [← Bool.not_eq_true, gt_iff hA.2 (one_is L).2, (one_is L).1]; exact not_lt.2 ho.2
  rw [not_empty_of_rmem hA hx, t, e]
  simp only [Bool.false_eq_true, if_false, Res.ok_bind]
  unfold Interval.acosh
  have t2 : Number.lt F B.lo (.int 1) = false := by
    rw [← Bool.not_eq_true, lt_is hl (one_is L)]; exact not_lt.2 hge
  rw [he, t2, g hl hge, g hh (hge.trans hle)]
  have hge' : (1 : ℝ) ≤ (invOf F A.hi : ℝ) := by exact_mod_cast hge
  have mono : ∀ {u v : ℝ}, 1 ≤ u → u ≤ v → Real.arcosh u ≤ Real.arcosh v := by
    intro u v h1 h2
    exact (Real.arcosh_le_arcosh (by linarith) (by linarith)).2 h2
  exact ⟨_, rfl, fun y h1 h2 => ⟨lower_end L hl (mono hge' h1) false, upper_end L hh (mono (hge'.trans h1) h2) false⟩⟩

/-- the domain of the arc secant and arc cosecant, one side of it -/
def OutUnit (A : Interval) : Prop := fin 1 ≤ A.lo.w ∨ A.hi.w ≤ fin (-1)

include L in
/-- neither of the two tests in front of `asec` and `acsc` -/
theorem outUnit_tests {A : Interval} (hA : A.Ok F) {x : ℝ} (hx : A.RMem x) (ho : OutUnit A) :
    (Number.gt F A.lo (.int (-1)) && Number.lt F A.hi (.int 1)) = false ∧
    (Number.le F A.lo (.int (-1)) && Number.ge F A.hi (.int 1)) = false := by
  have hord : A.lo.w ≤ A.hi.w := by
    rcases one_side_cases hA hx (inv_unit L hA hx ho).1 with ⟨a, b, ha, hb, h0, -, -, h1, h2⟩ | ⟨a, ha, hh, h0, -, h1⟩ | ⟨b, hb, hl, h0, -, h2⟩
    · rw [ha.1, hb.1, fin_le]; exact_mod_cast h1.trans h2
    · rw [hh]; exact le_top
    · rw [hl]; exact bot_le
  have lt' : fin (-1) < fin 1 := by rw [fin_lt]; norm_num
  rw [Bool.and_eq_false_iff, Bool.and_eq_false_iff]
  rcases ho with h | h
  · refine ⟨.inr ?_, .inl ?_⟩
    · rw [← Bool.not_eq_true, lt_iff hA.2 (one_is L).2, (one_is L).1]; exact not_lt.2 (h.trans hord)
    · rw [← Bool.not_eq_true, le_iff hA.1 (mone_is L).2, (mone_is L).1]; exact not_le.2 (lt'.trans_le h)
  · refine ⟨.inl ?_, .inr ?_⟩
    · rw [← Bool.not_eq_true, gt_iff hA.1 (mone_is L).2, (mone_is L).1]; exact not_lt.2 (hord.trans h)
    · rw [← Bool.not_eq_true, ge_iff hA.2 (one_is L).2, (one_is L).1]; exact not_le.2 (h.trans_lt lt')

/-- C58, arc cosecant `arcsin (1 / x)`, on every interval on one side of its domain -/
theorem acsc_encloses_partial : ViaRecip L OutUnit Real.arcsin (Interval.acsc L) := by
  refine viaRecip_of L (fun A hA ho => ?_) ?_
  · rcases ho with h | h
    · exact .inl (lt_of_lt_of_le (by rw [fin_lt]; norm_num) h)
    · exact .inr (lt_of_le_of_lt h (by rw [fin_lt]; norm_num))
  intro A hA ho x hx hc
  obtain ⟨hs, k1, k2⟩ := inv_unit L hA hx ho
  obtain ⟨B, e, hl, hh, he⟩ := inv_result L hA hx hs hc
  obtain ⟨t1, t2⟩ := outUnit_tests L hA hx ho
  have hle := (inv_bounds L hA hx hs).1.trans (inv_bounds L hA hx hs).2
  have g : ∀ {n : Number} {q : ℚ}, n.Is F q → -1 ≤ q → q ≤ 1 → Number.asin L n = .ok (.real (XR.app L Real.arcsin .nan .nan (toReal F n))) := by
    intro n q h h1 h2
    unfold Number.asin XR.asin
    have : (XR.lt (toReal F n) (.fin (-1)) || XR.lt (.fin 1) (toReal F n)) = false := by rw [is_toReal h]; simp [XR.lt, h1, h2]
    rw [this]; rfl
  unfold Interval.acsc
  rw [not_empty_of_rmem hA hx, t1, t2, e]
  simp only [Bool.false_eq_true, if_false, Res.ok_bind]
  unfold Interval.asin
  have t3 : (Number.lt F B.lo (.int (-1)) || Number.gt F B.hi (.int 1)) = false := by
    rw [Bool.or_eq_false_iff]
    constructor
    · rw [← Bool.not_eq_true, lt_is hl (mone_is L)]; exact not_lt.2 k1
    · rw [← Bool.not_eq_true, gt_small L hh one_small]; push_cast; exact not_lt.2 k2
  rw [he, t3, g hl k1 (hle.trans k2), g hh (k1.trans hle) k2]
  exact ⟨_, rfl, fun y h1 h2 => ⟨lower_end L hl (Real.monotone_arcsin h1) false, upper_end L hh (Real.monotone_arcsin h2) false⟩⟩

/-- C58, arc secant `arccos (1 / x)`, on every interval on one side of its domain: like the arc cosine (see `acos_violated`) it is
rounded to nearest, so what is proved is that the rounded value is between the ends of the result. -/
theorem asec_rounded_partial (A : Interval) (hA : A.Ok F) (ho : OutUnit A) (x : ℝ) (hx : A.RMem x) :
    (A.InvExact F → ∃ B, Interval.asec L A = .ok B ∧ B.Hull (L.rr (Real.arccos (1 / x)))) ∧
    (A.lc = true → ∃ B, Interval.asec L A = .ok B ∧ B.Hull (L.rr (Real.arccos (L.rr (1 / x))))) := by
  obtain ⟨hs, k1, k2⟩ := inv_unit L hA hx ho
  obtain ⟨t1, t2⟩ := outUnit_tests L hA hx ho
  have hle := (inv_bounds L hA hx hs).1.trans (inv_bounds L hA hx hs).2
  have g : ∀ {n : Number} {q : ℚ}, n.Is F q → -1 ≤ q → q ≤ 1 → Number.acos L n = .ok (.real (.fin (L.rr (Real.arccos q)))) := by
    intro n q h h1 h2
    unfold Number.acos XR.acos
    have : (XR.lt (toReal F n) (.fin (-1)) || XR.lt (.fin 1) (toReal F n)) = false := by rw [is_toReal h]; simp [XR.lt, h1, h2]
    rw [this, is_toReal h]; rfl
  have main : (A.InvExact F ∨ A.lc = true) → ∃ B, Interval.asec L A = .ok B ∧
      ∀ y : ℝ, (invOf F A.hi : ℝ) ≤ y → y ≤ (invOf F A.lo : ℝ) → B.Hull (L.rr (Real.arccos y)) := by
    intro hc
    obtain ⟨B, e, hl, hh, he⟩ := inv_result L hA hx hs hc
    unfold Interval.asec
    rw [not_empty_of_rmem hA hx, t1, t2, e]
    simp only [Bool.false_eq_true, if_false, Res.ok_bind]
    unfold Interval.acos
    have t3 : (Number.lt F B.lo (.int (-1)) || Number.gt F B.hi (.int 1)) = false := by
      rw [Bool.or_eq_false_iff]
      constructor
      · rw [← Bool.not_eq_true, lt_is hl (mone_is L)]; exact not_lt.2 k1
      · rw [← Bool.not_eq_true, gt_small L hh one_small]; push_cast; exact not_lt.2 k2
    rw [he, t3, g hl k1 (hle.trans k2), g hh (k1.trans hle) k2]
    refine ⟨_, rfl, fun y h1 h2 => ⟨?_, ?_⟩⟩
    · refine lob_of_le (is_real F _) ?_
      exact_mod_cast L.rr_mono _ _ (Real.antitone_arccos h2)
    · refine hib_of_le (is_real F _) ?_
      exact_mod_cast L.rr_mono _ _ (Real.antitone_arccos h1)
  constructor
  · intro he
    obtain ⟨B, e, hB⟩ := main (.inl he)
    have := inv_exact_mem hA hx hs he
    exact ⟨B, e, hB _ this.1 this.2⟩
  · intro hc
    obtain ⟨B, e, hB⟩ := main (.inr hc)
    have := inv_bounds L hA hx hs
    exact ⟨B, e, hB _ (by exact_mod_cast this.1) (by exact_mod_cast this.2)⟩

/-- C58, inverse hyperbolic cotangent `artanh (1 / x)`, on every interval on one side of its domain whose ends have reciprocals that
do not round to 1 or -1 -/
theorem acoth_encloses_partial : ViaRecip L (fun A => OutUnit A ∧ (∀ q, A.lo.Is F q → |F.r (1 / q)| < 1) ∧ (∀ q, A.hi.Is F q → |F.r (1 / q)| < 1))
    Real.artanh (Interval.acoth L) := by
  refine viaRecip_of L (fun A hA ho => ?_) ?_
  · rcases ho.1 with h | h
    · exact .inl (lt_of_lt_of_le (by rw [fin_lt]; norm_num) h)
    · exact .inr (lt_of_le_of_lt h (by rw [fin_lt]; norm_num))
  intro A hA ho x hx hc
  obtain ⟨hs, -, -⟩ := inv_unit L hA hx ho.1
  obtain ⟨B, e, hl, hh, he⟩ := inv_result L hA hx hs hc
  have hle := (inv_bounds L hA hx hs).1.trans (inv_bounds L hA hx hs).2
  obtain ⟨k1, k2, hord⟩ : -1 < invOf F A.hi ∧ invOf F A.lo < 1 ∧ A.lo.w ≤ A.hi.w := by
    rcases one_side_cases hA hx hs with ⟨a, b, ha, hb, h0, -, -, h1, h2⟩ | ⟨a, ha, hh, h0, -, h1⟩ | ⟨b, hb, hl, h0, -, h2⟩
    · rw [invOf_is ha, invOf_is hb]
      refine ⟨(abs_lt.1 (ho.2.2 b hb)).1, (abs_lt.1 (ho.2.1 a ha)).2, ?_⟩
      rw [ha.1, hb.1, fin_le]; exact_mod_cast h1.trans h2
    · rw [invOf_is ha, hh]
      refine ⟨by norm_num [invOf, toReal], (abs_lt.1 (ho.2.1 a ha)).2, le_top⟩
    · rw [invOf_is hb, hl]
      refine ⟨(abs_lt.1 (ho.2.2 b hb)).1, by norm_num [invOf, toReal], bot_le⟩
  have t1 : (Number.ge F A.lo (.int (-1)) && Number.le F A.hi (.int 1)) = false := by
    rw [Bool.and_eq_false_iff]
    rcases ho.1 with h | h
    · right
      rw [← Bool.not_eq_true, le_iff hA.2 (one_is L).2, (one_is L).1, not_le]
      rcases (h.trans hord).lt_or_eq with h' | h'
      · exact h'
      · exact absurd (ho.2.2 1 ⟨h'.symm, hA.2⟩) (by rw [_root_.div_one, r1 L]; norm_num)
    · left
      rw [← Bool.not_eq_true, ge_iff hA.1 (mone_is L).2, (mone_is L).1, not_le]
      rcases (hord.trans h).lt_or_eq with h' | h'
      · exact h'
      · exact absurd (ho.2.1 (-1) ⟨h', hA.1⟩) (by rw [show (1 : ℚ) / -1 = -1 by norm_num, rm1 L]; norm_num)
  have g : ∀ {n : Number} {q : ℚ}, n.Is F q → -1 < q → q < 1 → Number.atanh L n = .ok (.real (XR.app L Real.artanh .nan .nan (toReal F n))) := by
    intro n q h h1 h2
    unfold Number.atanh XR.atanh
    have : (XR.le (toReal F n) (.fin (-1)) || XR.le (.fin 1) (toReal F n)) = false := by
      rw [is_toReal h]; simp [XR.le, XR.lt, XR.eq, h1.le, h2.le, h1.ne', h2.ne']
    rw [this]; rfl
  unfold Interval.acoth
  rw [not_empty_of_rmem hA hx, t1, e]
  simp only [Bool.false_eq_true, if_false, Res.ok_bind]
  unfold Interval.atanh
  have t3 : (Number.le F B.lo (.int (-1)) || Number.ge F B.hi (.int 1)) = false := by
    rw [Bool.or_eq_false_iff]
    constructor
    · rw [← Bool.not_eq_true, le_small L hl neg_one_small]; push_cast; exact not_le.2 k1
    · rw [← Bool.not_eq_true, ge_small L hh one_small]; push_cast; exact not_le.2 k2
  rw [he, t3, g hl k1 (hle.trans_lt k2), g hh (k1.trans_le hle) k2]
  have k1' : (-1 : ℝ) < (invOf F A.hi : ℝ) := by exact_mod_cast k1
  have k2' : (invOf F A.lo : ℝ) < 1 := by exact_mod_cast k2
  exact ⟨_, rfl, fun y h1 h2 => ⟨lower_end L hl (Real.artanh_le_artanh k1' (h2.trans_lt k2') h1) false,
    upper_end L hh (Real.artanh_le_artanh (k1'.trans_le h1) k2' h2) false⟩⟩

end SMT.Num
