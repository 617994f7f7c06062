import Verif.Walk.Exact

/-!
# Expressions in one variable (`src/base_parser.cpp:2913-3007`)
-/

namespace SMT.Walk
open SMT.Kinds SMT.Text SMT.Store

/-- The loop shared by `Parser::isUnit` and `Parser::getUnitVar` (`src/base_parser.cpp:2920-2955, 2972-3005`): `stack` has the top
first, `v` is the visited set and `vars` the set of variables seen; `none`: not finished within `n` rounds; `some none`: left at
the second variable; `some (some vars)`: the stack ran empty. -/
def unitLoop (H : Heap) : Nat → List Nat → List Nat → List Nat → Option (Option (List Nat))
  | _, [], _, vars => some (some vars)
  | 0, _ :: _, _, _ => none
  | n + 1, p :: stack, v, vars =>
    if p ∈ v then unitLoop H n stack v vars
    else
      let vars' := if isVarK (kindAt H p) then ins vars p else vars
      if isVarK (kindAt H p) && decide (vars'.length > 1) then some none
      else unitLoop H n (((kids H p).filter fun c => decide (c ∉ v ++ [p])).reverse ++ stack) (v ++ [p]) vars'

/-- `Parser::isUnit(node)` (`src/base_parser.cpp:2913-2955`); the argument `none` is the null pointer -/
def isUnit (H : Heap) (n : Nat) : Option Nat → Option Bool
  | none => some true
  | some p => (unitLoop H n [p] [] []).map fun
    | none => false
    | some vars => decide (vars.length ≤ 1)

/-- `Parser::isUnitAtom(node)` (`src/base_parser.cpp:2957-2959`) -/
def isUnitAtom (S : SortTest) (H : Heap) (n : Nat) : Option Nat → Option Bool
  | none => some false
  | some p => (isUnit H n (some p)).map fun b => b && isAtom S H p

/-- `Parser::getUnitVar(node)` (`src/base_parser.cpp:2961-3007`): `NULL_NODE` is `none` -/
def getUnitVar (H : Heap) (n : Nat) : Option Nat → Option (Option Nat)
  | none => some none
  | some p => (unitLoop H n [p] [] []).map fun
    | some [x] => some x
    | _ => none

/-- what the loop's result says about the variables below `r` -/
def Says (H : Heap) (r : Nat) : Option (List Nat) → Prop
  | none => ∃ x y, x ≠ y ∧ Var H x ∧ Var H y ∧ ReachN H r x ∧ ReachN H r y
  | some vs => vs.length ≤ 1 ∧ ∀ x, x ∈ vs ↔ Var H x ∧ ReachN H r x

theorem reachN_trans {H : Heap} {a b c : Nat} (h1 : ReachN H a b) (h2 : ReachN H b c) : ReachN H a c := by
  induction h2 with
  | refl => exact h1
  | step _ hk ih => exact .step ih hk

theorem unitLoop_spec {F : HashFn} {st : St} (inv : Inv F st) (r : Nat) :
    ∀ (m k : Nat) (stack v vars : List Nat), todo st.nodes v ≤ m → stack.length ≤ k → (∀ x ∈ stack, x ∈ st.nodes) →
      (∀ x ∈ stack, ReachN st.heap r x) → (∀ x ∈ v, ReachN st.heap r x) →
      (∀ x ∈ v, ∀ c ∈ kids st.heap x, c ∈ v ∨ c ∈ stack) → (r ∈ v ∨ r ∈ stack) →
      vars.length ≤ 1 → (∀ x, x ∈ vars ↔ Var st.heap x ∧ x ∈ v) →
      ∃ n b, (∀ n' ≥ n, unitLoop st.heap n' stack v vars = some b) ∧ Says st.heap r b := by
  have fin : ∀ (v vars : List Nat), (∀ x ∈ v, ReachN st.heap r x) → (∀ x ∈ v, ∀ c ∈ kids st.heap x, c ∈ v ∨ c ∈ ([] : List Nat)) →
      (r ∈ v ∨ r ∈ ([] : List Nat)) → vars.length ≤ 1 → (∀ x, x ∈ vars ↔ Var st.heap x ∧ x ∈ v) →
      Says st.heap r (some vars) := by
    intro v vars hv hcl hr hl hvs
    refine ⟨hl, fun x => ?_⟩
    rw [hvs]
    refine ⟨fun h => ⟨h.1, hv x h.2⟩, fun h => ⟨h.1, ?_⟩⟩
    induction h.2 with
    | refl => rcases hr with h | h; exact h; cases h
    | step h' hk ih =>
      rename_i q s
      have hq : q ∈ v := by
        clear ih hk h
        induction h' with
        | refl => rcases hr with h | h; exact h; cases h
        | step _ hk ih => rcases hcl _ ih _ hk with h | h; exact h; cases h
      rcases hcl _ hq _ hk with h | h; exact h; cases h
  intro m
  induction m using Nat.strongRecOn with
  | ind m ihm =>
    intro k
    induction k with
    | zero =>
      intro stack v vars _ hk _ hsr hv hcl hr hl hvs
      have : stack = [] := List.eq_nil_of_length_eq_zero (by omega)
      subst this
      exact ⟨0, some vars, fun n' _ => by unfold unitLoop; rfl, fin v vars hv hcl hr hl hvs⟩
    | succ k ihk =>
      intro stack v vars hm hk hs hsr hv hcl hr hl hvs
      cases stack with
      | nil => exact ⟨0, some vars, fun n' _ => by unfold unitLoop; rfl, fin v vars hv hcl hr hl hvs⟩
      | cons p stack =>
        have hp := hs p List.mem_cons_self
        have hpr := hsr p List.mem_cons_self
        have sh : ∀ c, c ∈ v ∨ c ∈ p :: stack → c ∈ v ++ [p] ∨ c ∈ stack := by
          intro c h
          rcases h with h | h
          · exact .inl (List.mem_append_left _ h)
          · rcases List.mem_cons.mp h with h | h
            · exact .inl (by simp [h])
            · exact .inr h
        by_cases hpv : p ∈ v
        · have sh' : ∀ c, c ∈ v ∨ c ∈ p :: stack → c ∈ v ∨ c ∈ stack := by
            intro c h
            rcases h with h | h
            · exact .inl h
            · rcases List.mem_cons.mp h with h | h
              · exact .inl (h ▸ hpv)
              · exact .inr h
          obtain ⟨n, b, h1, h2⟩ := ihk stack v vars hm (by simpa using hk)
            (fun x hx => hs x (List.mem_cons_of_mem _ hx)) (fun x hx => hsr x (List.mem_cons_of_mem _ hx)) hv
            (fun x hx c hc => sh' c (hcl x hx c hc)) (sh' r hr) hl hvs
          refine ⟨n + 1, b, fun n' hn' => ?_, h2⟩
          obtain ⟨j, rfl⟩ : ∃ j, n' = j + 1 := ⟨n' - 1, by omega⟩
          unfold unitLoop
          rw [if_pos hpv]
          exact h1 j (by omega)
        · have hmem : ∀ x, x ∈ ((kids st.heap p).filter fun c => decide (c ∉ v ++ [p])).reverse ++ stack ↔
              (x ∈ kids st.heap p ∧ x ∉ v ++ [p]) ∨ x ∈ stack := by
            intro x; rw [List.mem_append, List.mem_reverse, List.mem_filter, decide_eq_true_eq]
          have hvar : p ∉ vars := fun h => hpv ((hvs p).1 h).2
          have hins : ins vars p = vars ++ [p] := by unfold ins; rw [if_neg hvar]
          -- the rest of the walk, once the set of variables is known
          have go : ∀ vars' : List Nat, vars'.length ≤ 1 → (∀ x, x ∈ vars' ↔ Var st.heap x ∧ x ∈ v ++ [p]) →
              ∃ n b, (∀ n' ≥ n, unitLoop st.heap n' (((kids st.heap p).filter fun c => decide (c ∉ v ++ [p])).reverse ++ stack)
                (v ++ [p]) vars' = some b) ∧ Says st.heap r b := by
            intro vars' hl' hvs'
            refine ihm (todo st.nodes (v ++ [p])) (Nat.lt_of_lt_of_le (todo_lt hp hpv) hm) _ _ _ _ (Nat.le_refl _)
              (Nat.le_refl _) ?_ ?_ ?_ ?_ ?_ hl' hvs'
            · intro x hx
              rcases (hmem x).1 hx with hx | hx
              · exact kids_closed inv hp x hx.1
              · exact hs x (List.mem_cons_of_mem _ hx)
            · intro x hx
              rcases (hmem x).1 hx with hx | hx
              · exact .step hpr hx.1
              · exact hsr x (List.mem_cons_of_mem _ hx)
            · intro x hx
              rcases List.mem_append.mp hx with hx | hx
              · exact hv x hx
              · rw [List.mem_singleton.mp hx]; exact hpr
            · intro x hx c hc
              by_cases hcv : c ∈ v ++ [p]
              · exact .inl hcv
              · refine .inr ((hmem c).2 ?_)
                rcases List.mem_append.mp hx with hx | hx
                · rcases sh c (hcl x hx c hc) with h | h
                  · exact absurd h hcv
                  · exact .inr h
                · rw [List.mem_singleton.mp hx] at hc
                  exact .inl ⟨hc, hcv⟩
            · rcases sh r hr with h | h
              · exact .inl h
              · exact .inr ((hmem r).2 (.inr h))
          by_cases hvp : isVarK (kindAt st.heap p) = true
          · by_cases hmany : vars = []
            · subst hmany
              obtain ⟨n, b, h1, h2⟩ := go [p] (by simp) (fun x => by
                have := hvs x
                simp only [List.not_mem_nil, false_iff, not_and] at this
                rw [List.mem_singleton, List.mem_append, List.mem_singleton]
                constructor
                · intro h; exact ⟨by rw [h]; exact hvp, .inr h⟩
                · rintro ⟨h, h' | h'⟩
                  · exact absurd h' (this h)
                  · exact h')
              refine ⟨n + 1, b, fun n' hn' => ?_, h2⟩
              obtain ⟨j, rfl⟩ : ∃ j, n' = j + 1 := ⟨n' - 1, by omega⟩
              unfold unitLoop
              rw [if_neg hpv]
              simp only [hvp, if_true, hins, Bool.true_and]
              rw [if_neg (by simp)]
              exact h1 j (by omega)
            · obtain ⟨q, tl, rfl⟩ : ∃ q tl, vars = q :: tl := by
                cases vars with
                | nil => exact absurd rfl hmany
                | cons q tl => exact ⟨q, tl, rfl⟩
              refine ⟨1, none, fun n' hn' => ?_, ?_⟩
              · obtain ⟨j, rfl⟩ : ∃ j, n' = j + 1 := ⟨n' - 1, by omega⟩
                unfold unitLoop
                rw [if_neg hpv]
                simp only [hvp, if_true, hins, Bool.true_and]
                rw [if_pos (by simp)]
              · have hq := (hvs q).1 List.mem_cons_self
                refine ⟨p, q, fun h => hvar (h ▸ List.mem_cons_self), hvp, hq.1, hpr, hv q hq.2⟩
          · obtain ⟨n, b, h1, h2⟩ := go vars hl (fun x => by
              rw [hvs, List.mem_append, List.mem_singleton]
              constructor
              · intro h; exact ⟨h.1, .inl h.2⟩
              · rintro ⟨h, h' | h'⟩
                · exact ⟨h, h'⟩
                · rw [h'] at h; exact absurd h hvp)
            refine ⟨n + 1, b, fun n' hn' => ?_, h2⟩
            obtain ⟨j, rfl⟩ : ∃ j, n' = j + 1 := ⟨n' - 1, by omega⟩
            unfold unitLoop
            rw [if_neg hpv]
            simp only [if_neg hvp]
            rw [if_neg (by simp [hvp])]
            exact h1 j (by omega)

/-- the loop started on a node of the manager -/
theorem unitLoop_root {F : HashFn} {st : St} (hr : Reach F st) {p : Nat} (hp : p ∈ st.nodes) :
    ∃ n b, (∀ n' ≥ n, unitLoop st.heap n' [p] [] [] = some b) ∧ Says st.heap p b :=
  unitLoop_spec (reach_inv hr) p _ _ [p] [] [] (Nat.le_refl _) (Nat.le_refl _) (by simpa using hp)
    (by intro x hx; rw [List.mem_singleton.mp hx]; exact .refl _) (by simp) (by simp) (by simp) (by simp) (by simp)

/-- **C70.**  `isUnit` terminates, and answers yes exactly if no two different variables occur in the expression. -/
theorem isUnit_exact {F : HashFn} {st : St} (hr : Reach F st) (p : Nat) (hp : p ∈ st.nodes) :
    ∃ n b, (∀ n' ≥ n, isUnit st.heap n' (some p) = some b) ∧
      (b = true ↔ ∀ x y, Var st.heap x → Var st.heap y → ReachN st.heap p x → ReachN st.heap p y → x = y) := by
  obtain ⟨n, b, h1, h2⟩ := unitLoop_root hr hp
  cases b with
  | none =>
    refine ⟨n, false, fun n' hn' => by simp only [isUnit]; rw [h1 n' hn']; rfl, ?_⟩
    obtain ⟨x, y, hne, hx, hy, rx, ry⟩ := h2
    constructor
    · intro h; cases h
    · intro h; exact absurd (h x y hx hy rx ry) hne
  | some vs =>
    refine ⟨n, true, fun n' hn' => by simp only [isUnit]; rw [h1 n' hn']; simp [h2.1], ?_⟩
    simp only [true_iff]
    intro x y hx hy rx ry
    have mx := (h2.2 x).2 ⟨hx, rx⟩
    have my := (h2.2 y).2 ⟨hy, ry⟩
    match vs, h2.1, mx, my with
    | [a], _, mx, my => rw [List.mem_singleton.mp mx, List.mem_singleton.mp my]

/-- **C70.**  `getUnitVar` terminates, and returns a variable exactly if that variable and no other occurs in the expression;
otherwise it returns the null node. -/
theorem getUnitVar_exact {F : HashFn} {st : St} (hr : Reach F st) (p : Nat) (hp : p ∈ st.nodes) :
    ∃ n b, (∀ n' ≥ n, getUnitVar st.heap n' (some p) = some b) ∧
      ∀ x, b = some x ↔ Var st.heap x ∧ ReachN st.heap p x ∧ ∀ y, Var st.heap y → ReachN st.heap p y → y = x := by
  obtain ⟨n, b, h1, h2⟩ := unitLoop_root hr hp
  cases b with
  | none =>
    refine ⟨n, none, fun n' hn' => by simp only [getUnitVar]; rw [h1 n' hn']; rfl, fun x => ?_⟩
    obtain ⟨a, b, hne, ha, hb, ra, rb⟩ := h2
    constructor
    · intro h; cases h
    · rintro ⟨_, _, h⟩; exact absurd ((h a ha ra).trans (h b hb rb).symm) hne
  | some vs =>
    match vs, h2 with
    | [], h2 =>
      refine ⟨n, none, fun n' hn' => by simp only [getUnitVar]; rw [h1 n' hn']; rfl, fun x => ?_⟩
      constructor
      · intro h; cases h
      · rintro ⟨hx, rx, _⟩; exact absurd ((h2.2 x).2 ⟨hx, rx⟩) (by simp)
    | [a], h2 =>
      refine ⟨n, some a, fun n' hn' => by simp only [getUnitVar]; rw [h1 n' hn']; rfl, fun x => ?_⟩
      have ha := (h2.2 a).1 (by simp)
      constructor
      · intro h
        cases h
        exact ⟨ha.1, ha.2, fun y hy ry => by simpa using (h2.2 y).2 ⟨hy, ry⟩⟩
      · rintro ⟨_, _, h⟩; rw [h a ha.1 ha.2]
    | _ :: _ :: _, h2 => exact absurd h2.1 (by simp)

/-- **C70.**  `isUnitAtom` holds exactly of the atoms in which no two different variables occur; of the null pointer `isUnit` is
true, `isUnitAtom` false and `getUnitVar` null. -/
theorem isUnitAtom_exact {F : HashFn} {st : St} (hr : Reach F st) (S : SortTest) (p : Nat) (hp : p ∈ st.nodes) :
    (∃ n b, (∀ n' ≥ n, isUnitAtom S st.heap n' (some p) = some b) ∧
      (b = true ↔ isAtom S st.heap p = true ∧
        ∀ x y, Var st.heap x → Var st.heap y → ReachN st.heap p x → ReachN st.heap p y → x = y)) ∧
    ∀ n, isUnit st.heap n none = some true ∧ isUnitAtom S st.heap n none = some false ∧ getUnitVar st.heap n none = some none := by
  obtain ⟨n, b, h1, h2⟩ := isUnit_exact hr p hp
  refine ⟨⟨n, b && isAtom S st.heap p, fun n' hn' => by simp only [isUnitAtom]; rw [h1 n' hn']; rfl, ?_⟩,
    fun n => ⟨rfl, rfl, rfl⟩⟩
  rw [Bool.and_eq_true, h2]
  exact And.comm

/-- **C70.**  The value of an expression whose unit variable is `x` depends on `x` alone, for every interpretation of the
operators; a unit expression without a unit variable has the same value under all assignments. -/
theorem unit_determined {V : Type} {F : HashFn} {st : St} (hr : Reach F st) (p : Nat) (hp : p ∈ st.nodes) (n : Nat)
    (I : K → List Char → Nat → List V → V) (ρ ρ' : Nat → V) :
    (∀ x, (∀ n' ≥ n, getUnitVar st.heap n' (some p) = some (some x)) → ρ x = ρ' x →
      value st.heap I ρ (p + 1) p = value st.heap I ρ' (p + 1) p) ∧
    ((∀ n' ≥ n, isUnit st.heap n' (some p) = some true ∧ getUnitVar st.heap n' (some p) = some none) →
      value st.heap I ρ (p + 1) p = value st.heap I ρ' (p + 1) p) := by
  obtain ⟨m, b, h1, h2⟩ := getUnitVar_exact hr p hp
  constructor
  · intro x hx he
    have hb : b = some x := by
      have e1 := h1 (max n m) (Nat.le_max_right _ _)
      rw [hx (max n m) (Nat.le_max_left _ _)] at e1
      exact (Option.some.inj e1).symm
    obtain ⟨_, _, hu⟩ := (h2 x).1 hb
    refine value_congr (reach_inv hr).wf I ρ ρ' _ p (by omega) fun y hy hpy => ?_
    rw [hu y hy (path_reach hpy)]; exact he
  · intro hx
    have hb : b = none := by
      have e1 := h1 (max n m) (Nat.le_max_right _ _)
      rw [(hx (max n m) (Nat.le_max_left _ _)).2] at e1
      exact (Option.some.inj e1).symm
    obtain ⟨m2, b2, h3, h4⟩ := isUnit_exact hr p hp
    have hb2 : b2 = true := by
      have e1 := h3 (max n m2) (Nat.le_max_right _ _)
      rw [(hx (max n m2) (Nat.le_max_left _ _)).1] at e1
      exact (Option.some.inj e1).symm
    have hun := h4.1 hb2
    refine value_congr (reach_inv hr).wf I ρ ρ' _ p (by omega) fun y hy hpy => ?_
    have := (h2 y).2 ⟨hy, path_reach hpy, fun z hz rz => hun z y hz hy rz (path_reach hpy)⟩
    rw [hb] at this; cases this

/-- The loops run: `(and (< x y) (< x y))` has two variables, `(< x x)` one and is a unit atom. -/
example :
    isUnit exHeap 20 (some 3) = some false ∧ getUnitVar exHeap 20 (some 3) = some none ∧
    let H : Heap := [⟨INT_S, .VAR, cs!"x", [], none, 0⟩, ⟨BOOL_S, .LT, cs!"<", [0, 0], none, 0⟩]
    isUnit H 9 (some 1) = some true ∧ getUnitVar H 9 (some 1) = some (some 0) ∧ isUnitAtom exSorts H 9 (some 1) = some true := by
  decide +kernel

/-- The hypotheses are met: a conjunction built by the manager, in any state it can be in, of a variable with itself is a unit
expression with that variable. -/
example (F : HashFn) (s0 : St) (r0 : Reach F s0) :
    let x := create F s0 ⟨BOOL_S, .VAR, cs!"x", []⟩
    let a := create F x.2 ⟨BOOL_S, .AND, cs!"and", [x.1, x.1]⟩
    a.1 ∈ a.2.nodes ∧ Reach F a.2 := by
  intro x a
  have t1 := create_step (reach_inv r0) ⟨BOOL_S, .VAR, cs!"x", []⟩ (by simp)
  have r1 : Reach F x.2 := .step _ r0 (by simp)
  have hc : ∀ c ∈ [x.1, x.1], c ∈ x.2.nodes := by
    intro c hc; simp only [List.mem_cons, List.not_mem_nil, or_false, or_self] at hc; rw [hc]; exact t1.2.2.1
  have t2 := create_step (reach_inv r1) ⟨BOOL_S, .AND, cs!"and", [x.1, x.1]⟩ hc
  exact ⟨t2.2.2.1, .step _ r1 hc⟩

end SMT.Walk
