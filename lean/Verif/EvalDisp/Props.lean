import Verif.Basic
import Verif.LetExp.Props
import Verif.EvalDisp.Table

/-!
# C66: which operators `evaluate` evaluates, and how

The table `rule` covers every kind.  The evaluator below follows it; the groups with a rule of their own (connectives, `=`, `ite`, sums,
`select`…) are parameters here — they are modelled in `Verif.Eval` (C35) and `Verif.Arr` (C26).
-/

set_option linter.unusedVariables false
set_option linter.unusedSimpArgs false

namespace SMT.EvalDisp
open SMT SMT.Kinds SMT.LetExp

/-- what evaluation takes from outside -/
structure Par where
  /-- `model->get` (`src/eval_parser.cpp:65-72`): `none` if the model has no value for it -/
  model : T → Option T
  /-- `mkOper(sort, kind, operands)` (`src/op_parser.cpp:166-224`) -/
  oper : Mk
  /-- the groups with their own rule, from the node and what its children evaluate to (`src/eval_parser.cpp:722-1257`, `1701-1765`,
  `1912-1915`) -/
  own : T → List (T × Bool) → T × Bool

mutual
/-- `evaluate` (`src/eval_parser.cpp:49-571`) for a model that is not empty -/
def evalG (P : Par) : T → Res (T × Bool)
  | .node k n s cs => match rule k with
    | .unset => .ok (errT, false)
    | .const => .ok (.node k n s cs, false)
    | .self => .ok (.node k n s cs, false)
    | .var => match P.model (.node k n s cs) with
      | some v => .ok (v, true)
      | none => .ok (.node k n s cs, false)
    | .fix a op => (evalN P a cs).bind fun rs =>
      if rs.any fun r => r.2 then .ok (P.oper s op (rs.map Prod.fst), true) else .ok (.node k n s cs, false)
    | _ => (evalN P cs.length cs).bind fun rs => .ok (P.own (.node k n s cs) rs)
/-- the first `a` children (`src/eval_parser.cpp:640, 690-691, 711-713`: `getChildren()[i]` past the end is undefined behaviour) -/
def evalN (P : Par) : Nat → List T → Res (List (T × Bool))
  | 0, _ => .ok []
  | _ + 1, [] => .ub
  | a + 1, c :: cs => (evalG P c).bind fun r => (evalN P a cs).bind fun rs => .ok (r :: rs)
end

/-- `evaluate` for any model: under an empty one the expression is its own value (`src/eval_parser.cpp:50-53`) -/
def evaluateG (P : Par) (empty : Bool) (t : T) : Res (T × Bool) := if empty then .ok (t, false) else evalG P t

/-! ## The table -/

/-- kinds that evaluation leaves alone: the result is the expression, whatever the model -/
def notEvaluated : List K := [
  .NULL, .CONST_ARRAY, .MAX, .MIN, .UF_APPLY, .FUNC_DEC, .FUNC_DEF, .FUNC_PARAM, .FUNC_APPLY, .FUNC_REC, .FUNC_REC_APPLY,
  .LET_CHAIN, .LET_BIND_VAR_LIST, .FORALL, .EXISTS,
  .COT, .SEC, .CSC, .ACOT, .ASEC, .ACSC, .SECH, .CSCH, .COTH,
  .BV_UMOD, .BV_EXTRACT, .BV_REPEAT, .BV_ZERO_EXT, .BV_SIGN_EXT, .BV_ROTATE_LEFT, .BV_ROTATE_RIGHT,
  .BV_NEGO, .BV_UADDO, .BV_SADDO, .BV_UMULO, .BV_SMULO, .BV_UDIVO, .BV_SDIVO, .BV_UREMO, .BV_SREMO, .BV_UMODO, .BV_SMODO,
  .FP_ADD, .FP_SUB, .FP_MUL, .FP_DIV, .FP_ABS, .FP_NEG, .FP_REM, .FP_FMA, .FP_SQRT, .FP_ROUND_TO_INTEGRAL, .FP_MIN, .FP_MAX,
  .FP_LE, .FP_LT, .FP_GE, .FP_GT, .FP_EQ, .FP_TO_UBV, .FP_TO_SBV, .FP_TO_REAL, .FP_TO_FP, .FP_TO_FP_UNSIGNED,
  .FP_IS_NORMAL, .FP_IS_SUBNORMAL, .FP_IS_ZERO, .FP_IS_INF, .FP_IS_NAN, .FP_IS_NEG, .FP_IS_POS,
  .STR_REPLACE_REG, .STR_REPLACE_REG_ALL, .STR_INDEXOF_REG, .STR_SPLIT, .STR_SPLIT_AT, .STR_SPLIT_REST, .STR_NUM_SPLITS,
  .STR_SPLIT_AT_RE, .STR_SPLIT_REST_RE, .STR_NUM_SPLITS_RE,
  .REG_NONE, .REG_ALL, .REG_ALLCHAR, .REG_CONCAT, .REG_UNION, .REG_INTER, .REG_DIFF, .REG_STAR, .REG_PLUS, .REG_OPT, .REG_RANGE,
  .REG_REPEAT, .REG_COMPLEMENT, .REG_LOOP]

/-- a test that every kind passes -/
theorem forall_K (p : K → Bool) (h : (List.range 241).all (fun i => p (K.ofNat i)) = true) (k : K) : p k = true := by
  rw [List.all_eq_true] at h
  have hk : k.ctorIdx < 241 := by cases k <;> decide
  have := h k.ctorIdx (List.mem_range.mpr hk)
  rwa [K.ofNat_ctorIdx] at this

/-- **C66.**  Exactly these kinds are not evaluated. -/
theorem self_iff (k : K) : rule k = .self ↔ k ∈ notEvaluated := by
  have := forall_K (fun k => decide (rule k = .self ↔ k ∈ notEvaluated)) (by decide +kernel) k
  simpa only [decide_eq_true_eq] using this

/-- **C66.**  A node of such a kind is its own value under every model, also if all variables below it have one. -/
theorem self_violated (P : Par) (e : Bool) (t : T) (h : t.kind ∈ notEvaluated) : evaluateG P e t = .ok (t, false) := by
  cases t with
  | node k n s cs =>
    rw [evaluateG]
    split
    · rfl
    · rw [evalG, (self_iff k).mpr h]

/-- **C66.**  Of all operators evaluated from a fixed number of operands, all but the two conversions between bit-vectors and
integers are rebuilt as the operator they are, and all but `divisible` and `=>` from as many operands as the parser's arity table
gives them. -/
theorem fix_facts (k : K) (a : Nat) (op : K) (h : rule k = .fix a op) :
    (op ≠ k ↔ k = .BV_TO_INT ∨ k = .INT_TO_BV) ∧
    (getArity k ≠ a ↔ k = .BV_TO_INT ∨ k = .INT_TO_BV ∨ k = .IS_DIVISIBLE ∨ k = .IMPLIES) ∧ (0 < a ∧ a ≤ 3) := by
  have := forall_K (fun k => match rule k with
    | .fix a op => decide ((op ≠ k ↔ k = .BV_TO_INT ∨ k = .INT_TO_BV) ∧
      (getArity k ≠ a ↔ k = .BV_TO_INT ∨ k = .INT_TO_BV ∨ k = .IS_DIVISIBLE ∨ k = .IMPLIES) ∧ (0 < a ∧ a ≤ 3))
    | _ => true) (by decide +kernel) k
  rw [h] at this
  simpa only [decide_eq_true_eq] using this

/-- The kinds of variables. -/
theorem var_iff (k : K) : rule k = .var ↔ k = .VAR ∨ k = .TEMP_VAR ∨ k = .PLACEHOLDER_VAR ∨ k = .LET_BIND_VAR ∨ k = .QUANT_VAR := by
  have := forall_K (fun k => decide (rule k = .var ↔ k = .VAR ∨ k = .TEMP_VAR ∨ k = .PLACEHOLDER_VAR ∨ k = .LET_BIND_VAR ∨
    k = .QUANT_VAR)) (by decide +kernel) k
  simpa only [decide_eq_true_eq] using this

/-- The groups with a rule of their own. -/
def owns : List K := [.AND, .OR, .XOR, .EQ, .EQ_BOOL, .EQ_OTHER, .DISTINCT, .DISTINCT_BOOL, .DISTINCT_OTHER, .ITE, .DIV_INT, .SELECT,
  .STORE, .LET, .ADD, .MUL, .IAND, .SUB, .DIV_REAL, .BV_AND, .BV_OR, .BV_XOR, .BV_NAND, .BV_NOR, .BV_XNOR, .BV_ADD, .BV_MUL, .BV_SUB,
  .BV_UDIV, .BV_SDIV, .BV_CONCAT, .STR_CONCAT]

theorem owns_iff (k : K) : k ∈ owns ↔ rule k = .special ∨ (∃ op, rule k = .nary op) ∨ (∃ op, rule k = .first op) ∨
    ∃ op, rule k = .concat op := by
  have := forall_K (fun k => match rule k with
    | .special => decide (k ∈ owns)
    | .nary _ => decide (k ∈ owns)
    | .first _ => decide (k ∈ owns)
    | .concat _ => decide (k ∈ owns)
    | _ => decide (k ∉ owns)) (by decide +kernel) k
  cases hr : rule k <;> rw [hr] at this <;> simp only [decide_eq_true_eq] at this <;> simp [this]

/-- **C66.**  The n-ary groups rebuild the operator they evaluate. -/
theorem nary_facts (k op : K) (h : rule k = .nary op ∨ rule k = .first op ∨ rule k = .concat op) : op = k := by
  have := forall_K (fun k => match rule k with
    | .nary op => decide (op = k)
    | .first op => decide (op = k)
    | .concat op => decide (op = k)
    | _ => true) (by decide +kernel) k
  rcases h with h | h | h <;> rw [h] at this <;> simpa only [decide_eq_true_eq] using this

/-! ## Values -/

/-- the term has at every node as many operands as the parser's arity table says, none of the four operators that `fix_facts` excepts
unless `=>` has two operands, and no node without value -/
def Regular (t : T) : Prop := ∀ u, Sub u t → rule u.kind ≠ .unset ∧ (∀ a op, rule u.kind = .fix a op →
  u.cs.length = (if u.kind = .IMPLIES then 2 else (getArity u.kind).toNat) ∧
  u.kind ≠ .BV_TO_INT ∧ u.kind ≠ .INT_TO_BV ∧ u.kind ≠ .IS_DIVISIBLE)

theorem regular_fix {t : T} (h : Regular t) {a : Nat} {op : K} (hr : rule t.kind = .fix a op) : op = t.kind ∧ t.cs.length = a := by
  obtain ⟨f1, f2, f3, _⟩ := fix_facts _ _ _ hr
  obtain ⟨h1, h2, h3, h4⟩ := (h t (sub_self t)).2 a op hr
  constructor
  · apply Decidable.byContradiction
    intro q
    rcases f1.mp q with q | q
    · exact h2 q
    · exact h3 q
  · rw [h1]
    split
    · rename_i q
      rw [q, show rule .IMPLIES = .fix 2 .IMPLIES from rfl, Rule.fix.injEq] at hr
      exact hr.1
    · rename_i q
      have : getArity t.kind = a := by
        apply Decidable.byContradiction
        intro e
        rcases f2.mp e with e | e | e | e
        · exact h2 e
        · exact h3 e
        · exact h4 e
        · exact q e
      rw [this]
      rfl

theorem regular_child {t c : T} (h : Regular t) (hc : c ∈ t.cs) : Regular c :=
  fun u hu => h u ((sub_iff u t).mpr (.inr ⟨c, hc, hu⟩))

/-- **C66.**  Under every interpretation that agrees with the model, in which rebuilding an operator means applying it and in which
the groups of C35 and C26 keep values, the result of `evaluate` has the value of the expression; it never reads an operand that is
not there; a result reported as unchanged is the expression.  (`e`: whether the model is empty; values may be functions of an
environment for the variables that the model leaves out.) -/
theorem evaluate_value {V : Type} (I : K → String → Nat → List V → V) (P : Par) (e : Bool) (t : T) (ht : Regular t)
    (hmodel : ∀ x v, P.model x = some v → ev I v = ev I x)
    (hoper : ∀ k a n s us, rule k = .fix a k → us.length = a → ev I (P.oper s k us) = I k n s (us.map (ev I)))
    (hown : ∀ u rs, u.kind ∈ owns → rs.length = u.cs.length → rs.map (fun r => ev I r.1) = u.cs.map (ev I) →
      (∀ p ∈ u.cs.zip rs, p.2.2 = false → p.2.1 = p.1) →
      ev I (P.own u rs).1 = ev I u ∧ ((P.own u rs).2 = false → (P.own u rs).1 = u)) :
    ∃ r c, evaluateG P e t = .ok (r, c) ∧ ev I r = ev I t ∧ (c = false → r = t) := by
  rw [evaluateG]
  split
  · exact ⟨t, false, rfl, rfl, fun _ => rfl⟩
  rename_i hne
  clear hne
  induction hz : sizeOf t using Nat.strongRecOn generalizing t with
  | _ z ih =>
    have ihc : ∀ c ∈ t.cs, ∃ r b, evalG P c = .ok (r, b) ∧ ev I r = ev I c ∧ (b = false → r = c) := fun c hc =>
      ih _ (by have := cs_lt hc; omega) c (regular_child ht hc) rfl
    have list : ∀ cs : List T, (∀ c ∈ cs, c ∈ t.cs) → ∃ rs, evalN P cs.length cs = .ok rs ∧ rs.length = cs.length ∧
        rs.map (fun r => ev I r.1) = cs.map (ev I) ∧ (∀ p ∈ cs.zip rs, p.2.2 = false → p.2.1 = p.1) := by
      intro cs
      induction cs with
      | nil => intro _; exact ⟨[], by rw [List.length_nil, evalN], rfl, rfl, by simp⟩
      | cons c cs ihl =>
        intro hs
        obtain ⟨r, b, h1, h2, h3⟩ := ihc c (hs c (List.mem_cons_self ..))
        obtain ⟨rs, g1, g2, g3, g4⟩ := ihl (fun d hd => hs d (List.mem_cons_of_mem _ hd))
        refine ⟨(r, b) :: rs, ?_, by simp [g2], by simp [h2, g3], ?_⟩
        · rw [List.length_cons, evalN, h1, g1]; rfl
        · intro p hp
          rw [List.zip_cons_cons, List.mem_cons] at hp
          rcases hp with rfl | hp
          · exact h3
          · exact g4 p hp
    obtain ⟨rs, l1, l2, l3, l4⟩ := list t.cs (fun _ h => h)
    have hu := (ht t (sub_self t)).1
    have own : rule t.kind ≠ .unset → t.kind ∈ owns → ∃ r c, (evalN P t.cs.length t.cs).bind (fun rs => Res.ok (P.own t rs)) = .ok (r, c) ∧
        ev I r = ev I t ∧ (c = false → r = t) := by
      intro _ ho
      rw [l1]
      exact ⟨_, _, rfl, hown t rs ho l2 l3 l4⟩
    have hfix : ∀ a op, rule t.kind = .fix a op → _ := fun a op h => regular_fix ht h
    cases t with
    | node k n s cs =>
      simp only [T.kind, T.cs] at hu own hfix l1 l2 l3 l4
      rw [evalG]
      cases hr : rule k with
      | unset => exact absurd hr hu
      | const => exact ⟨_, _, rfl, rfl, fun _ => rfl⟩
      | self => exact ⟨_, _, rfl, rfl, fun _ => rfl⟩
      | var =>
        simp only
        cases hm : P.model (.node k n s cs) with
        | none => exact ⟨_, _, rfl, rfl, fun _ => rfl⟩
        | some v => exact ⟨_, _, rfl, hmodel _ _ hm, fun q => by cases q⟩
      | fix a op =>
        obtain ⟨f1, f2⟩ := hfix a op hr
        subst f1
        simp only
        rw [← f2, l1]
        simp only [Res.bind]
        split
        · refine ⟨_, _, rfl, ?_, fun q => by cases q⟩
          rw [hoper op a n s _ hr (by rw [List.length_map, l2, f2]), ev, evL_eq, List.map_map, ← l3]
          rfl
        · exact ⟨_, _, rfl, rfl, fun _ => rfl⟩
      | nary op => exact own hu ((owns_iff k).mpr (.inr (.inl ⟨op, hr⟩)))
      | first op => exact own hu ((owns_iff k).mpr (.inr (.inr (.inl ⟨op, hr⟩))))
      | concat op => exact own hu ((owns_iff k).mpr (.inr (.inr (.inr ⟨op, hr⟩))))
      | special => exact own hu ((owns_iff k).mpr (.inl hr))

/-- **C66.**  If the model gives every variable of the expression a constant, every operator of the expression is one that is
evaluated and has an operand that is not a constant (constructors fold the others away), and building an operator of constants gives a
constant, then the value is a constant. -/
theorem evaluate_constant (P : Par) (t : T) (ht : Regular t)
    (hself : ∀ u, Sub u t → u.kind ∉ notEvaluated)
    (hfold : ∀ u, Sub u t → ((∃ a op, rule u.kind = .fix a op) ∨ u.kind ∈ owns) → ∃ c ∈ u.cs, rule c.kind ≠ .const)
    (hmodel : ∀ u, Sub u t → rule u.kind = .var → ∃ v, P.model u = some v ∧ rule v.kind = .const)
    (hoper : ∀ k a s us, rule k = .fix a k → us.length = a → (∀ u ∈ us, rule u.kind = .const) → rule (P.oper s k us).kind = .const)
    (hown : ∀ u rs, u.kind ∈ owns → rs.length = u.cs.length → (∀ r ∈ rs, rule r.1.kind = .const) → (∃ r ∈ rs, r.2 = true) →
      rule (P.own u rs).1.kind = .const ∧ (P.own u rs).2 = true) :
    ∃ r c, evaluateG P false t = .ok (r, c) ∧ rule r.kind = .const := by
  rw [evaluateG, if_neg (by simp)]
  suffices h : ∃ r c, evalG P t = .ok (r, c) ∧ rule r.kind = .const ∧ (c = false → rule t.kind = .const) by
    obtain ⟨r, c, h1, h2, _⟩ := h
    exact ⟨r, c, h1, h2⟩
  induction hz : sizeOf t using Nat.strongRecOn generalizing t with
  | _ z ih =>
    have ihc : ∀ c ∈ t.cs, ∃ r b, evalG P c = .ok (r, b) ∧ rule r.kind = .const ∧ (b = false → rule c.kind = .const) := by
      intro c hc
      have up : ∀ u, Sub u c → Sub u t := fun u hu => (sub_iff u t).mpr (.inr ⟨c, hc, hu⟩)
      exact ih _ (by have := cs_lt hc; omega) c (regular_child ht hc) (fun u hu => hself u (up u hu)) (fun u hu => hfold u (up u hu))
        (fun u hu => hmodel u (up u hu)) rfl
    have list : ∀ cs : List T, (∀ c ∈ cs, c ∈ t.cs) → ∃ rs, evalN P cs.length cs = .ok rs ∧ rs.length = cs.length ∧
        (∀ r ∈ rs, rule r.1.kind = .const) ∧ ((∃ c ∈ cs, rule c.kind ≠ .const) → ∃ r ∈ rs, r.2 = true) := by
      intro cs
      induction cs with
      | nil => intro _; exact ⟨[], by rw [List.length_nil, evalN], rfl, by simp, by simp⟩
      | cons c cs ihl =>
        intro hs
        obtain ⟨r, b, h1, h2, h3⟩ := ihc c (hs c (List.mem_cons_self ..))
        obtain ⟨rs, g1, g2, g3, g4⟩ := ihl (fun d hd => hs d (List.mem_cons_of_mem _ hd))
        refine ⟨(r, b) :: rs, ?_, by simp [g2], ?_, ?_⟩
        · rw [List.length_cons, evalN, h1, g1]; rfl
        · intro p hp
          rw [List.mem_cons] at hp
          rcases hp with rfl | hp
          · exact h2
          · exact g3 p hp
        · rintro ⟨d, hd, hn⟩
          rw [List.mem_cons] at hd
          rcases hd with rfl | hd
          · refine ⟨(r, b), List.mem_cons_self .., ?_⟩
            cases b with
            | true => rfl
            | false => exact absurd (h3 rfl) hn
          · obtain ⟨q, hq, hb⟩ := g4 ⟨d, hd, hn⟩
            exact ⟨q, List.mem_cons_of_mem _ hq, hb⟩
    obtain ⟨rs, l1, l2, l3, l4⟩ := list t.cs (fun _ h => h)
    have hu := (ht t (sub_self t)).1
    have hs := hself t (sub_self t)
    have hf := hfold t (sub_self t)
    have hm := hmodel t (sub_self t)
    have own : t.kind ∈ owns → ∃ r c, (evalN P t.cs.length t.cs).bind (fun rs => Res.ok (P.own t rs)) = .ok (r, c) ∧
        rule r.kind = .const ∧ (c = false → rule t.kind = .const) := by
      intro ho
      rw [l1]
      obtain ⟨o1, o2⟩ := hown t rs ho l2 l3 (l4 (hf (.inr ho)))
      exact ⟨_, _, rfl, o1, fun q => by rw [o2] at q; cases q⟩
    have hfix : ∀ a op, rule t.kind = .fix a op → _ := fun a op h => regular_fix ht h
    cases t with
    | node k n s cs =>
      simp only [T.kind, T.cs] at hu hs hf hm own hfix l1 l2 l3 l4
      rw [evalG]
      cases hr : rule k with
      | unset => exact absurd hr hu
      | const => exact ⟨_, _, rfl, hr, fun _ => hr⟩
      | self => exact absurd ((self_iff k).mp hr) hs
      | var =>
        obtain ⟨v, hv, hc⟩ := hm hr
        simp only [hv]
        exact ⟨_, _, rfl, hc, fun q => by cases q⟩
      | fix a op =>
        obtain ⟨f1, f2⟩ := hfix a op hr
        subst f1
        simp only
        rw [← f2, l1]
        simp only [Res.bind]
        have hany : (rs.any fun r => r.2) = true := by
          rw [List.any_eq_true]
          exact l4 (hf (.inl ⟨a, op, hr⟩))
        rw [if_pos hany]
        refine ⟨_, _, rfl, hoper op a s _ hr (by rw [List.length_map, l2, f2]) ?_, fun q => by cases q⟩
        intro u hu
        rw [List.mem_map] at hu
        obtain ⟨r, hr', rfl⟩ := hu
        exact l3 r hr'
      | nary op => exact own ((owns_iff k).mpr (.inr (.inl ⟨op, hr⟩)))
      | first op => exact own ((owns_iff k).mpr (.inr (.inr (.inl ⟨op, hr⟩))))
      | concat op => exact own ((owns_iff k).mpr (.inr (.inr (.inr ⟨op, hr⟩))))
      | special => exact own ((owns_iff k).mpr (.inl hr))

/-! ## Where it fails -/

/-- **C66, where it fails.**  `((_ int2bv n) x)`: the width is dropped and the operator becomes the conversion from bit-vectors. -/
theorem int2bv_violated (P : Par) (nm : String) (s : Nat) (x n : T) (r : T) (h : evalG P x = .ok (r, true)) :
    evaluateG P false (.node .INT_TO_BV nm s [x, n]) = .ok (P.oper s .BV_TO_INT [r], true) := by
  rw [evaluateG, if_neg (by simp), evalG, show rule .INT_TO_BV = .fix 1 .BV_TO_INT from rfl]
  simp only [evalN, h, Res.bind, List.any_cons, Bool.true_or, if_true, List.map_cons, List.map_nil]

/-- **C66, where it fails.**  The conversion of a bit-vector to an integer, which has one operand, is evaluated with two: undefined
behaviour under every model that is not empty, if evaluating its operand returns. -/
theorem bv2int_violated (P : Par) (nm : String) (s : Nat) (x : T) (r : T × Bool) (h : evalG P x = .ok r) :
    evaluateG P false (.node .BV_TO_INT nm s [x]) = .ub := by
  rw [evaluateG, if_neg (by simp), evalG, show rule .BV_TO_INT = .fix 2 .NAT_TO_BV from rfl]
  simp only [evalN, h, Res.bind]

/-- **C66, where it fails.**  `divisible` loses its second operand. -/
theorem divisible_violated (P : Par) (nm : String) (s : Nat) (x n : T) (r : T) (h : evalG P x = .ok (r, true)) :
    evaluateG P false (.node .IS_DIVISIBLE nm s [x, n]) = .ok (P.oper s .IS_DIVISIBLE [r], true) := by
  rw [evaluateG, if_neg (by simp), evalG, show rule .IS_DIVISIBLE = .fix 1 .IS_DIVISIBLE from rfl]
  simp only [evalN, h, Res.bind, List.any_cons, Bool.true_or, if_true, List.map_cons, List.map_nil]

/-! ## Examples -/

/-- a model with `x := true` -/
def exP : Par where
  model := fun t => if t = var "x" 0 then some (.node .CONST_TRUE "true" 0 []) else none
  oper := fun s k us => if k = .NOT ∧ us = [.node .CONST_TRUE "true" 0 []] then .node .CONST_FALSE "false" 0 [] else mkInternal s k us
  own := fun u rs => (u, false)

example : evaluateG exP false (.node .NOT "not" 0 [var "x" 0]) = .ok (.node .CONST_FALSE "false" 0 [], true) := by
  simp only [evaluateG, Bool.false_eq_true, if_false, evalG, show rule .NOT = .fix 1 .NOT from rfl, show rule .VAR = .var from rfl, evalN, var, exP, if_true, Res.bind, List.any_cons, Bool.true_or,
    List.map_cons, List.map_nil, and_self]

example : Regular (.node .NOT "not" 0 [var "x" 0]) := by
  intro u hu
  simp only [LetExp.Sub, SubL, or_false, var] at hu
  rcases hu with rfl | rfl
  · refine ⟨by decide, fun a op _ => by decide⟩
  · refine ⟨by decide, fun a op h => by cases h⟩

/-- under a model with `x := true`, `(let ((y x)) y)` is not evaluated -/
example : evaluateG exP false (chain "y" 0 (var "x" 0) id) = .ok (chain "y" 0 (var "x" 0) id, false) :=
  self_violated _ _ _ (by decide)

end SMT.EvalDisp
