import Verif.Parse.Round

/-! # Printing and reading back: where it fails, and a worked case (C41) -/

namespace SMT.Parse
open SMT SMT.Text SMT.Lex SMT.Kinds SMT.Sorts SMT.Print

set_option linter.unusedSimpArgs false
set_option linter.unusedVariables false

/-- what comes of printing a node and reading the text back -/
def RoundTo (I : Ctors) (decl : Decl) (n : N) (r : Res N) : Prop :=
  ∀ (pres : Bool) (p : P), GoodDecl decl → Keys decl p.keys → p.ph = false →
    ∃ (s : List Char) (t : T Srt) (q : P) (f : Nat), (∀ m, f ≤ m → dump m n = .ok s) ∧ (∀ m, f ≤ m → mkExpr pres m p s = .ok (t, q)) ∧
      build I [] (t.map sortOf) = r

theorem roundTo_of {I : Ctors} {decl : Decl} {n : N} {r : Res N} (hw : WF n) {x : Sexp} {t : T D} (h1 : flat x = flat (sexpr n))
    (h2 : Toks x) (h3 : Reads decl false x t) (h4 : t.names = []) (h5 : build I [] (t.map some) = r) : RoundTo I decl n r := by
  intro pres p hg hk hp
  obtain ⟨k, hd⟩ := print_exact_partial hw
  have hr : SepX false x [] := by
    cases x with
    | list _ => trivial
    | atom a =>
      show Sep false a []
      unfold Sep
      split
      · trivial
      · simp
      · rfl
  obtain ⟨t', q, f, e1, e2⟩ := mkExpr_reads_partial pres (g := []) (r := []) (p := p) hg hk (by rw [hp]; exact h3) (by rw [h4]; exact List.nodup_nil)
    (by rw [h4]; intro n hn; cases hn) .nil (lay_flat false h2) hr
  refine ⟨flat (sexpr n), t', q, max k f, fun m hm => hd m (by omega), fun m hm => ?_, ?_⟩
  · have := e2 m (by omega)
    simpa [h1] using this
  · rw [e1]
    exact h5

/-- **C41 violated: `to_fp_unsigned`.** The printed conversion is read, but the constructor is called with the operands in another order: the
rounding mode and the operand come where the two sizes belong. -/
theorem to_fp_unsigned_violated {I : Ctors} (hI : Lawful I) {decl : Decl} {name : List Char} {s : Srt} {a b c d : N}
    (hw : ∀ x ∈ [a, b, c, d], WF x) (hm : ∀ x ∈ [a, b, c, d], Made I decl [] x) :
    RoundTo I decl (.mk .FP_TO_FP_UNSIGNED name s [a, b, c, d]) (I.op .FP_TO_FP_UNSIGNED [c, d, a, b]) := by
  obtain ⟨xs, ts, k1, k2, k3, k4, k5⟩ := viewL (I := I) (cs := [a, b]) fun x hx => view_made hI (hm x (by simp at hx ⊢; rcases hx with rfl | rfl <;> simp))
  obtain ⟨ys, ss, j1, j2, j3, j4, j5⟩ := viewL (I := I) (cs := [c, d]) fun x hx => view_made hI (hm x (by simp at hx ⊢; rcases hx with rfl | rfl <;> simp))
  refine roundTo_of (x := .list (.list (.atom cs!"_" :: .atom cs!"to_fp_unsigned" :: xs) :: ys)) (t := .mk (.app cs!"to_fp_unsigned" ts.length) (ts ++ ss))
    (.mk rfl trivial (by simpa [operands] using hw)) ?_ ⟨⟨plainB_tok (by decide +kernel), plainB_tok (by decide +kernel), k2⟩, j2⟩ (.indexed k3 j3) ?_ ?_
  · exact flat_congr (by simp only [List.map_cons, j1, List.cons.injEq]; exact ⟨flat_congr (by simp only [List.map_cons, k1]; rfl), rfl⟩)
  · simp only [T.names, Tag.names, namesL_append, k4, j4]; rfl
  · have hl : ts.length = [a, b].length := by rw [← mapL_length some, buildL_length k5]
    simp only [T.map, Tag.map, build, mapL_append, buildL_append k5 j5, Res.ok_bind, hl, List.take_left, List.drop_left]
    have hf : I.isFun cs!"to_fp_unsigned" = false := hI.noFun .FP_TO_FP_UNSIGNED
    simp only [callOper, List.isEmpty_cons, Bool.false_eq_true, if_false, parseOper, hf]
    rw [if_neg (by decide)]
    rw [show disp (getOperKind (String.ofList cs!"to_fp_unsigned")) = .toFpUnsigned by decide +kernel]
    rfl

/-- operators that are printed under a name which is no operator -/
def unreadable : List K := [.INT_TO_BV, .BV_TO_INT, .COTH, .MAX, .MIN]

/-- **C41 violated: names that are not read.** `int2bv`, `bv2int`, `coth`, `max` and `min` nodes are printed, but reading the text ends the
process. -/
theorem unreadable_violated {I : Ctors} (hI : Lawful I) {decl : Decl} {k : K} {name : List Char} {s : Srt} {cs : List N}
    (hk : k ∈ unreadable) (hc : cs ≠ []) (ha : arity k cs.length = true) (hw : ∀ x ∈ cs, WF x) (hm : ∀ x ∈ cs, Made I decl [] x) :
    RoundTo I decl (.mk k name s cs) .abort := by
  obtain ⟨xs, ts, k1, k2, k3, k4, k5⟩ := viewL (I := I) fun x hx => view_made hI (hm x hx)
  have hok : appOk k = true ∧ dispOf (kindName k) = .unknown ∧ operands k cs = cs ∧ bindShape k cs := by
    simp only [unreadable, List.mem_cons, List.not_mem_nil, or_false] at hk
    rcases hk with rfl | rfl | rfl | rfl | rfl <;> exact ⟨by decide +kernel, by decide +kernel, rfl, trivial⟩
  obtain ⟨e0, ed, eo, eb⟩ := hok
  obtain ⟨e1, e2, e3, e4⟩ := appOk_spec e0
  have hne : cs.isEmpty = false := by
    cases cs with
    | nil => exact absurd rfl hc
    | cons => rfl
  refine roundTo_of (x := .list (.atom (kindName k) :: xs)) (t := .mk (.app (kindName k) 0) ts) (.mk ha eb (by rw [eo]; exact hw)) ?_ ⟨e2, k2⟩
    (.app e3 k3) k4 ?_
  · unfold sexpr
    rw [e1]
    simp only [hne]
    exact reads_list k1
  · simp only [T.map, Tag.map, build, k5, Res.ok_bind, List.take_zero, List.drop_zero]
    rw [callOper_dispOf I (hI.noFun k) e4, ed]
    rfl

/-- **C41 violated: `epsilon`.** The text of the infinitesimal is looked up as a name, which is not one of a constant (see
`Verif.Leaf.epsilon_violated`). -/
theorem round_epsilon_violated {I : Ctors} {decl : Decl} {name : List Char} {s : Srt} (h : I.leaf [] cs!"epsilon" false = .abort) :
    RoundTo I decl (.mk .EPSILON name s []) .abort :=
  roundTo_of (x := .atom cs!"epsilon") (t := .mk (.sym cs!"epsilon" false) []) (.mk rfl trivial (by simp [operands])) rfl (plainB_tok (by decide +kernel))
    .sym rfl h

/-! ## A worked case -/

/-- the sort object of `Int` and `Bool`, enough for the case -/
def srtOf : Option D → Srt
  | some .int => INT_SORT
  | _ => BOOL_SORT

/-- constructors that only build nodes: numbers are folded under `-`, `f` is a declared function -/
def plainCtors : Ctors where
  op k cs :=
    match k, cs with
    | .SUB, [.mk .CONST n s []] => .ok (.mk .CONST ('-' :: n) s [])
    | .SUB, [x] => .ok (.mk .NEG cs!"-" INT_SORT [x])
    | .NEG, [.mk .CONST n s []] => .ok (.mk .CONST ('-' :: n) s [])
    | .NEG, [x] => .ok (.mk .NEG cs!"-" INT_SORT [x])
    | k, cs => .ok (.mk k (kindName k) BOOL_SORT cs)
  isFun n := n == cs!"f"
  apply n cs := .ok (.mk .UF_APPLY n INT_SORT cs)
  leaf sc n _ :=
    match sc.lookup n with
    | some (.var s) => .ok (.mk .QUANT_VAR n (srtOf s) [])
    | some (.val v) => .ok v
    | none => if n.all Char.isDigit then .ok (.mk .CONST n INT_SORT []) else .ok (.mk .VAR n INT_SORT [])
  quant h vs b :=
    .ok (.mk (if h = cs!"forall" then .FORALL else .EXISTS) h BOOL_SORT (b :: vs.map fun v => .mk .QUANT_VAR v.1 (srtOf v.2) []))
  bv n _ := .ok (.mk .CONST n BOOL_SORT [])
  fpc n _ _ := .ok (.mk .CONST n BOOL_SORT [])
  fp cs := .ok (.mk .CONST cs!"(fp_bit_representation)" BOOL_SORT cs)
  constArr _ v := .ok (.mk .CONST_ARRAY [] BOOL_SORT [v])
  asArray n := .ok (.mk .VAR n BOOL_SORT [])
  rootObj e _ := .ok e
  rootInt cs := .ok (.mk .ROOT_OF_WITH_INTERVAL [] BOOL_SORT cs)
  ran cs := .ok (.mk .REAL_ALGEBRAIC_NUMBER [] BOOL_SORT cs)

theorem plain_lawful : Lawful plainCtors where
  noFun := by intro k; cases k <;> decide +kernel
  sub1 := by intro x; rcases x with ⟨k, n, s, cs⟩; cases cs <;> cases k <;> rfl

/-- `(forall ((x Int)) (=> (< x (- 5)) (= (f x ((_ extract 3 0) b)) (- x))))` -/
def rt : N :=
  let x : N := .mk .QUANT_VAR cs!"x" INT_SORT []
  let k (ds : List Char) : N := .mk .CONST ds INT_SORT []
  .mk .FORALL cs!"forall" BOOL_SORT [
    .mk .IMPLIES cs!"=>" BOOL_SORT [
      .mk .LT cs!"<" BOOL_SORT [x, k cs!"-5"],
      .mk .EQ cs!"=" BOOL_SORT [
        .mk .UF_APPLY cs!"f" INT_SORT [x, .mk .BV_EXTRACT cs!"extract" BOOL_SORT [.mk .VAR cs!"b" INT_SORT [], k cs!"3", k cs!"0"]],
        .mk .NEG cs!"-" INT_SORT [x]]],
    x]

example : flat (sexpr rt) = cs!"(forall ((x Int)) (=> (< x (- 5)) (= (f x ((_ extract 3 0) b)) (- x))))" := by decide +kernel

theorem rt_wf : WF rt := by
  unfold rt
  repeat' first
    | (intro c hc; simp only [operands, List.mem_cons, List.not_mem_nil, or_false, List.take, List.head?, Option.toList] at hc; rcases hc with rfl | rfl | rfl)
    | (intro c hc; simp only [operands, List.mem_cons, List.not_mem_nil, or_false, List.take, List.head?, Option.toList] at hc; rcases hc with rfl | rfl)
    | (intro c hc; simp only [operands, List.mem_cons, List.not_mem_nil, or_false, List.take, List.head?, Option.toList] at hc; subst hc)
    | (intro c hc; exact absurd hc (by simp [operands]))
    | refine .mk rfl trivial ?_

theorem rt_made : Made plainCtors [] [] rt := by
  have hx : Made plainCtors [] (scopeOf [(cs!"x", .int)] ++ []) (.mk .QUANT_VAR cs!"x" INT_SORT []) :=
    .word rfl (plainB_tok (by decide +kernel)) rfl
  refine .quant (op := cs!"forall") (ds := [(cs!"x", .int)]) rfl (.cons (plainB_tok (by decide +kernel)) .int (plainB_tok (by decide +kernel)) .nil) ?_ rfl
  refine .app (by simp [takes, nary]) ?_ rfl
  intro c hc
  simp only [List.mem_cons, List.not_mem_nil, or_false] at hc
  rcases hc with rfl | rfl
  · refine .app (by simp [takes, binary]) ?_ rfl
    intro c hc
    simp only [List.mem_cons, List.not_mem_nil, or_false] at hc
    rcases hc with rfl | rfl
    · exact hx
    · exact .neg (ds := cs!"5") rfl (plainB_tok (by decide +kernel)) rfl rfl
  · refine .app (by simp [takes, nary]) ?_ rfl
    intro c hc
    simp only [List.mem_cons, List.not_mem_nil, or_false] at hc
    rcases hc with rfl | rfl
    · refine .ufCall rfl (by simp) rfl (plainB_tok (by decide +kernel)) (by decide) (by decide) ?_ rfl
      intro c hc
      simp only [List.mem_cons, List.not_mem_nil, or_false] at hc
      rcases hc with rfl | rfl
      · exact hx
      · refine .indexed (by decide) rfl ?_ rfl
        intro c hc
        simp only [List.mem_cons, List.not_mem_nil, or_false] at hc
        rcases hc with rfl | rfl | rfl <;> exact .word rfl (plainB_tok (by decide +kernel)) rfl
    · refine .app (by simp [takes, unary]) ?_ rfl
      intro c hc
      simp only [List.mem_cons, List.not_mem_nil, or_false] at hc
      subst hc
      exact hx

/-- the case meets the hypotheses of `round_trip_partial` -/
theorem rt_round (p : P) (hk : Keys [] p.keys) (hp : p.ph = false) :
    ∃ (s : List Char) (t : T Srt) (q : P) (f : Nat), (∀ m, f ≤ m → dump m rt = .ok s) ∧ (∀ m, f ≤ m → mkExpr true m p s = .ok (t, q)) ∧
      build plainCtors [] (t.map sortOf) = .ok rt :=
  round_trip_partial true plainCtors plain_lawful (goodDecl (by simp [declNames]) (by simp)) p hk hp rt_wf rt_made

/-- a concrete state in which the violations apply: `((_ to_fp_unsigned 8 24) RNE b)` is rebuilt with its operands in another order -/
example : RoundTo plainCtors [] (.mk .FP_TO_FP_UNSIGNED cs!"to_fp_unsigned" BOOL_SORT
      [.mk .CONST cs!"8" INT_SORT [], .mk .CONST cs!"24" INT_SORT [], .mk .VAR cs!"m" INT_SORT [], .mk .VAR cs!"b" INT_SORT []])
    (.ok (.mk .FP_TO_FP_UNSIGNED cs!"to_fp_unsigned" BOOL_SORT
      [.mk .VAR cs!"m" INT_SORT [], .mk .VAR cs!"b" INT_SORT [], .mk .CONST cs!"8" INT_SORT [], .mk .CONST cs!"24" INT_SORT []])) :=
  to_fp_unsigned_violated plain_lawful
    (by
      intro x hx
      simp only [List.mem_cons, List.not_mem_nil, or_false] at hx
      rcases hx with rfl | rfl | rfl | rfl <;> exact .mk rfl trivial (by simp [operands]))
    (by
      intro x hx
      simp only [List.mem_cons, List.not_mem_nil, or_false] at hx
      rcases hx with rfl | rfl | rfl | rfl <;> exact .word rfl (plainB_tok (by decide +kernel)) rfl)

example : RoundTo plainCtors [] (.mk .COTH cs!"coth" BOOL_SORT [.mk .VAR cs!"b" INT_SORT []]) .abort :=
  unreadable_violated plain_lawful (by decide) (by simp) rfl
    (by intro x hx; simp only [List.mem_cons, List.not_mem_nil, or_false] at hx; subst hx; exact .mk rfl trivial (by simp [operands]))
    (by intro x hx; simp only [List.mem_cons, List.not_mem_nil, or_false] at hx; subst hx; exact .word rfl (plainB_tok (by decide +kernel)) rfl)

end SMT.Parse
