import Verif.Print.Spec
import Verif.Lex.Props

/-! # C39: printing an expression -/

namespace SMT.Print
open SMT SMT.Text SMT.Kinds SMT.Sorts

set_option linter.unusedSimpArgs false
set_option linter.unusedVariables false

/-! ## Lemmas -/

/-- working off the items writes the text -/
def Emits (is : List Item) (t : List Char) : Prop := ∃ k, ∀ f st out, loop (k + f) (is ++ st) out = loop f st (out ++ t)

theorem Emits.nil : Emits [] [] := ⟨0, by simp⟩

theorem Emits.append {is js : List Item} {t u : List Char} (h : Emits is t) (g : Emits js u) : Emits (is ++ js) (t ++ u) := by
  obtain ⟨k, h⟩ := h
  obtain ⟨l, g⟩ := g
  refine ⟨k + l, fun f st out => ?_⟩
  rw [Nat.add_assoc, List.append_assoc, h, g, List.append_assoc]

theorem Emits.cons {i : Item} {js : List Item} {t u : List Char} (h : Emits [i] t) (g : Emits js u) : Emits (i :: js) (t ++ u) :=
  Emits.append h g

theorem Emits.space : Emits [.space] cs!" " := ⟨1, fun f st out => by rw [Nat.add_comm]; rfl⟩
theorem Emits.close : Emits [.close] cs!")" := ⟨1, fun f st out => by rw [Nat.add_comm]; rfl⟩
theorem Emits.closeSpace : Emits [.closeSpace] cs!") " := ⟨1, fun f st out => by rw [Nat.add_comm]; rfl⟩
theorem Emits.text (t : List Char) : Emits [.text t] t := ⟨1, fun f st out => by rw [Nat.add_comm]; rfl⟩

theorem Emits.step {n : N} {t u : List Char} {push : List Item} (h : expand n = some (t, push)) (g : Emits push.reverse u) :
    Emits [.node n] (t ++ u) := by
  obtain ⟨k, g⟩ := g
  refine ⟨k + 1, fun f st out => ?_⟩
  rw [show k + 1 + f = (k + f) + 1 by omega]
  simp only [List.cons_append, List.nil_append, loop, h]
  rw [g, List.append_assoc]

theorem Emits.leaf {n : N} {t : List Char} (h : expand n = some (t, [])) : Emits [.node n] t := by
  have := Emits.step h Emits.nil
  simpa using this

theorem sexprs_map (cs : List N) : sexprs cs = cs.map sexpr := by
  induction cs with
  | nil => rw [sexprs]; rfl
  | cons c cs ih => rw [sexprs, ih]; rfl

theorem binds_map (cs : List N) : binds cs = cs.map bind := by
  induction cs with
  | nil => rw [binds]; rfl
  | cons c cs ih => rw [binds, ih]; rfl

theorem bind_eq (b : N) : bind b = .list (.atom (pureName b) :: b.children.map sexpr) := by
  cases b; rw [bind, sexprs_map]; rfl

theorem bindList_eq (l : N) : bindList l = l.children.map bind := by
  cases l; rw [bindList, binds_map]; rfl

theorem tails_append (a b : List Sexp) : tails (a ++ b) = tails a ++ tails b := by
  induction a with
  | nil => rfl
  | cons x a ih => simp only [List.cons_append, tails, ih, List.append_assoc]

theorem emits_args {cs : List N} (h : ∀ c ∈ cs, Emits [.node c] (flat (sexpr c))) :
    Emits (pushArgs cs).reverse (tails (cs.map sexpr)) := by
  induction cs with
  | nil => exact Emits.nil
  | cons c cs ih =>
    have h1 := Emits.space.cons (h c (by simp))
    have h2 := h1.append (ih fun x hx => h x (by simp [hx]))
    have e : (pushArgs (c :: cs)).reverse = [.space, .node c] ++ (pushArgs cs).reverse := by simp [pushArgs, List.flatMap_append]
    rw [e]
    simpa only [List.map_cons, tails, List.append_assoc] using h2

/-- `(op a1 ... an)` pushed as a loop -/
theorem emits_app {n : N} {op : List Char} {cs : List N} (h : ∀ c ∈ cs, Emits [.node c] (flat (sexpr c)))
    (he : expand n = some (cs!"(" ++ op, [.close] ++ pushArgs cs)) : Emits [.node n] (flat (.list (.atom op :: cs.map sexpr))) := by
  have := Emits.step he (by simpa using (emits_args h).append Emits.close)
  simpa [flat, flats] using this

/-- binding lists -/
theorem emits_binds {bs : List N} (hv : oneValue bs) (h : ∀ c ∈ bs.flatMap N.children, Emits [.node c] (flat (sexpr c))) :
    ∀ first : Bool, ∃ p, pushBinds first bs = some p ∧
      Emits p.reverse (if first then flats (bs.map bind) else tails (bs.map bind)) := by
  induction bs with
  | nil => intro first; exact ⟨[], rfl, by cases first <;> exact Emits.nil⟩
  | cons b bs ih =>
    intro first
    obtain ⟨p, hp, hE⟩ := ih (fun x hx => hv x (by simp [hx])) (fun c hc => h c (by
      simp only [List.flatMap_cons, List.mem_append]; exact .inr hc)) false
    obtain ⟨v, hb⟩ := hv b (by simp)
    have hv' : Emits [.node v] (flat (sexpr v)) := h v (by simp [hb])
    have one : Emits [.text cs!"(", .text (pureName b), .text cs!" ", .node v, .text cs!")"] (flat (bind b)) := by
      have := (Emits.text cs!"(").cons ((Emits.text (pureName b)).cons ((Emits.text cs!" ").cons (hv'.cons (Emits.text cs!")"))))
      rw [bind_eq, hb]
      simpa [flat, flats, tails] using this
    cases first with
    | true =>
      refine ⟨_, by simp [pushBinds, hp, pushBind, hb]; rfl, ?_⟩
      simpa [flats] using one.append hE
    | false =>
      refine ⟨_, by simp [pushBinds, hp, pushBind, hb]; rfl, ?_⟩
      simpa [tails] using ((Emits.text cs!" ").append one).append hE

theorem emits_let_open {bs : List N} (hv : oneValue bs) (h : ∀ c ∈ bs.flatMap N.children, Emits [.node c] (flat (sexpr c))) :
    ∃ p, pushBinds true bs = some p ∧
      Emits ([.text cs!"(let ("] ++ p.reverse ++ [.text cs!") "]) (cs!"(let (" ++ flats (bs.map bind) ++ cs!") ") := by
  obtain ⟨p, hp, hE⟩ := emits_binds hv h true
  exact ⟨p, hp, by simpa using ((Emits.text cs!"(let (").append hE).append (Emits.text cs!") ")⟩

/-- the text of nested lets up to the body -/
def chainOpen : List N → List Char
  | [] => []
  | l :: ls => cs!"(let (" ++ flats (l.children.map bind) ++ cs!") " ++ chainOpen ls

theorem emits_chain {ls : List N} (hv : ∀ l ∈ ls, oneValue l.children)
    (h : ∀ c ∈ ls.flatMap (fun l => l.children.flatMap N.children), Emits [.node c] (flat (sexpr c))) :
    ∃ p, pushChain ls = some p ∧ Emits p.reverse (chainOpen ls) := by
  induction ls with
  | nil => exact ⟨[], rfl, Emits.nil⟩
  | cons l ls ih =>
    obtain ⟨p, hp, hE⟩ := ih (fun x hx => hv x (by simp [hx])) (fun c hc => h c (by
      simp only [List.flatMap_cons, List.mem_append]; exact .inr hc))
    obtain ⟨q, hq, hF⟩ := emits_let_open (hv l (by simp)) (fun c hc => h c (by
      simp only [List.flatMap_cons, List.mem_append]; exact .inl hc))
    refine ⟨_, by simp [pushChain, hp, hq]; rfl, ?_⟩
    have := hF.append hE
    simpa [chainOpen] using this

theorem chain_flat (ls : List N) (body : N) :
    flat (chain (ls ++ [body])) = chainOpen ls ++ flat (sexpr body) ++ List.replicate ls.length ')' := by
  induction ls with
  | nil => simp [chain, chainOpen]
  | cons l ls ih =>
    simp only [List.cons_append, chain]
    rw [if_neg (by simp)]
    simp only [flat, flats, tails, ih, bindList_eq, chainOpen, List.length_cons, List.replicate_succ']
    simp

theorem emits_close (k : Nat) : Emits (List.replicate k (.text cs!")")) (List.replicate k ')') := by
  induction k with
  | zero => exact Emits.nil
  | succ k ih => exact (Emits.text cs!")").cons ih

mutual
/-- a sort prints as its S-expression -/
theorem flat_sort : ∀ s : Srt, flat (sortSexp s) = print s
  | .mk k name a cs => by
    cases k <;> first
      | (simp only [sortSexp]; simp [flat, print]; done)
      | (simp only [sortSexp]; simp [flat, flats, tails, print]; done)
      | (simp only [sortSexp]; simp [flat, flats, tails, print, flat_sortAt cs])
theorem flat_sortAt : ∀ (l : List Srt) (i : Nat), flat (sortAt l i) = printAt l i
  | [], i => by simp [sortAt, printAt, flat]
  | s :: _, 0 => by simp [sortAt, printAt, flat_sort s]
  | _ :: l, i + 1 => by simp [sortAt, printAt, flat_sortAt l i]
end

theorem quantVars_flat (vs : List N) (first : Bool) :
    quantVars first vs = if first then flats (vs.map varSexp) else tails (vs.map varSexp) := by
  induction vs generalizing first with
  | nil => cases first <;> rfl
  | cons v vs ih =>
    have := ih false
    cases first <;> simp [quantVars, flats, tails, flat, varSexp, flat_sort, this]

/-- the kinds printed by the default case -/
def isDefault : K → Bool
  | .CONST_TRUE | .CONST_FALSE | .CONST | .VAR | .TEMP_VAR | .PLACEHOLDER_VAR | .CONST_ARRAY | .EQ | .LE | .LT | .GE | .GT | .ADD | .MUL
  | .SUB | .DIV_REAL | .AND | .OR | .DISTINCT | .REG_LOOP | .NOT | .NEG | .ITE | .BV_EXTRACT | .BV_REPEAT | .BV_ZERO_EXT | .BV_SIGN_EXT
  | .BV_ROTATE_LEFT | .BV_ROTATE_RIGHT | .CONST_PI | .CONST_E | .INFINITY | .POS_INFINITY | .NEG_INFINITY | .NAN | .EPSILON
  | .POS_EPSILON | .NEG_EPSILON | .REG_NONE | .REG_ALL | .REG_ALLCHAR | .FORALL | .EXISTS | .QUANT_VAR | .FUNC_DEC | .FUNC_DEF
  | .FUNC_REC | .FUNC_PARAM | .FUNC_APPLY | .FUNC_REC_APPLY | .LET | .LET_CHAIN | .LET_BIND_VAR | .LET_BIND_VAR_LIST | .UF_APPLY | .FP_ADD
  | .FP_SUB | .FP_MUL | .FP_DIV | .FP_FMA | .FP_MIN | .FP_MAX | .FP_SQRT | .FP_ROUND_TO_INTEGRAL | .FP_ABS | .FP_NEG | .FP_IS_NORMAL
  | .FP_IS_SUBNORMAL | .FP_IS_ZERO | .FP_IS_INF | .FP_IS_NAN | .FP_IS_NEG | .FP_IS_POS | .FP_TO_REAL | .FP_REM | .FP_LE | .FP_LT | .FP_GE
  | .FP_GT | .FP_EQ | .FP_TO_UBV | .FP_TO_SBV | .FP_TO_FP | .FP_TO_FP_UNSIGNED | .ROOT_OBJ | .ROOT_OF_WITH_INTERVAL
  | .REAL_ALGEBRAIC_NUMBER | .SELECT | .STORE => false
  | _ => true

/-- the default case of the `switch` -/
def defaultCase (k : K) : List N → Option (List Char × List Item)
  | [] => some (kindName k, [])
  | [c] => some (cs!"(" ++ kindName k ++ cs!" ", [.close, .node c])
  | cs => some (cs!"(" ++ kindName k, [.close] ++ pushArgs cs)

theorem expand_default {k : K} (h : isDefault k = true) (name : List Char) (s : Srt) (cs : List N) :
    expand (.mk k name s cs) = defaultCase k cs := by
  cases k <;> first
    | (exfalso; revert h; decide)
    | (rcases cs with _ | ⟨c, _ | ⟨d, cs⟩⟩ <;> rfl)

theorem form_default {k : K} (h : isDefault k = true) : form k = .app (kindName k) ∧ ∀ cs, operands k cs = cs := by
  cases k <;> first
    | (exfalso; revert h; decide)
    | exact ⟨rfl, fun _ => rfl⟩

theorem emits_default {k : K} (h : isDefault k = true) (name : List Char) (s : Srt) (cs : List N)
    (ih : ∀ c ∈ operands k cs, Emits [.node c] (flat (sexpr c))) : Emits [.node (.mk k name s cs)] (flat (sexpr (.mk k name s cs))) := by
  have he := expand_default h name s cs
  obtain ⟨hf, ho⟩ := form_default h
  rw [ho] at ih
  simp only [sexpr, hf, sexprs_map]
  rcases cs with _ | ⟨c, _ | ⟨d, cs⟩⟩
  · exact Emits.leaf he
  · have := Emits.step he ((ih c (by simp)).cons Emits.close)
    simpa [flat, flats, tails] using this
  · exact emits_app ih he

/-- the same text written for the n-ary operators that have a special case for two operands -/
theorem emits_two {n : N} {op : List Char} {a b : N} (ha : Emits [.node a] (flat (sexpr a))) (hb : Emits [.node b] (flat (sexpr b)))
    (he : expand n = some (cs!"(" ++ op ++ cs!" ", [.close, .node b, .space, .node a])) :
    Emits [.node n] (flat (.list (.atom op :: [a, b].map sexpr))) := by
  have := Emits.step he (ha.cons (Emits.space.cons (hb.cons Emits.close)))
  simpa [flat, flats, tails] using this

theorem emits_one {n : N} {op : List Char} {a : N} (ha : Emits [.node a] (flat (sexpr a)))
    (he : expand n = some (cs!"(" ++ op ++ cs!" ", [.close, .node a])) :
    Emits [.node n] (flat (.list (.atom op :: [a].map sexpr))) := by
  have := Emits.step he (ha.cons Emits.close)
  simpa [flat, flats, tails] using this

theorem emits_three {n : N} {op : List Char} {a b c : N} (ha : Emits [.node a] (flat (sexpr a))) (hb : Emits [.node b] (flat (sexpr b)))
    (hc : Emits [.node c] (flat (sexpr c)))
    (he : expand n = some (cs!"(" ++ op ++ cs!" ", [.close, .node c, .space, .node b, .space, .node a])) :
    Emits [.node n] (flat (.list (.atom op :: [a, b, c].map sexpr))) := by
  have := Emits.step he (ha.cons (Emits.space.cons (hb.cons (Emits.space.cons (hc.cons Emits.close)))))
  simpa [flat, flats, tails] using this

/-- the case of the n-ary operators with a special case for two operands -/
def naryCase (op : List Char) : List N → Option (List Char × List Item)
  | [a, b] => some (cs!"(" ++ op ++ cs!" ", [.close, .node b, .space, .node a])
  | cs => some (cs!"(" ++ op, [.close] ++ pushArgs cs)

theorem nary_sexpr {k : K} {op name : List Char} {s : Srt} {cs : List N} (hf : form k = .app op) (hc : cs ≠ []) :
    sexpr (.mk k name s cs) = .list (.atom op :: cs.map sexpr) := by
  simp only [sexpr, hf, sexprs_map]
  rw [if_neg (by simpa using hc)]

theorem len1 {cs : List N} (h : cs.length = 1) : ∃ a, cs = [a] := List.length_eq_one_iff.mp h
theorem len2 {cs : List N} (h : cs.length = 2) : ∃ a b, cs = [a, b] := by
  rcases cs with _ | ⟨a, _ | ⟨b, _ | ⟨c, cs⟩⟩⟩ <;> simp at h
  exact ⟨a, b, rfl⟩
theorem len3 {cs : List N} (h : cs.length = 3) : ∃ a b c, cs = [a, b, c] := by
  rcases cs with _ | ⟨a, _ | ⟨b, _ | ⟨c, _ | ⟨d, cs⟩⟩⟩⟩ <;> simp at h
  exact ⟨a, b, c, rfl⟩
theorem len4 {cs : List N} (h : cs.length = 4) : ∃ a b c d, cs = [a, b, c, d] := by
  rcases cs with _ | ⟨a, _ | ⟨b, _ | ⟨c, _ | ⟨d, _ | ⟨e, cs⟩⟩⟩⟩⟩ <;> simp at h
  exact ⟨a, b, c, d, rfl⟩

theorem dumpConst_flat (name : List Char) (s : Srt) : dumpConst name s = flat (constSexp name s) := by
  unfold dumpConst constSexp
  show (if numeric s = true then _ else _) = _
  cases hn : numeric s
  · simp [flat]
  · rcases name with _ | ⟨c, r⟩
    · simp [flat]
    · by_cases hc : c = '-'
      · subst hc; simp [flat, flats, tails]
      · simp [hc, flat]

theorem special_flat (n : N) (d : List Char) : special n d = if n.name.head? = some '(' then n.name else d := by
  unfold special
  rcases n.name with _ | ⟨c, r⟩
  · simp
  · by_cases hc : c = '('
    · subst hc; simp
    · simp [hc]

section
variable {k : K} {op name : List Char} {s : Srt} {cs : List N}

theorem node_nary (hf : form k = .app op) (hne : cs ≠ []) (ih : ∀ c ∈ cs, Emits [.node c] (flat (sexpr c)))
    (hx : expand (.mk k name s cs) = naryCase op cs) : Emits [.node (.mk k name s cs)] (flat (sexpr (.mk k name s cs))) := by
  rw [nary_sexpr hf hne]
  rcases cs with _ | ⟨c, _ | ⟨d, _ | ⟨e, cs⟩⟩⟩
  · exact absurd rfl hne
  · exact emits_app ih hx
  · exact emits_two (ih c (by simp)) (ih d (by simp)) hx
  · exact emits_app ih hx

theorem node_app (hf : form k = .app op) (hne : cs ≠ []) (ih : ∀ c ∈ cs, Emits [.node c] (flat (sexpr c)))
    (hx : expand (.mk k name s cs) = some (cs!"(" ++ op, [.close] ++ pushArgs cs)) :
    Emits [.node (.mk k name s cs)] (flat (sexpr (.mk k name s cs))) := by
  rw [nary_sexpr hf hne]
  exact emits_app ih hx

theorem node_one (hf : form k = .app op) (hl : cs.length = 1) (ih : ∀ c ∈ cs, Emits [.node c] (flat (sexpr c)))
    (hx : ∀ a, expand (.mk k name s [a]) = some (cs!"(" ++ op ++ cs!" ", [.close, .node a])) :
    Emits [.node (.mk k name s cs)] (flat (sexpr (.mk k name s cs))) := by
  obtain ⟨a, rfl⟩ := len1 hl
  rw [nary_sexpr hf (by simp)]
  exact emits_one (ih a (by simp)) (hx a)

theorem node_two (hf : form k = .app op) (hl : cs.length = 2) (ih : ∀ c ∈ cs, Emits [.node c] (flat (sexpr c)))
    (hx : ∀ a b, expand (.mk k name s [a, b]) = some (cs!"(" ++ op ++ cs!" ", [.close, .node b, .space, .node a])) :
    Emits [.node (.mk k name s cs)] (flat (sexpr (.mk k name s cs))) := by
  obtain ⟨a, b, rfl⟩ := len2 hl
  rw [nary_sexpr hf (by simp)]
  exact emits_two (ih a (by simp)) (ih b (by simp)) (hx a b)

theorem node_three (hf : form k = .app op) (hl : cs.length = 3) (ih : ∀ c ∈ cs, Emits [.node c] (flat (sexpr c)))
    (hx : ∀ a b c, expand (.mk k name s [a, b, c]) = some (cs!"(" ++ op ++ cs!" ", [.close, .node c, .space, .node b, .space, .node a])) :
    Emits [.node (.mk k name s cs)] (flat (sexpr (.mk k name s cs))) := by
  obtain ⟨a, b, c, rfl⟩ := len3 hl
  rw [nary_sexpr hf (by simp)]
  exact emits_three (ih a (by simp)) (ih b (by simp)) (ih c (by simp)) (hx a b c)

/-- one index -/
theorem node_idx1 (hf : form k = .indexed op [1] [0]) (hl : cs.length = 2) (ih : ∀ c ∈ cs, Emits [.node c] (flat (sexpr c)))
    (hx : ∀ a b, expand (.mk k name s [a, b]) = some (cs!"((_ " ++ op ++ cs!" ", [.close, .node a, .closeSpace, .node b])) :
    Emits [.node (.mk k name s cs)] (flat (sexpr (.mk k name s cs))) := by
  obtain ⟨a, b, rfl⟩ := len2 hl
  have := Emits.step (hx a b) ((ih b (by simp)).cons (Emits.closeSpace.cons ((ih a (by simp)).cons Emits.close)))
  simp only [sexpr, hf, sexprs_map]
  simpa [flat, flats, tails, pick] using this

/-- two indices -/
theorem node_idx2 (hf : form k = .indexed op [1, 2] [0]) (hl : cs.length = 3) (ih : ∀ c ∈ cs, Emits [.node c] (flat (sexpr c)))
    (hx : ∀ a b c, expand (.mk k name s [a, b, c]) =
      some (cs!"((_ " ++ op ++ cs!" ", [.close, .node a, .closeSpace, .node c, .space, .node b])) :
    Emits [.node (.mk k name s cs)] (flat (sexpr (.mk k name s cs))) := by
  obtain ⟨a, b, c, rfl⟩ := len3 hl
  have := Emits.step (hx a b c) ((ih b (by simp)).cons (Emits.space.cons ((ih c (by simp)).cons
    (Emits.closeSpace.cons ((ih a (by simp)).cons Emits.close)))))
  simp only [sexpr, hf, sexprs_map]
  simpa [flat, flats, tails, pick] using this

/-- conversions to bit-vectors -/
theorem node_idx3 (hf : form k = .indexed op [2] [0, 1]) (hl : cs.length = 3) (ih : ∀ c ∈ cs, Emits [.node c] (flat (sexpr c)))
    (hx : ∀ a b c, expand (.mk k name s [a, b, c]) =
      some (cs!"((_ " ++ op ++ cs!" ", [.close, .node b, .space, .node a, .closeSpace, .node c])) :
    Emits [.node (.mk k name s cs)] (flat (sexpr (.mk k name s cs))) := by
  obtain ⟨a, b, c, rfl⟩ := len3 hl
  have := Emits.step (hx a b c) ((ih c (by simp)).cons (Emits.closeSpace.cons ((ih a (by simp)).cons
    (Emits.space.cons ((ih b (by simp)).cons Emits.close)))))
  simp only [sexpr, hf, sexprs_map]
  simpa [flat, flats, tails, pick] using this

theorem node_special (w : List Char) (hf : form k = .special w) (hx : expand (.mk k name s cs) = some (special (.mk k name s cs) w, [])) :
    Emits [.node (.mk k name s cs)] (flat (sexpr (.mk k name s cs))) := by
  simp only [sexpr, hf, flat]
  rw [special_flat] at hx
  exact Emits.leaf hx

theorem node_quant (hf : form k = .quant op) (hl : cs ≠ []) (ih : ∀ c ∈ cs.take 1, Emits [.node c] (flat (sexpr c)))
    (hx : ∀ b vs, expand (.mk k name s (b :: vs)) = some (cs!"(" ++ op ++ cs!" (" ++ quantVars true vs ++ cs!") ", [.close, .node b])) :
    Emits [.node (.mk k name s cs)] (flat (sexpr (.mk k name s cs))) := by
  cases cs with
  | nil => exact absurd rfl hl
  | cons b vs =>
    have := Emits.step (hx b vs) ((ih b (by simp)).cons Emits.close)
    rw [quantVars_flat] at this
    simp only [sexpr, hf, sexprs_map]
    simpa [flat, flats, tails] using this

theorem node_call (hf : form k = .call) (ih : ∀ c ∈ cs.tail, Emits [.node c] (flat (sexpr c)))
    (hx : expand (.mk k name s cs) = if cs.length ≤ 1 then some (name, []) else some (cs!"(" ++ name, [.close] ++ pushArgs (cs.drop 1))) :
    Emits [.node (.mk k name s cs)] (flat (sexpr (.mk k name s cs))) := by
  simp only [sexpr, hf, sexprs_map]
  rcases cs with _ | ⟨a, _ | ⟨b, cs⟩⟩
  · exact Emits.leaf hx
  · exact Emits.leaf hx
  · exact emits_app ih hx

end

theorem node_const (name : List Char) (s : Srt) (cs : List N) (ih : ∀ c ∈ cs, Emits [.node c] (flat (sexpr c))) :
    Emits [.node (.mk .CONST name s cs)] (flat (sexpr (.mk .CONST name s cs))) := by
  simp only [sexpr, form, sexprs_map]
  by_cases h : name = cs!"(fp_bit_representation)" ∧ cs.length = 3
  · obtain ⟨a, b, c, rfl⟩ := len3 h.2
    rw [if_pos h]
    have hx : expand (.mk .CONST name s [a, b, c]) = some (cs!"(" ++ cs!"fp" ++ cs!" ", [.close, .node c, .space, .node b, .space, .node a]) := by
      simp [expand, N.kind, N.name, N.children, h.1]
    exact emits_three (ih a (by simp)) (ih b (by simp)) (ih c (by simp)) hx
  · rw [if_neg h, ← dumpConst_flat]
    refine Emits.leaf ?_
    show (if _ then _ else _) = _
    refine (if_neg ?_).trans rfl
    exact fun hb => h (by rw [Bool.and_eq_true, decide_eq_true_eq, decide_eq_true_eq] at hb; exact hb)

theorem node_array (name : List Char) (s : Srt) (cs : List N) (hl : cs.length = 1) (ih : ∀ c ∈ cs, Emits [.node c] (flat (sexpr c))) :
    Emits [.node (.mk .CONST_ARRAY name s cs)] (flat (sexpr (.mk .CONST_ARRAY name s cs))) := by
  obtain ⟨a, rfl⟩ := len1 hl
  have := Emits.step (n := .mk .CONST_ARRAY name s [a]) rfl ((ih a (by simp)).cons Emits.close)
  simp only [sexpr, form, sexprs_map]
  simpa [flat_sort, flat, flats, tails, N.sort] using this

theorem node_uf (name : List Char) (s : Srt) (cs : List N) (ih : ∀ c ∈ cs, Emits [.node c] (flat (sexpr c))) :
    Emits [.node (.mk .UF_APPLY name s cs)] (flat (sexpr (.mk .UF_APPLY name s cs))) := by
  simp only [sexpr, form, sexprs_map]
  cases cs with
  | nil => exact Emits.leaf rfl
  | cons c cs => exact emits_app ih rfl

theorem node_tofp (name : List Char) (s : Srt) (cs : List N) (hl : cs.length = 3 ∨ cs.length = 4)
    (ih : ∀ c ∈ cs, Emits [.node c] (flat (sexpr c))) :
    Emits [.node (.mk .FP_TO_FP name s cs)] (flat (sexpr (.mk .FP_TO_FP name s cs))) := by
  simp only [sexpr, form, sexprs_map]
  rcases hl with hl | hl
  · obtain ⟨a, b, c, rfl⟩ := len3 hl
    have := Emits.step (n := .mk .FP_TO_FP name s [a, b, c]) rfl ((ih a (by simp)).cons (Emits.space.cons ((ih b (by simp)).cons
      (Emits.closeSpace.cons ((ih c (by simp)).cons Emits.close)))))
    simpa [flat, flats, tails] using this
  · obtain ⟨a, b, c, d, rfl⟩ := len4 hl
    have := Emits.step (n := .mk .FP_TO_FP name s [a, b, c, d]) rfl ((ih a (by simp)).cons (Emits.space.cons ((ih b (by simp)).cons
      (Emits.closeSpace.cons ((ih c (by simp)).cons (Emits.space.cons ((ih d (by simp)).cons Emits.close)))))))
    simpa [flat, flats, tails] using this

theorem node_tofpu (name : List Char) (s : Srt) (cs : List N) (hl : cs.length = 4)
    (ih : ∀ c ∈ cs, Emits [.node c] (flat (sexpr c))) :
    Emits [.node (.mk .FP_TO_FP_UNSIGNED name s cs)] (flat (sexpr (.mk .FP_TO_FP_UNSIGNED name s cs))) := by
  simp only [sexpr, form, sexprs_map]
  obtain ⟨a, b, c, d, rfl⟩ := len4 hl
  have := Emits.step (n := .mk .FP_TO_FP_UNSIGNED name s [a, b, c, d]) rfl ((ih a (by simp)).cons (Emits.space.cons ((ih b (by simp)).cons
    (Emits.closeSpace.cons ((ih c (by simp)).cons (Emits.space.cons ((ih d (by simp)).cons Emits.close)))))))
  simpa [flat, flats, tails, pick] using this

theorem node_let (name : List Char) (s : Srt) (cs : List N) (hl : cs ≠ []) (hv : oneValue cs.tail)
    (ih : ∀ c ∈ cs.take 1 ++ cs.tail.flatMap N.children, Emits [.node c] (flat (sexpr c))) :
    Emits [.node (.mk .LET name s cs)] (flat (sexpr (.mk .LET name s cs))) := by
  cases cs with
  | nil => exact absurd rfl hl
  | cons b bs =>
    obtain ⟨p, hp, hE⟩ := emits_let_open hv fun c hc => ih c (by simp only [List.mem_append]; exact .inr hc)
    have hx : expand (.mk .LET name s (b :: bs)) =
        some ([], [.text cs!")", .node b, .text cs!") "] ++ p ++ [.text cs!"(let ("]) := by
      simp only [List.tail_cons] at hp
      simp only [expand, N.kind, N.children, List.drop_succ_cons, List.drop_zero, hp]
      rfl
    have := Emits.step hx (u := cs!"(let (" ++ flats (bs.map bind) ++ cs!") " ++ (flat (sexpr b) ++ cs!")"))
      (by simpa using hE.append ((ih b (by simp)).cons (Emits.text cs!")")))
    simp only [sexpr, form, sexprs_map, binds_map]
    simpa [flat, flats, tails] using this

theorem node_chain (name : List Char) (s : Srt) (cs : List N) (hl : cs ≠ []) (hv : ∀ l ∈ cs.dropLast, oneValue l.children)
    (ih : ∀ c ∈ cs.getLast?.toList ++ cs.dropLast.flatMap (fun l => l.children.flatMap N.children), Emits [.node c] (flat (sexpr c))) :
    Emits [.node (.mk .LET_CHAIN name s cs)] (flat (sexpr (.mk .LET_CHAIN name s cs))) := by
  obtain ⟨ls, b, rfl⟩ : ∃ ls b, cs = ls ++ [b] := ⟨cs.dropLast, cs.getLast hl, (List.dropLast_concat_getLast hl).symm⟩
  simp only [List.dropLast_concat, List.getLast?_concat, Option.toList] at hv ih
  obtain ⟨p, hp, hE⟩ := emits_chain hv fun c hc => ih c (by simp only [List.mem_append]; exact .inr hc)
  have hx : expand (.mk .LET_CHAIN name s (ls ++ [b])) = some ([], List.replicate ls.length (.text cs!")") ++ [.node b] ++ p) := by
    simp only [expand, N.kind, N.children, List.dropLast_concat, List.getLast?_concat, hp]
    simp
  have := Emits.step hx (u := chainOpen ls ++ (flat (sexpr b) ++ List.replicate ls.length ')'))
    (by simpa using hE.append ((ih b (by simp)).append (emits_close ls.length)))
  simp only [sexpr, form]
  rw [chain_flat]
  simpa using this

theorem pos_ne {cs : List N} (h : decide (1 ≤ cs.length) = true) : cs ≠ [] := by
  rintro rfl; simp at h

/-- the name of a kind, checked -/
theorem appName {k : K} {op : List Char} (h : kindName k = op) (hf : form k = .app (kindName k)) : form k = .app op := h ▸ hf

theorem emits_node {n : N} (h : WF n) : Emits [.node n] (flat (sexpr n)) := by
  induction h with
  | @mk k name s cs ha hb hc ih =>
    cases hd : isDefault k with
    | true => exact emits_default hd name s cs ih
    | false =>
      cases k
      case UNKNOWN => exact absurd hd (by decide)
      case ERROR => exact absurd hd (by decide)
      case NULL => exact absurd hd (by decide)
      case CONST => exact node_const name s cs ih
      case VAR => exact Emits.leaf rfl
      case CONST_TRUE => exact Emits.leaf rfl
      case CONST_FALSE => exact Emits.leaf rfl
      case TEMP_VAR => exact Emits.leaf rfl
      case CONST_ARRAY => exact node_array name s cs (beq_iff_eq.mp ha) ih
      case PLACEHOLDER_VAR => exact Emits.leaf rfl
      case AND => exact node_app (appName (by decide +kernel : kindName .AND = cs!"and") rfl) (pos_ne ha) ih rfl
      case OR => exact node_app (appName (by decide +kernel : kindName .OR = cs!"or") rfl) (pos_ne ha) ih rfl
      case NOT => exact node_one (appName (by decide +kernel : kindName .NOT = cs!"not") rfl) (beq_iff_eq.mp ha) ih (fun a => rfl)
      case IMPLIES => exact absurd hd (by decide)
      case XOR => exact absurd hd (by decide)
      case EQ => exact node_nary (appName (by decide +kernel : kindName .EQ = cs!"=") rfl) (pos_ne ha) ih (by rcases cs with _ | ⟨c, _ | ⟨d, _ | ⟨e, cs⟩⟩⟩ <;> rfl)
      case DISTINCT => exact node_app (appName (by decide +kernel : kindName .DISTINCT = cs!"distinct") rfl) (pos_ne ha) ih rfl
      case ITE => exact node_three (appName (by decide +kernel : kindName .ITE = cs!"ite") rfl) (beq_iff_eq.mp ha) ih (fun a b c => rfl)
      case ADD => exact node_nary (appName (by decide +kernel : kindName .ADD = cs!"+") rfl) (pos_ne ha) ih (by rcases cs with _ | ⟨c, _ | ⟨d, _ | ⟨e, cs⟩⟩⟩ <;> rfl)
      case NEG => exact node_one (appName (by decide +kernel : kindName .NEG = cs!"-") rfl) (beq_iff_eq.mp ha) ih (fun a => rfl)
      case SUB => exact node_nary (appName (by decide +kernel : kindName .SUB = cs!"-") rfl) (pos_ne ha) ih (by rcases cs with _ | ⟨c, _ | ⟨d, _ | ⟨e, cs⟩⟩⟩ <;> rfl)
      case MUL => exact node_nary (appName (by decide +kernel : kindName .MUL = cs!"*") rfl) (pos_ne ha) ih (by rcases cs with _ | ⟨c, _ | ⟨d, _ | ⟨e, cs⟩⟩⟩ <;> rfl)
      case IAND => exact absurd hd (by decide)
      case POW2 => exact absurd hd (by decide)
      case POW => exact absurd hd (by decide)
      case DIV_INT => exact absurd hd (by decide)
      case DIV_REAL => exact node_nary (appName (by decide +kernel : kindName .DIV_REAL = cs!"/") rfl) (pos_ne ha) ih (by rcases cs with _ | ⟨c, _ | ⟨d, _ | ⟨e, cs⟩⟩⟩ <;> rfl)
      case MOD => exact absurd hd (by decide)
      case ABS => exact absurd hd (by decide)
      case SQRT => exact absurd hd (by decide)
      case SAFESQRT => exact absurd hd (by decide)
      case CEIL => exact absurd hd (by decide)
      case FLOOR => exact absurd hd (by decide)
      case ROUND => exact absurd hd (by decide)
      case EXP => exact absurd hd (by decide)
      case LN => exact absurd hd (by decide)
      case LG => exact absurd hd (by decide)
      case LB => exact absurd hd (by decide)
      case LOG => exact absurd hd (by decide)
      case SIN => exact absurd hd (by decide)
      case COS => exact absurd hd (by decide)
      case TAN => exact absurd hd (by decide)
      case COT => exact absurd hd (by decide)
      case SEC => exact absurd hd (by decide)
      case CSC => exact absurd hd (by decide)
      case ASIN => exact absurd hd (by decide)
      case ACOS => exact absurd hd (by decide)
      case ATAN => exact absurd hd (by decide)
      case ACOT => exact absurd hd (by decide)
      case ASEC => exact absurd hd (by decide)
      case ACSC => exact absurd hd (by decide)
      case SINH => exact absurd hd (by decide)
      case COSH => exact absurd hd (by decide)
      case TANH => exact absurd hd (by decide)
      case ASECH => exact absurd hd (by decide)
      case ACSCH => exact absurd hd (by decide)
      case ACOTH => exact absurd hd (by decide)
      case ATAN2 => exact absurd hd (by decide)
      case ASINH => exact absurd hd (by decide)
      case ACOSH => exact absurd hd (by decide)
      case ATANH => exact absurd hd (by decide)
      case SECH => exact absurd hd (by decide)
      case CSCH => exact absurd hd (by decide)
      case COTH => exact absurd hd (by decide)
      case LE => exact node_nary (appName (by decide +kernel : kindName .LE = cs!"<=") rfl) (pos_ne ha) ih (by rcases cs with _ | ⟨c, _ | ⟨d, _ | ⟨e, cs⟩⟩⟩ <;> rfl)
      case LT => exact node_nary (appName (by decide +kernel : kindName .LT = cs!"<") rfl) (pos_ne ha) ih (by rcases cs with _ | ⟨c, _ | ⟨d, _ | ⟨e, cs⟩⟩⟩ <;> rfl)
      case GE => exact node_nary (appName (by decide +kernel : kindName .GE = cs!">=") rfl) (pos_ne ha) ih (by rcases cs with _ | ⟨c, _ | ⟨d, _ | ⟨e, cs⟩⟩⟩ <;> rfl)
      case GT => exact node_nary (appName (by decide +kernel : kindName .GT = cs!">") rfl) (pos_ne ha) ih (by rcases cs with _ | ⟨c, _ | ⟨d, _ | ⟨e, cs⟩⟩⟩ <;> rfl)
      case TO_INT => exact absurd hd (by decide)
      case TO_REAL => exact absurd hd (by decide)
      case IS_INT => exact absurd hd (by decide)
      case IS_DIVISIBLE => exact absurd hd (by decide)
      case IS_PRIME => exact absurd hd (by decide)
      case IS_EVEN => exact absurd hd (by decide)
      case IS_ODD => exact absurd hd (by decide)
      case GCD => exact absurd hd (by decide)
      case LCM => exact absurd hd (by decide)
      case FACT => exact absurd hd (by decide)
      case BV_NOT => exact absurd hd (by decide)
      case BV_NEG => exact absurd hd (by decide)
      case BV_AND => exact absurd hd (by decide)
      case BV_OR => exact absurd hd (by decide)
      case BV_XOR => exact absurd hd (by decide)
      case BV_NAND => exact absurd hd (by decide)
      case BV_NOR => exact absurd hd (by decide)
      case BV_XNOR => exact absurd hd (by decide)
      case BV_COMP => exact absurd hd (by decide)
      case BV_ADD => exact absurd hd (by decide)
      case BV_SUB => exact absurd hd (by decide)
      case BV_MUL => exact absurd hd (by decide)
      case BV_UDIV => exact absurd hd (by decide)
      case BV_SDIV => exact absurd hd (by decide)
      case BV_UREM => exact absurd hd (by decide)
      case BV_SREM => exact absurd hd (by decide)
      case BV_UMOD => exact absurd hd (by decide)
      case BV_SMOD => exact absurd hd (by decide)
      case BV_SHL => exact absurd hd (by decide)
      case BV_LSHR => exact absurd hd (by decide)
      case BV_ASHR => exact absurd hd (by decide)
      case BV_ULT => exact absurd hd (by decide)
      case BV_ULE => exact absurd hd (by decide)
      case BV_UGT => exact absurd hd (by decide)
      case BV_UGE => exact absurd hd (by decide)
      case BV_SLT => exact absurd hd (by decide)
      case BV_SLE => exact absurd hd (by decide)
      case BV_SGT => exact absurd hd (by decide)
      case BV_SGE => exact absurd hd (by decide)
      case BV_CONCAT => exact absurd hd (by decide)
      case BV_TO_NAT => exact absurd hd (by decide)
      case NAT_TO_BV => exact absurd hd (by decide)
      case BV_TO_INT => exact absurd hd (by decide)
      case INT_TO_BV => exact absurd hd (by decide)
      case BV_EXTRACT => exact node_idx2 rfl (beq_iff_eq.mp ha) ih (fun a b c => rfl)
      case BV_REPEAT => exact node_idx1 rfl (beq_iff_eq.mp ha) ih (fun a b => by rw [← (by decide +kernel : kindName .BV_REPEAT = cs!"repeat")]; rfl)
      case BV_ZERO_EXT => exact node_idx1 rfl (beq_iff_eq.mp ha) ih (fun a b => by rw [← (by decide +kernel : kindName .BV_ZERO_EXT = cs!"zero_extend")]; rfl)
      case BV_SIGN_EXT => exact node_idx1 rfl (beq_iff_eq.mp ha) ih (fun a b => by rw [← (by decide +kernel : kindName .BV_SIGN_EXT = cs!"sign_extend")]; rfl)
      case BV_ROTATE_LEFT => exact node_idx1 rfl (beq_iff_eq.mp ha) ih (fun a b => by rw [← (by decide +kernel : kindName .BV_ROTATE_LEFT = cs!"rotate_left")]; rfl)
      case BV_ROTATE_RIGHT => exact node_idx1 rfl (beq_iff_eq.mp ha) ih (fun a b => by rw [← (by decide +kernel : kindName .BV_ROTATE_RIGHT = cs!"rotate_right")]; rfl)
      case FP_ADD => exact node_app rfl (pos_ne ha) ih rfl
      case FP_SUB => exact node_app rfl (pos_ne ha) ih rfl
      case FP_MUL => exact node_app rfl (pos_ne ha) ih rfl
      case FP_DIV => exact node_app rfl (pos_ne ha) ih rfl
      case FP_ABS => exact node_one rfl (beq_iff_eq.mp ha) ih (fun a => rfl)
      case FP_NEG => exact node_one rfl (beq_iff_eq.mp ha) ih (fun a => rfl)
      case FP_REM => exact node_two (appName (by decide +kernel : kindName .FP_REM = cs!"fp.rem") rfl) (beq_iff_eq.mp ha) ih (fun a b => rfl)
      case FP_FMA => exact node_app rfl (pos_ne ha) ih rfl
      case FP_SQRT => exact node_app rfl (pos_ne ha) ih rfl
      case FP_ROUND_TO_INTEGRAL => exact node_app rfl (pos_ne ha) ih rfl
      case FP_MIN => exact node_app rfl (pos_ne ha) ih rfl
      case FP_MAX => exact node_app rfl (pos_ne ha) ih rfl
      case FP_LE => exact node_two rfl (beq_iff_eq.mp ha) ih (fun a b => rfl)
      case FP_LT => exact node_two rfl (beq_iff_eq.mp ha) ih (fun a b => rfl)
      case FP_GE => exact node_two rfl (beq_iff_eq.mp ha) ih (fun a b => rfl)
      case FP_GT => exact node_two rfl (beq_iff_eq.mp ha) ih (fun a b => rfl)
      case FP_EQ => exact node_two rfl (beq_iff_eq.mp ha) ih (fun a b => rfl)
      case FP_TO_UBV => exact node_idx3 rfl (beq_iff_eq.mp ha) ih (fun a b c => by rw [← (by decide +kernel : kindName .FP_TO_UBV = cs!"fp.to_ubv")]; rfl)
      case FP_TO_SBV => exact node_idx3 rfl (beq_iff_eq.mp ha) ih (fun a b c => by rw [← (by decide +kernel : kindName .FP_TO_SBV = cs!"fp.to_sbv")]; rfl)
      case FP_TO_REAL => exact node_one rfl (beq_iff_eq.mp ha) ih (fun a => rfl)
      case FP_TO_FP => exact node_tofp name s cs (by simpa [arity] using ha) ih
      case FP_TO_FP_UNSIGNED => exact node_tofpu name s cs (beq_iff_eq.mp ha) ih
      case FP_IS_NORMAL => exact node_one rfl (beq_iff_eq.mp ha) ih (fun a => rfl)
      case FP_IS_SUBNORMAL => exact node_one rfl (beq_iff_eq.mp ha) ih (fun a => rfl)
      case FP_IS_ZERO => exact node_one rfl (beq_iff_eq.mp ha) ih (fun a => rfl)
      case FP_IS_INF => exact node_one rfl (beq_iff_eq.mp ha) ih (fun a => rfl)
      case FP_IS_NAN => exact node_one rfl (beq_iff_eq.mp ha) ih (fun a => rfl)
      case FP_IS_NEG => exact node_one rfl (beq_iff_eq.mp ha) ih (fun a => rfl)
      case FP_IS_POS => exact node_one rfl (beq_iff_eq.mp ha) ih (fun a => rfl)
      case SELECT => exact node_two (appName (by decide +kernel : kindName .SELECT = cs!"select") rfl) (beq_iff_eq.mp ha) ih (fun a b => rfl)
      case STORE => exact node_three (appName (by decide +kernel : kindName .STORE = cs!"store") rfl) (beq_iff_eq.mp ha) ih (fun a b c => rfl)
      case STR_LEN => exact absurd hd (by decide)
      case STR_CONCAT => exact absurd hd (by decide)
      case STR_SUBSTR => exact absurd hd (by decide)
      case STR_INDEXOF => exact absurd hd (by decide)
      case STR_CHARAT => exact absurd hd (by decide)
      case STR_UPDATE => exact absurd hd (by decide)
      case STR_REPLACE => exact absurd hd (by decide)
      case STR_REPLACE_ALL => exact absurd hd (by decide)
      case STR_REPLACE_REG => exact absurd hd (by decide)
      case STR_REPLACE_REG_ALL => exact absurd hd (by decide)
      case STR_INDEXOF_REG => exact absurd hd (by decide)
      case STR_TO_LOWER => exact absurd hd (by decide)
      case STR_TO_UPPER => exact absurd hd (by decide)
      case STR_REV => exact absurd hd (by decide)
      case STR_SPLIT => exact absurd hd (by decide)
      case STR_SPLIT_AT => exact absurd hd (by decide)
      case STR_SPLIT_REST => exact absurd hd (by decide)
      case STR_NUM_SPLITS => exact absurd hd (by decide)
      case STR_SPLIT_AT_RE => exact absurd hd (by decide)
      case STR_SPLIT_REST_RE => exact absurd hd (by decide)
      case STR_NUM_SPLITS_RE => exact absurd hd (by decide)
      case STR_LT => exact absurd hd (by decide)
      case STR_LE => exact absurd hd (by decide)
      case STR_GT => exact absurd hd (by decide)
      case STR_GE => exact absurd hd (by decide)
      case STR_IN_REG => exact absurd hd (by decide)
      case STR_CONTAINS => exact absurd hd (by decide)
      case STR_IS_DIGIT => exact absurd hd (by decide)
      case STR_PREFIXOF => exact absurd hd (by decide)
      case STR_SUFFIXOF => exact absurd hd (by decide)
      case STR_FROM_INT => exact absurd hd (by decide)
      case STR_TO_INT => exact absurd hd (by decide)
      case STR_TO_REG => exact absurd hd (by decide)
      case STR_TO_CODE => exact absurd hd (by decide)
      case STR_FROM_CODE => exact absurd hd (by decide)
      case REG_CONCAT => exact absurd hd (by decide)
      case REG_UNION => exact absurd hd (by decide)
      case REG_INTER => exact absurd hd (by decide)
      case REG_DIFF => exact absurd hd (by decide)
      case REG_STAR => exact absurd hd (by decide)
      case REG_PLUS => exact absurd hd (by decide)
      case REG_OPT => exact absurd hd (by decide)
      case REG_RANGE => exact absurd hd (by decide)
      case REG_REPEAT => exact absurd hd (by decide)
      case REG_COMPLEMENT => exact absurd hd (by decide)
      case REG_LOOP => exact node_idx2 rfl (beq_iff_eq.mp ha) ih (fun a b c => rfl)
      case FUNC_APPLY => exact node_call rfl ih rfl
      case FUNC_DEC => exact Emits.leaf rfl
      case FUNC_DEF => exact Emits.leaf rfl
      case FUNC_REC => exact Emits.leaf rfl
      case FUNC_REC_APPLY => exact node_call rfl ih rfl
      case BV_NEGO => exact absurd hd (by decide)
      case BV_UADDO => exact absurd hd (by decide)
      case BV_SADDO => exact absurd hd (by decide)
      case BV_UMULO => exact absurd hd (by decide)
      case BV_SMULO => exact absurd hd (by decide)
      case BV_UDIVO => exact absurd hd (by decide)
      case BV_SDIVO => exact absurd hd (by decide)
      case BV_UREMO => exact absurd hd (by decide)
      case BV_SREMO => exact absurd hd (by decide)
      case BV_UMODO => exact absurd hd (by decide)
      case BV_SMODO => exact absurd hd (by decide)
      case EQ_BOOL => exact absurd hd (by decide)
      case EQ_OTHER => exact absurd hd (by decide)
      case DISTINCT_BOOL => exact absurd hd (by decide)
      case DISTINCT_OTHER => exact absurd hd (by decide)
      case UF_APPLY => exact node_uf name s cs ih
      case CONST_PI => exact Emits.leaf rfl
      case CONST_E => exact Emits.leaf rfl
      case INFINITY => exact node_special _ rfl rfl
      case NAN => exact node_special _ rfl rfl
      case EPSILON => exact Emits.leaf rfl
      case POS_INFINITY => exact node_special _ rfl rfl
      case NEG_INFINITY => exact node_special _ rfl rfl
      case POS_EPSILON => exact Emits.leaf rfl
      case NEG_EPSILON => exact Emits.leaf rfl
      case REG_NONE => exact Emits.leaf rfl
      case REG_ALL => exact Emits.leaf rfl
      case REG_ALLCHAR => exact Emits.leaf rfl
      case MAX => exact absurd hd (by decide)
      case MIN => exact absurd hd (by decide)
      case LET => exact node_let name s cs (pos_ne ha) hb ih
      case LET_CHAIN => exact node_chain name s cs (pos_ne ha) hb ih
      case LET_BIND_VAR => exact Emits.leaf rfl
      case LET_BIND_VAR_LIST => exact absurd ha (by simp [arity])
      case FORALL => exact node_quant rfl (pos_ne ha) ih (fun b vs => by rw [← (by decide +kernel : kindName .FORALL = cs!"forall")]; rfl)
      case EXISTS => exact node_quant rfl (pos_ne ha) ih (fun b vs => by rw [← (by decide +kernel : kindName .EXISTS = cs!"exists")]; rfl)
      case QUANT_VAR => exact Emits.leaf rfl
      case FUNC_PARAM => exact Emits.leaf rfl
      case ROOT_OBJ => exact node_two rfl (beq_iff_eq.mp ha) ih (fun a b => rfl)
      case ROOT_OF_WITH_INTERVAL => exact absurd ha (by simp [arity])
      case REAL_ALGEBRAIC_NUMBER => exact absurd ha (by simp [arity])

theorem dump_emits {n : N} {t : List Char} (h : Emits [.node n] t) : ∃ k, ∀ f, k ≤ f → dump f n = .ok t := by
  obtain ⟨k, h⟩ := h
  refine ⟨k, fun f hf => ?_⟩
  have := h (f - k) [] []
  rw [show k + (f - k) = f by omega] at this
  simpa [dump, loop] using this

/-! ## C39 -/

/-- **C39.**  For every expression, of any depth and with any names and sorts, the printer ends and writes the expression's
S-expression: operators with all their operands in order, indices, bindings and quantified variables in their places, one space
between the parts.  The three kinds with no standard form are below. -/
theorem print_exact_partial {n : N} (h : WF n) : ∃ k, ∀ f, k ≤ f → dump f n = .ok (flat (sexpr n)) := dump_emits (emits_node h)

/-- **C39, function definitions.** -/
theorem printFun_exact_partial {kw name : List Char} {k : K} {s : Srt} {body : N} {ps : List N} (h : WF body) :
    ∃ m, ∀ f, m ≤ f → dumpFun kw f (.mk k name s (body :: ps)) =
      .ok (flat (.list [.atom kw, .atom name, .list (ps.map varSexp), sortSexp s, sexpr body])) := by
  obtain ⟨m, hm⟩ := print_exact_partial h
  refine ⟨m, fun f hf => ?_⟩
  simp only [dumpFun, N.children, hm f hf, Res.bind, quantVars_flat, N.name, N.sort]
  simp [flat, flats, tails, flat_sort]

theorem sortList_flat (vs : List N) (first : Bool) :
    sortList first vs = if first then flats (vs.map fun v => sortSexp v.sort) else tails (vs.map fun v => sortSexp v.sort) := by
  induction vs generalizing first with
  | nil => cases first <;> rfl
  | cons v vs ih =>
    have := ih false
    cases first <;> simp [sortList, flats, tails, flat, flat_sort, this]

/-- **C39, function declarations.**  The first child is not a parameter. -/
theorem printDec_exact (k : K) (name : List Char) (s : Srt) (c : N) (ps : List N) :
    dumpFuncDec (.mk k name s (c :: ps)) =
      flat (.list [.atom cs!"declare-fun", .atom name, .list (ps.map fun v => sortSexp v.sort), sortSexp s]) := by
  simp only [dumpFuncDec, N.children, N.name, N.sort, List.drop_succ_cons, List.drop_zero, sortList_flat]
  simp [flat, flats, tails, flat_sort]

mutual
/-- the words of an S-expression -/
def atoms : Sexp → List (List Char)
  | .atom s => [s]
  | .list xs => atomsL xs
/-- the words of a list -/
def atomsL : List Sexp → List (List Char)
  | [] => []
  | x :: xs => atoms x ++ atomsL xs
end

mutual
theorem flat_bal : ∀ e : Sexp, (∀ a ∈ atoms e, Lex.Bal a) → Lex.Bal (flat e)
  | .atom s, h => h s (by simp [atoms])
  | .list xs, h => by
    rw [flat]
    exact Lex.Bal.par (flats_bal xs h) .nil
theorem flats_bal : ∀ xs : List Sexp, (∀ a ∈ atomsL xs, Lex.Bal a) → Lex.Bal (flats xs)
  | [], _ => .nil
  | x :: xs, h => by
    rw [flats]
    exact Lex.Bal.append (flat_bal x fun a ha => h a (by simp [atomsL, ha])) (tails_bal xs fun a ha => h a (by simp [atomsL, ha]))
theorem tails_bal : ∀ xs : List Sexp, (∀ a ∈ atomsL xs, Lex.Bal a) → Lex.Bal (tails xs)
  | [], _ => .nil
  | x :: xs, h => by
    rw [tails]
    exact Lex.Bal.append (Lex.Bal.append (.ch (by decide) (by decide) (by decide) (by decide) (by decide) .nil)
      (flat_bal x fun a ha => h a (by simp [atomsL, ha]))) (tails_bal xs fun a ha => h a (by simp [atomsL, ha]))
end

/-- **C39, balance.**  When the names and sorts in the expression are balanced texts, so is what is printed. -/
theorem print_balanced_partial {n : N} (h : WF n) (ha : ∀ a ∈ atoms (sexpr n), Lex.Bal a) :
    ∃ k t, (∀ f, k ≤ f → dump f n = .ok t) ∧ Lex.Bal t := by
  obtain ⟨k, hk⟩ := print_exact_partial h
  exact ⟨k, _, hk, flat_bal _ ha⟩

/-! ## What goes wrong -/

/-- An algebraic number is printed without its last parenthesis, whatever its parts. -/
theorem print_algebraic_violated {p l u : N} (hp : WF p) (hl : WF l) (hu : WF u) (name : List Char) (s : Srt) :
    ∃ k, ∀ f, k ≤ f → dump f (.mk .REAL_ALGEBRAIC_NUMBER name s [p, l, u]) =
      .ok (cs!"(_ real_algebraic_number <" ++ flat (sexpr p) ++ cs!", ( " ++ flat (sexpr l) ++ cs!", " ++ flat (sexpr u) ++ cs!")>") := by
  refine dump_emits ?_
  have := Emits.step (n := .mk .REAL_ALGEBRAIC_NUMBER name s [p, l, u]) rfl ((emits_node hp).cons ((Emits.text cs!",").cons
    (Emits.space.cons ((Emits.text cs!"(").cons (Emits.space.cons ((emits_node hl).cons ((Emits.text cs!",").cons (Emits.space.cons
    ((emits_node hu).cons (Emits.close.cons (Emits.text cs!">")))))))))))
  simpa using this

/-- A root given by an interval is printed with two spaces before its first coefficient. -/
theorem print_root_violated {cs : List N} {l u : N} (hc : ∀ c ∈ cs, WF c) (hl : WF l) (hu : WF u) (name : List Char) (s : Srt) :
    ∃ k, ∀ f, k ≤ f → dump f (.mk .ROOT_OF_WITH_INTERVAL name s (cs ++ [l, u])) =
      .ok (cs!"(root-of-with-interval (coeffs " ++ tails (cs.map sexpr) ++ cs!") " ++ flat (sexpr l) ++ cs!" " ++ flat (sexpr u) ++ cs!")") := by
  refine dump_emits ?_
  have hx : expand (.mk .ROOT_OF_WITH_INTERVAL name s (cs ++ [l, u])) =
      some (cs!"(root-of-with-interval (coeffs ", [.close, .node u, .space, .node l, .space, .close] ++ pushArgs cs) := by
    simp [expand, N.kind, N.children]
  have := Emits.step hx (u := tails (cs.map sexpr) ++ (cs!")" ++ (cs!" " ++ (flat (sexpr l) ++ (cs!" " ++ (flat (sexpr u) ++ cs!")"))))))
    (by simpa using (emits_args fun c h => emits_node (hc c h)).append (Emits.close.cons (Emits.space.cons ((emits_node hl).cons
      (Emits.space.cons ((emits_node hu).cons Emits.close))))))
  simpa using this

/-- A binding list printed by itself loses its first binding. -/
theorem print_bindings_violated {b : N} {bs : List N} (hv : oneValue bs) (hw : ∀ c ∈ bs.flatMap N.children, WF c) (name : List Char) (s : Srt) :
    ∃ k, ∀ f, k ≤ f → dump f (.mk .LET_BIND_VAR_LIST name s (b :: bs)) = .ok (cs!"( " ++ flats (bs.map bind) ++ cs!")") := by
  refine dump_emits ?_
  obtain ⟨p, hp, hE⟩ := emits_binds hv (fun c hc => emits_node (hw c hc)) true
  have hx : expand (.mk .LET_BIND_VAR_LIST name s (b :: bs)) = some ([], [.text cs!")"] ++ p ++ [.text cs!"( "]) := by
    simp only [expand, N.kind, N.children, List.drop_succ_cons, List.drop_zero, hp]
    rfl
  have := Emits.step hx (u := cs!"( " ++ (flats (bs.map bind) ++ cs!")"))
    (by simpa using (Emits.text cs!"( ").append (hE.append (Emits.text cs!")")))
  simpa using this

/-- A node with too few children makes the printer read outside its children; one with too many loses the rest. -/
theorem print_arity_violated (name : List Char) (s : Srt) (f : Nat) {a b c : N} (ha : WF a) (hb : WF b) :
    dump (f + 1) (.mk .NOT name s []) = .ub ∧
    ∃ k, ∀ f, k ≤ f → dump f (.mk .FP_EQ name s [a, b, c]) = .ok (flat (.list [.atom cs!"fp.eq", sexpr a, sexpr b])) := by
  refine ⟨rfl, dump_emits ?_⟩
  have := Emits.step (n := .mk .FP_EQ name s [a, b, c]) rfl ((emits_node ha).cons (Emits.space.cons ((emits_node hb).cons Emits.close)))
  rw [show kindName (N.kind (.mk .FP_EQ name s [a, b, c])) = cs!"fp.eq" by show kindName .FP_EQ = _; decide +kernel] at this
  simpa [flat, flats, tails] using this

/-! ## Cases that meet the hypotheses -/

/-- `x`, an integer -/
def vx : N := .mk .VAR cs!"x" INT_SORT []
/-- `-3` -/
def m3 : N := .mk .CONST cs!"-3" INT_SORT []
/-- `(let ((y (+ x (- 3)))) (forall ((q Int)) (and (<= y q) (= x x x))))` -/
def ex : N :=
  let y : N := .mk .LET_BIND_VAR (cs!"y" ++ letSuffix ++ cs!"1") INT_SORT [.mk .ADD cs!"+" INT_SORT [vx, m3]]
  let q : N := .mk .QUANT_VAR cs!"q" INT_SORT []
  .mk .LET cs!"let" BOOL_SORT [.mk .FORALL cs!"forall" BOOL_SORT
    [.mk .AND cs!"and" BOOL_SORT [.mk .LE cs!"<=" BOOL_SORT [y, q], .mk .EQ cs!"=" BOOL_SORT [vx, vx, vx]], q], y]

theorem vx_wf : WF vx := .mk rfl trivial (by simp [operands])
theorem m3_wf : WF m3 := .mk rfl trivial (by simp [operands])

theorem ex_wf : WF ex := by
  have hadd : WF (.mk .ADD cs!"+" INT_SORT [vx, m3]) := .mk rfl trivial (by simp [operands, vx_wf, m3_wf])
  have hy : WF (.mk .LET_BIND_VAR (cs!"y" ++ letSuffix ++ cs!"1") INT_SORT [.mk .ADD cs!"+" INT_SORT [vx, m3]]) :=
    .mk rfl trivial (by simp [operands, hadd])
  have hq : WF (.mk .QUANT_VAR cs!"q" INT_SORT []) := .mk rfl trivial (by simp [operands])
  have hle : ∀ a b, WF a → WF b → WF (.mk .LE cs!"<=" BOOL_SORT [a, b]) := fun a b ha hb =>
    .mk rfl trivial (by intro c hc; simp [operands] at hc; rcases hc with rfl | rfl <;> assumption)
  have heq : WF (.mk .EQ cs!"=" BOOL_SORT [vx, vx, vx]) := .mk rfl trivial (by simp [operands, vx_wf])
  have hand : ∀ a b, WF a → WF b → WF (.mk .AND cs!"and" BOOL_SORT [a, b]) := fun a b ha hb =>
    .mk rfl trivial (by intro c hc; simp [operands] at hc; rcases hc with rfl | rfl <;> assumption)
  have hall : ∀ a v, WF a → WF (.mk .FORALL cs!"forall" BOOL_SORT [a, v]) := fun a v ha =>
    .mk rfl trivial (by intro c hc; simp [operands] at hc; rcases hc with rfl; assumption)
  refine .mk rfl ?_ ?_
  · intro b hb; simp at hb; subst hb; exact ⟨_, rfl⟩
  · intro c hc
    simp only [operands, List.take, List.tail, List.flatMap_cons, N.children, List.flatMap_nil, List.append_nil, List.mem_append,
      List.mem_singleton] at hc
    rcases hc with rfl | rfl
    · exact hall _ _ (hand _ _ (hle _ _ hy hq) heq)
    · exact hadd

example : flat (sexpr ex) = cs!"(let ((y (+ x (- 3)))) (forall ((q Int)) (and (<= y q) (= x x x))))" := by decide +kernel
example : dump 100 ex = .ok cs!"(let ((y (+ x (- 3)))) (forall ((q Int)) (and (<= y q) (= x x x))))" := by decide +kernel
example : ∀ a ∈ atoms (sexpr vx), Lex.Bal a := by
  intro a ha
  simp [sexpr, vx, form, atoms] at ha
  subst ha
  exact .ch (by decide) (by decide) (by decide) (by decide) (by decide) .nil

end SMT.Print
